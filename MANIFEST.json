{
 "claims": [
  {
   "property": "C01",
   "status": "proved",
   "theorems": [
    "Semla.Props.c01_accept_iff",
    "Semla.Props.c01_accept_unique",
    "Semla.Props.c01_exclusive"
   ],
   "note": "Acceptance iff for all byte strings, against the inductive grammar Spec.Accepts. Error buffer of at least 100 bytes (callers use 4096)."
  },
  {
   "property": "C02",
   "status": "proved",
   "theorems": [
    "Semla.Props.c02_reject",
    "Semla.Props.c02_reject_empty"
   ],
   "note": "Rejection classification depends on the message alone; empty command handed back."
  },
  {
   "property": "C03",
   "status": "proved",
   "theorems": [
    "Semla.Props.c03_parse_error_text_fits",
    "Semla.Props.c03_state_error_text_fits",
    "Semla.Props.c03_session_error_text_fits",
    "Semla.Props.c03_expected_text_fits"
   ],
   "note": "Grammar and protocol-state errors, every error text of every session, and the tool's expected-command text."
  },
  {
   "property": "C04",
   "status": "proved",
   "theorems": [
    "Semla.Props.c04_simple",
    "Semla.Props.c04_number",
    "Semla.Props.c04_length",
    "Semla.Props.c04_numlen"
   ],
   "note": "All four forms, both receivers (the tool drops the last byte before parsing), data extraction included."
  },
  {
   "property": "C05",
   "status": "proved",
   "theorems": [
    "Semla.Props.c05_simple_not_truncated",
    "Semla.Props.c05_number_not_truncated",
    "Semla.Props.c05_length_not_truncated",
    "Semla.Props.c05_numlen_not_truncated"
   ],
   "note": "Data objects below 2^63 bytes (PTRDIFF_MAX)."
  },
  {
   "property": "C06",
   "status": "partial",
   "theorems": [
    "Semla.Props.c06_extract_overflow_negated",
    "Semla.Props.c06_extract_overread_negated",
    "Semla.Props.c06_extract_uninit_negated",
    "Semla.Props.c06_extract_safe_iff_partial",
    "Semla.Props.c06_extract_data_partial"
   ],
   "note": "The property is false for the code (three witnesses); the exact safety condition and the extracted bytes in the safe case are proved."
  },
  {
   "property": "C07",
   "status": "proved",
   "theorems": [
    "Semla.Props.c07_whole_record",
    "Semla.Props.c07_failure",
    "Semla.Props.c07_memory_safe"
   ],
   "note": "All record contents, retries and portions; memory safety for every connection state and allocator."
  },
  {
   "property": "C08",
   "status": "proved",
   "theorems": [
    "Semla.Props.c08_reassembly_length",
    "Semla.Props.c08_reassembly_error",
    "Semla.Props.c08_reassembly_plain"
   ],
   "note": "All splits after the header line; memory available."
  },
  {
   "property": "C09",
   "status": "partial",
   "theorems": [
    "Semla.Props.c09_broken_connection_negated",
    "Semla.Props.c09_overlong_record_negated",
    "Semla.Props.c09_no_newline_negated",
    "Semla.Props.c09_success_without_data_negated",
    "Semla.Props.c09_first_record_partial"
   ],
   "note": "False for the code (four witnesses); the safe classes of first records are proved."
  },
  {
   "property": "C10",
   "status": "proved",
   "theorems": [
    "Semla.Props.c10_order",
    "Semla.Props.c10_served"
   ],
   "note": "For every session in which the executable does not misbehave."
  },
  {
   "property": "C11",
   "status": "proved",
   "theorems": [
    "Semla.Props.c11_unchanged",
    "Semla.Props.c11_refused"
   ],
   "note": "c11_refused assumes memory for the reply, whose text is below 4096 bytes; the error-text buffer of the session is the one field that changes."
  },
  {
   "property": "C12",
   "status": "proved",
   "theorems": [
    "Semla.Props.c12_root_fixed",
    "Semla.Props.c12_lib_is_final"
   ],
   "note": ""
  },
  {
   "property": "C13",
   "status": "partial",
   "theorems": [
    "Semla.Props.c13_empty_lib_not",
    "Semla.Props.c13_one_reply_partial"
   ],
   "note": "An empty LIB is not answered (c13_empty_lib_not); otherwise, with memory, exactly one reply."
  },
  {
   "property": "C14",
   "status": "proved",
   "theorems": [
    "Semla.Props.c14_lve_version",
    "Semla.Props.c14_tool_accepts_iff"
   ],
   "note": "Both sides."
  },
  {
   "property": "C15",
   "status": "proved",
   "theorems": [
    "Semla.Props.c15_untrusted"
   ],
   "note": "Including histories in which memory runs out."
  },
  {
   "property": "C16",
   "status": "proved",
   "theorems": [
    "Semla.Props.c16_approved_iff",
    "Semla.Props.c16_no_certificate_not"
   ],
   "note": "The claim is about tools presenting a key; without one the code passes NULL to strcmp (c16_no_certificate_not)."
  },
  {
   "property": "C17",
   "status": "proved",
   "theorems": [
    "Semla.Props.c17_plain",
    "Semla.Props.c17_unreadable",
    "Semla.Props.c17_encrypted",
    "Semla.Props.c17_library"
   ],
   "note": "For sessions in which memory does not run out and path lengths do not overflow size_t. c17_library composes with the encryptor: any packaged library whose encrypted files are found below the root."
  },
  {
   "property": "C18",
   "status": "partial",
   "theorems": [
    "Semla.Props.c18_escape_not",
    "Semla.Props.c18_confined_partial"
   ],
   "note": "False as stated: no check for '..' (c18_escape_not). Proved for requested paths without a '..' component."
  },
  {
   "property": "C19",
   "status": "proved",
   "theorems": [
    "Semla.Props.c19_root"
   ],
   "note": ""
  },
  {
   "property": "C20",
   "status": "proved",
   "theorems": [
    "Semla.Props.c20_feature",
    "Semla.Props.c20_returnfeature",
    "Semla.Props.c20_calls"
   ],
   "note": "c20_feature and c20_returnfeature assume memory for the reply, and that the executable does not misbehave (it does if the manager refuses without a message)."
  },
  {
   "property": "C21",
   "status": "proved",
   "theorems": [
    "Semla.Props.c21_one_manager"
   ],
   "note": ""
  },
  {
   "property": "C22",
   "status": "partial",
   "theorems": [
    "Semla.Props.c22_out_of_memory_not",
    "Semla.Props.c22_global_gate_partial"
   ],
   "note": "False if the allocation of the decryption context fails during LIB; holds when memory is available."
  },
  {
   "property": "C23",
   "status": "partial",
   "theorems": [
    "Semla.Props.c23_empty_lib_not",
    "Semla.Props.c23_late_directory_not",
    "Semla.Props.c23_not_directory_partial",
    "Semla.Props.c23_refused"
   ],
   "note": "False as stated: an empty LIB followed by FILE dereferences null, and a directory created after LIB is served from. Proved: while the root is no directory every FILE gets exactly one ERROR; after LIB refused for lack of a license no file contents are ever sent."
  },
  {
   "property": "C24",
   "status": "partial",
   "theorems": [
    "Semla.Props.c24_survives_not",
    "Semla.Props.c24_survives_partial",
    "Semla.Props.c24_library_partial"
   ],
   "note": "False as stated, eight ways shown. Proved for all sessions with arbitrary malformed or out-of-order messages whose well-formed commands carry the data they announce, with path-length and file-size conditions (or any honest session on an installed library), a license manager that explains failures, a client with a certificate, and memory. The replies of these sessions carry less than 2^63 bytes."
  },
  {
   "property": "C25",
   "status": "partial",
   "theorems": [
    "Semla.Props.c25_lve_notsimple",
    "Semla.Props.c25_tool_notsimple_partial",
    "Semla.Props.c25_returnlicense_not"
   ],
   "note": "Executable side, and the tool's license check. The tool's mlle_tool_returnlicense fails too, but with a generic 'unexpected command' error instead of 'not simplified' (negation proved)."
  },
  {
   "property": "C26",
   "status": "partial",
   "theorems": [
    "Semla.Props.c26_libpath_partial",
    "Semla.Props.c26_returnfeature_partial",
    "Semla.Props.c26_returnlicense_partial",
    "Semla.Props.c26_feature_partial",
    "Semla.Props.c26_license_partial",
    "Semla.Props.c26_file_partial",
    "Semla.Props.c26_version_partial",
    "Semla.Props.c26_success_only",
    "Semla.Props.c26_failure_error_partial",
    "Semla.Props.c26_version_send_failure_not",
    "Semla.Props.c26_refusal_abort_not",
    "Semla.Props.c26_success_with_error_not",
    "Semla.Props.c26_interrupted_file_not"
   ],
   "note": "Success exactly on the expected reply for well-formed reply streams; success only on it for every event sequence. Missing: replies with a NUL in the header or misreported lengths, for which the code aborts, blocks or reports success wrongly (proved as negations)."
  },
  {
   "property": "C27",
   "status": "proved",
   "theorems": [
    "Semla.Props.c27_chunks",
    "Semla.Props.c27_within_buffer"
   ],
   "note": "All contents and all chunk sequences."
  },
  {
   "property": "C28",
   "status": "proved",
   "theorems": [
    "Semla.Props.c28_delivery"
   ],
   "note": "Both programs, any number of requests, encrypted and plain files; file sizes below 2 GB, paths up to 16000 bytes, first record of a reply at least 100 bytes or all of it."
  },
  {
   "property": "C29",
   "status": "proved",
   "theorems": [
    "Semla.Props.c29_recorded",
    "Semla.Props.c29_no_memory",
    "Semla.Props.c29_null_location",
    "Semla.Props.c29_first_error_kept",
    "Semla.Props.c29_history",
    "Semla.Props.c29_free_chain",
    "Semla.Props.c29_propagate",
    "Semla.Props.c29_getter_null_negated"
   ],
   "note": "Contents at value level, release at heap level."
  },
  {
   "property": "C30",
   "status": "proved",
   "theorems": [
    "Semla.Props.c30_round_trip",
    "Semla.Props.c30_chunking",
    "Semla.Props.c30_layout_inverse"
   ],
   "note": "All contents an int can count (decryption takes the length as int), all names, IVs, keys and portions."
  },
  {
   "property": "C31",
   "status": "proved",
   "theorems": [
    "Semla.Props.c31_layout",
    "Semla.Props.c31_decrypt_output"
   ],
   "note": ""
  },
  {
   "property": "C32",
   "status": "proved",
   "theorems": [
    "Semla.Props.c32_mac_checked",
    "Semla.Props.c32_library"
   ],
   "note": "MAC arbitrary function; no unforgeability assumed, the collision is exhibited."
  },
  {
   "property": "C33",
   "status": "partial",
   "theorems": [
    "Semla.Props.c33_library_partial",
    "Semla.Props.c33_empty_package_not"
   ],
   "note": "Proved for non-empty package files whose paths fit the buffers; false for empty package files (witness)."
  },
  {
   "property": "C34",
   "status": "partial",
   "theorems": [
    "Semla.Props.c34_encrypt_nearest",
    "Semla.Props.c34_decrypt_truncates_not",
    "Semla.Props.c34_decrypt_sub_not"
   ],
   "note": "Encryption side proved; decryption side is false: contents are truncated by the key length, or undefined behaviour for short paths."
  },
  {
   "property": "C35",
   "status": "partial",
   "theorems": [
    "Semla.Props.c35_refused_partial",
    "Semla.Props.c35_lost_not"
   ],
   "note": "Proved for directories with an encrypted file directly in them; the guard is lost for ancestors in the first call of a context (witness)."
  },
  {
   "property": "C36",
   "status": "partial",
   "theorems": [
    "Semla.Props.c36_memory_safe_partial",
    "Semla.Props.c36_short_file_not",
    "Semla.Props.c36_short_package_not",
    "Semla.Props.c36_short_path_not",
    "Semla.Props.c36_long_path_not"
   ],
   "note": "Safe region proved; four kinds of violations shown."
  },
  {
   "property": "C37",
   "status": "proved",
   "theorems": [
    "Semla.Props.c37_keys_differ",
    "Semla.Props.c37_package_keys"
   ],
   "note": ""
  },
  {
   "property": "C38",
   "status": "partial",
   "theorems": [
    "Semla.Props.c38_accepts",
    "Semla.Props.c38_lookup",
    "Semla.Props.c38_rejects_partial",
    "Semla.Props.c38_empty_not"
   ],
   "note": "Missing: an empty argument string makes validateArguments read behind its end (c38_empty_not)."
  },
  {
   "property": "C39",
   "status": "proved",
   "theorems": [
    "Semla.Props.c39_no_source"
   ],
   "note": "For every library tree, listing order and failure of system calls; the staging directory is assumed to be listed truthfully."
  },
  {
   "property": "C40",
   "status": "partial",
   "theorems": [
    "Semla.Props.c40_partial",
    "Semla.Props.c40_case_not",
    "Semla.Props.c40_clash_not",
    "Semla.Props.c40_copy_not",
    "Semla.Props.c40_letters"
   ],
   "note": "Holds for libraries of regular files and directories that can be copied, in which nothing but package.mo is called like it in another letter case and no file has the name of the twin of another one; without these conditions it is false: unreadable files are left out silently, Package.mo is lost, an existing x.moc is overwritten."
  },
  {
   "property": "C41",
   "status": "partial",
   "theorems": [
    "Semla.Props.c41_order",
    "Semla.Props.c41_once",
    "Semla.Props.c41_calls",
    "Semla.Props.c41_all_partial",
    "Semla.Props.c41_case_not"
   ],
   "note": "Order and no file twice: proved for all trees, listings and failures. Every Modelica file: proved except for files and directories whose name is package.mo in another letter case (never encrypted, see the negation) and package files that cannot be opened."
  },
  {
   "property": "C42",
   "status": "partial",
   "theorems": [
    "Semla.Props.c42_attr_partial",
    "Semla.Props.c42_text_partial",
    "Semla.Props.c42_markup",
    "Semla.Props.c42_attr_not",
    "Semla.Props.c42_text_not"
   ],
   "note": "Markup part proved for every value. Round trip proved for values without tab, LF, CR in attributes and without CR in texts; false otherwise (c42_attr_not, c42_text_not)."
  },
  {
   "property": "C43",
   "status": "partial",
   "theorems": [
    "Semla.Props.c43_partial",
    "Semla.Props.c43_fields",
    "Semla.Props.c43_not"
   ],
   "note": "Missing: values that are not XML characters in UTF-8; false for them (c43_not)."
  },
  {
   "property": "C44",
   "status": "partial",
   "theorems": [
    "Semla.Props.c44_partial",
    "Semla.Props.c44_manifest_partial",
    "Semla.Props.c44_long_not",
    "Semla.Props.c44_longer_not",
    "Semla.Props.c44_last_not",
    "Semla.Props.c44_ff_not"
   ],
   "note": "Missing: overlong lines, last line without line feed, bytes 0 and 255; false for them (c44_..._not)."
  },
  {
   "property": "C45",
   "status": "partial",
   "theorems": [
    "Semla.Props.c45_partial",
    "Semla.Props.c45_library_name_not",
    "Semla.Props.c45_subdirectory_not",
    "Semla.Props.c45_other_file_not",
    "Semla.Props.c45_tmpdir_not"
   ],
   "note": "The property as documented is false: the path in the manifest starts with the name of the library, icons in subdirectories make the tool fail, a file of the same name elsewhere can be taken, and a long TMPDIR leads to a read behind the end. Proved: for an icon at the top level with a unique name, the attribute is the library name, a slash and the name."
  },
  {
   "property": "C46",
   "status": "partial",
   "theorems": [
    "Semla.Props.c46_codes",
    "Semla.Props.c46_arguments",
    "Semla.Props.c46_partial",
    "Semla.Props.c46_close_not",
    "Semla.Props.c46_open_not",
    "Semla.Props.c46_mkdtemp_not",
    "Semla.Props.c46_backslash_not",
    "Semla.Props.c40_copy_not"
   ],
   "note": "Exit status 1 exactly for unacceptable command lines; every listed failure of a step leads to a non-zero exit status not later than that step; every failing exit status has a reason in its step (for the encryption: no listing, a file that cannot be read or written, or names the encryption cannot handle); an archive exists on success if zip_close works. Missing: failures the tool ignores (single copies, zip_close) or runs into undefined behaviour with (fopen during encryption, mkdtemp), which are exhibited."
  },
  {
   "property": "C47",
   "status": "partial",
   "theorems": [
    "Semla.Props.c47_success",
    "Semla.Props.c47_checkout_partial",
    "Semla.Props.c47_misuse",
    "Semla.Props.c47_missing_value_not",
    "Semla.Props.c47_global_not",
    "Semla.Props.c47_no_manager_not"
   ],
   "note": "Success of a command line checkout always means the directory exists and the manager granted the feature; the converse holds when a manager can be created. Not true of the code: the global feature is never asked for, a missing option value and a manager that cannot be created are undefined behaviour (each shown)."
  },
  {
   "property": "C48",
   "status": "partial",
   "theorems": [
    "Semla.Props.c48_contents",
    "Semla.Props.c48_clear_partial",
    "Semla.Props.c48_clear_not"
   ],
   "note": "Contents, length, terminator and bounds hold for every key file. Clearing erases the declared bytes; with two or more carriage returns in the file, trailing bytes of the file survive (shown)."
  },
  {
   "property": "C49",
   "status": "partial",
   "theorems": [
    "Semla.Props.c49_incremental_partial",
    "Semla.Props.c49_replace_package_not"
   ],
   "note": "Proved for additions beside or below existing package files and for replaced plain files; re-encrypting an existing package.mo breaks its siblings (negation)."
  },
  {
   "property": "C50",
   "status": "partial",
   "theorems": [
    "Semla.Props.c50_not_scrubbed_negated",
    "Semla.Props.c50_short_record_partial"
   ],
   "note": "False for every record above 1023 bytes; holds when no buffer is replaced."
  },
  {
   "property": "C51",
   "status": "proved",
   "theorems": [
    "Semla.Props.c51_write_once"
   ],
   "note": "All outcome sequences of SSL_write."
  },
  {
   "property": "C52",
   "status": "proved",
   "theorems": [
    "Semla.Props.c52_success_means_complete"
   ],
   "note": ""
  },
  {
   "property": "C53",
   "status": "partial",
   "theorems": [
    "Semla.Props.c53_length_partial",
    "Semla.Props.c53_not",
    "Semla.Props.c53_usable"
   ],
   "note": "The declared length is 32 exactly for draws without a carriage return; every shorter length occurs (shown). Every draw still gives an array of 32 readable bytes."
  },
  {
   "property": "C54",
   "status": "partial",
   "theorems": [
    "Semla.Props.c54_base_directory",
    "Semla.Props.c54_no_base_directory_partial",
    "Semla.Props.c54_no_base_directory_not"
   ],
   "note": "Holds for every run with a base directory; without one the encrypted file takes the name of the target without its last character, so x.mo is overwritten when the target is x.moc (negation); the contents still decrypt to what was there."
  },
  {
   "property": "C55",
   "status": "partial",
   "theorems": [
    "Semla.Props.c55_frame",
    "Semla.Props.c55_contents_partial",
    "Semla.Props.c55_large_partial",
    "Semla.Props.c55_same_file_not"
   ],
   "note": "Frame and failure part for all runs; right contents for encrypted files up to 10 MB; larger ones fail without leaving output (c55_large_partial), except when the byte before the end of the buffer looks like padding, where a MAC that fits by chance cannot be excluded. False if the output is the input."
  },
  {
   "property": "C56",
   "status": "proved",
   "theorems": [
    "Semla.Props.c56_feature",
    "Semla.Props.c56_returnfeature"
   ],
   "note": "For license managers that never refuse without a message (otherwise the executable dereferences NULL, C24)."
  },
  {
   "property": "C57",
   "status": "partial",
   "theorems": [
    "Semla.Props.c57_partial"
   ],
   "note": "Composes packaging with decryption. Same exceptions as C33 (directories without or with empty package.mo, backslashes in names, long paths, huge files) and C40."
  },
  {
   "property": "C58",
   "status": "partial",
   "theorems": [
    "Semla.Props.c58_partial"
   ],
   "note": "Exceptions: tools and dependencies files (C44), argument values that are not XML characters (C43), lengths of TMPDIR below 4 or above 25 (C45), files that cannot be copied (C40)."
  },
  {
   "property": "C59",
   "status": "partial",
   "theorems": [
    "Semla.Props.c59_start_partial",
    "Semla.Props.c59_succeeds_iff",
    "Semla.Props.c59_stays",
    "Semla.Props.c59_distinct",
    "Semla.Props.c59_stdin_not"
   ],
   "note": "Proved for tools whose standard input is open; false without (c59_stdin_not). c59_succeeds_iff says exactly which starts succeed, for every tool."
  },
  {
   "property": "C60",
   "status": "partial",
   "theorems": [
    "Semla.Props.c60_write_partial",
    "Semla.Props.c60_read_not"
   ],
   "note": "Writing fails as expected; reading never ends, because the tool keeps a write end itself (c60_read_not)."
  },
  {
   "property": "C61",
   "status": "partial",
   "theorems": [
    "Semla.Props.c61_end_partial",
    "Semla.Props.c61_later_not",
    "Semla.Props.c61_descriptor_not",
    "Semla.Props.c61_exhaustion_not",
    "Semla.Props.c61_failure_not",
    "Semla.Props.c61_orphan_not"
   ],
   "note": "The vendor executable sees the end of its input if no later one is running; false otherwise, and descriptors are lost with every start."
  },
  {
   "property": "C62",
   "status": "partial",
   "theorems": [
    "Semla.Props.c62_partial",
    "Semla.Props.c62_connections_not",
    "Semla.Props.c62_files_not"
   ],
   "note": "Earlier vendor executables have no access; later ones inherit everything."
  },
  {
   "property": "C63",
   "status": "partial",
   "theorems": [
    "Semla.Props.c63_report_partial",
    "Semla.Props.c63_missing_file",
    "Semla.Props.c63_not_executable",
    "Semla.Props.c63_system",
    "Semla.Props.c63_setup",
    "Semla.Props.c63_handshake",
    "Semla.Props.c63_uninit_not",
    "Semla.Props.c63_ssl_new_not"
   ],
   "note": "Proved with memory available and a reason in OpenSSL's error queue; undefined behaviour otherwise."
  },
  {
   "property": "C64",
   "status": "partial",
   "theorems": [
    "Semla.Props.c64_key",
    "Semla.Props.c64_untrusted",
    "Semla.Props.c64_files",
    "Semla.Props.c64_setup_not"
   ],
   "note": "Everything about replies is proved; false in that failing preparation ends in a null pointer (c64_setup_not)."
  },
  {
   "property": "C65",
   "status": "partial",
   "theorems": [
    "Semla.Props.c65_cleared_partial",
    "Semla.Props.c65_key",
    "Semla.Props.c65_carriage_return_not"
   ],
   "note": "Proved for key files with at most one carriage return; false with more."
  },
  {
   "property": "C66",
   "status": "partial",
   "theorems": [
    "Semla.Props.c66_same",
    "Semla.Props.c66_partial",
    "Semla.Props.c66_failure_not",
    "Semla.Props.c66_ignored_not"
   ],
   "note": "Proved for runs that succeed and whose removal meets no trouble; every failing run leaves the sources (c66_failure_not)."
  },
  {
   "property": "C67",
   "status": "partial",
   "theorems": [
    "Semla.Props.c67_request",
    "Semla.Props.c67_version",
    "Semla.Props.c67_unsent_not"
   ],
   "note": "Proved: at most one message, the documented one, and exactly one if memory and connection allow it; version succeeds only if it was sent. Refuted: that a call whose request could not be sent fails (the send functions ignore the result of the write)."
  },
  {
   "property": "C68",
   "status": "partial",
   "theorems": [
    "Semla.Props.c68_answers_partial",
    "Semla.Props.c68_malformed",
    "Semla.Props.c68_tools_not",
    "Semla.Props.c68_returnlicense_not"
   ],
   "note": "Proved for every command but TOOLS (answered VERSION 4) and RETURNLICENSE (answered NOTSIMPLE), for which the property is refuted."
  },
  {
   "property": "C69",
   "status": "partial",
   "theorems": [
    "Semla.Props.c69_partial",
    "Semla.Props.c69_copy_not",
    "Semla.Props.c69_nested_not",
    "Semla.Props.c69_manifest_not",
    "Semla.Props.c69_modelica_not",
    "Semla.Props.c69_vendor_not"
   ],
   "note": "Proved for extra files that can be copied, whose names do not clash with what the tool puts into .library, outside nested .library directories, and without Modelica files if the library is encrypted; each restriction has a negation."
  },
  {
   "property": "C70",
   "status": "partial",
   "theorems": [
    "Semla.Props.c70_partial"
   ],
   "note": "Composition of the packaging run (C57, C40) with delivery (C28). Missing: conditions of C57 (package file in every directory, plain names, sizes, noticed copying), other files named like encrypted ones; unpacking itself is an assumption (InstalledAt)."
  },
  {
   "property": "C71",
   "status": "partial",
   "theorems": [
    "Semla.Props.c71_session_partial",
    "Semla.Props.c71_encrypt_partial",
    "Semla.Props.c71_decrypt_partial",
    "Semla.Props.c71_debug_not"
   ],
   "note": "Release builds: every log message is fixed text around a path from the request (sessions), or of the file worked on (encryption, decryption). False for builds with DEBUG or _DEBUG: the vendor key is in the log."
  },
  {
   "property": "C72",
   "status": "partial",
   "theorems": [
    "Semla.Props.c72_same",
    "Semla.Props.c72_partial",
    "Semla.Props.c72_previous_not",
    "Semla.Props.c72_long_name_not",
    "Semla.Props.c72_other_file_not"
   ],
   "note": "For names up to 195 bytes and archive paths below 2048 bytes only <library>.mol changes, it holds the archive, and runs that fail before archiving change nothing. False for longer names and paths, and for runs that fail while archiving."
  },
  {
   "property": "C73",
   "status": "partial",
   "theorems": [
    "Semla.Props.c73_header",
    "Semla.Props.c73_obfuscate_partial",
    "Semla.Props.c73_obfuscate_succeeds",
    "Semla.Props.c73_random_partial",
    "Semla.Props.c73_random_succeeds",
    "Semla.Props.c73_trusted",
    "Semla.Props.c73_lost_not",
    "Semla.Props.c73_stat_not",
    "Semla.Props.c73_random_not"
   ],
   "note": "Full for the text of the header and for builds in which nothing is lost in writing and stat works. Missing: lost output is not noticed (c73_lost_not), a missing key file is undefined behaviour (c73_stat_not), as is randomize_key without memory (c73_random_not)."
  },
  {
   "property": "C74",
   "status": "partial",
   "theorems": [
    "Semla.Props.c74_same",
    "Semla.Props.c74_bounded_partial",
    "Semla.Props.c74_session_partial",
    "Semla.Props.c74_file",
    "Semla.Props.c74_lost_not"
   ],
   "note": "Valid frees, the caller's blocks, and the file contents in full. Full statement c74_full (nothing in use afterwards) is false: c74_lost_not shows that every call loses at least 16400 bytes; c74_bounded_partial and c74_session_partial bound what is lost."
  },
  {
   "property": "C75",
   "status": "partial",
   "theorems": [
    "Semla.Props.c75_same",
    "Semla.Props.c75_partial",
    "Semla.Props.c75_count",
    "Semla.Props.c75_shutdown",
    "Semla.Props.c75_streams_not",
    "Semla.Props.c75_blocks_not",
    "Semla.Props.c75_not"
   ],
   "note": "No invalid free in any session; at most one block per command is lost; with enough memory (and sizes of files known) exactly the blocks of the context stay in use and no file stays open. Negated in general: a file that can be opened but for which calloc fails stays open (n requests, n open files), and the error text for missing memory is lost."
  },
  {
   "property": "C76",
   "status": "partial",
   "theorems": [
    "Semla.Props.c76_malformed_partial",
    "Semla.Props.c76_one_complaint",
    "Semla.Props.c76_out_of_turn",
    "Semla.Props.c76_untrusted",
    "Semla.Props.c76_unlicensed",
    "Semla.Props.c76_blank_not",
    "Semla.Props.c14_lve_version",
    "Semla.Props.c17_unreadable",
    "Semla.Props.c17_encrypted"
   ],
   "note": "Proved for every session and message; for a message with an argument of white space the text is left over from an earlier error, which is shown (c76_blank_not). Replies to FEATURE are in C20."
  },
  {
   "property": "C77",
   "status": "partial",
   "theorems": [
    "Semla.Props.c77_partial",
    "Semla.Props.c77_codes_partial",
    "Semla.Props.c77_connection_not",
    "Semla.Props.c77_blank_not"
   ],
   "note": "Proved for every call and every answer of C26 (Replies) if the command can be sent and memory suffices; the text is empty when OpenSSL gives no reason, an answer is longer than a record, or an argument of the answer is white space."
  },
  {
   "property": "C78",
   "status": "partial",
   "theorems": [
    "Semla.Props.c78_feature_partial",
    "Semla.Props.c78_library",
    "Semla.Props.c78_command_line",
    "Semla.Props.c78_nul_not"
   ],
   "note": "Proved for feature names without NUL, which are all that the tool library can send. False for a name in a FEATURE command that continues behind a NUL: only the part before it is compared (c78_nul_not)."
  },
  {
   "property": "C79",
   "status": "partial",
   "theorems": [
    "Semla.Props.c79_copy_partial",
    "Semla.Props.c79_copy_steps",
    "Semla.Props.c79_icon",
    "Semla.Props.c79_encrypt",
    "Semla.Props.c79_archive",
    "Semla.Props.c79_contents_not",
    "Semla.Props.c79_missing_not",
    "Semla.Props.c79_names_not",
    "Semla.Props.c79_open_not",
    "Semla.Props.c79_endless_not"
   ],
   "note": "Holds if all paths, in the library and in the copy, are shorter than 2048 bytes and fewer directories are inside each other than can be opened (c79_copy_partial); all four walks are then those of the model used for C39-C46 (c79_copy_steps, c79_icon, c79_encrypt, c79_archive). Otherwise it does not hold: a file with the contents of another, missing files, wrong names, a directory copied into itself, and no failure reported (c79_*_not)."
  },
  {
   "property": "C80",
   "status": "partial",
   "theorems": [
    "Semla.Props.c80_streams_partial",
    "Semla.Props.c80_ends_partial",
    "Semla.Props.c80_starts",
    "Semla.Props.c80_says_why",
    "Semla.Props.c80_early_failure_partial",
    "Semla.Props.c80_failure_not",
    "Semla.Props.c80_window_not",
    "Semla.Props.c80_closed_not",
    "Semla.Props.c80_inherit_not",
    "Semla.Props.c80_long_not"
   ],
   "note": "Holds for starts that succeed in a program whose standard input and output are open (c80_streams_partial, c80_ends_partial), except that the vendor executable inherits these; starts succeed if the file can be started (c80_starts, names below 4091 bytes); the streams survive failures before they are redirected (c80_early_failure_partial). Does not hold for later failures, programs without console, closed streams, long names (c80_*_not). Failed starts say why (c80_says_why)."
  },
  {
   "property": "C81",
   "status": "partial",
   "theorems": [
    "Semla.Props.c81_no_deadlock_partial",
    "Semla.Props.c81_library_partial",
    "Semla.Props.c81_waits_for_ever_not"
   ],
   "note": "Proved for all adaptive clients whose string arguments are C strings of at most 16000 bytes with the path conditions of C24 (or on an installed library), memory, and a license manager that explains failures; all pipe sizes, record encodings and schedules. False for the empty library path (c81_waits_for_ever_not). The TLS handshake and a closed connection are outside the model."
  },
  {
   "property": "C82",
   "status": "partial",
   "theorems": [
    "Semla.Props.c82_table",
    "Semla.Props.c82_trusts_partial",
    "Semla.Props.c82_builds",
    "Semla.Props.c82_stale_not"
   ],
   "note": "Every list of key files, in a new build directory or without empty lines. Missing: an empty line together with a header left from an earlier build, where a removed key stays approved (c82_stale_not), and lost writes (c73_lost_not)."
  },
  {
   "property": "C83",
   "status": "partial",
   "theorems": [
    "Semla.Props.c83_same_partial",
    "Semla.Props.c83_exactly_partial",
    "Semla.Props.c83_complete_partial",
    "Semla.Props.c83_no_source",
    "Semla.Props.c83_icon_fails",
    "Semla.Props.c83_same_full_not",
    "Semla.Props.c83_empty_not",
    "Semla.Props.c83_icon_not",
    "Semla.Props.c83_deep_icon_not",
    "Semla.Props.c83_case_not",
    "Semla.Props.c83_package_dir_not",
    "Semla.Props.c83_stat_not",
    "Semla.Props.c83_open_not",
    "Semla.Props.c83_temp_not",
    "Semla.Props.c83_letters"
   ],
   "note": "Success on Windows gives the same package on Linux (manifest line ends aside), for names that differ by more than letter case, icons at the top of the library, no directory called package.mo and working stat; without an icon, success on Windows holds exactly when Linux makes a package with a file in every directory. c83_same_full is the unrestricted claim, which c83_same_full_not refutes. No source in encrypted packages without conditions."
  },
  {
   "property": "C84",
   "status": "partial",
   "theorems": [
    "Semla.Props.c84_safe",
    "Semla.Props.c84_right",
    "Semla.Props.c84_reads_partial",
    "Semla.Props.c84_exactly",
    "Semla.Props.c84_named",
    "Semla.Props.c84_empty_not",
    "Semla.Props.c84_full_not"
   ],
   "note": "Memory safety and right contents without conditions on lengths. Files can be read if the path has at most 259 characters, or at most 4092 and the file is not empty; exactly then where long paths need the prefix. Every message names the file (c84_named). c84_full (every file below 2^31 bytes can be read) is refuted by empty files with long paths."
  },
  {
   "property": "C85",
   "status": "partial",
   "theorems": [
    "Semla.Props.c85_never_json_not",
    "Semla.Props.c85_full_not",
    "Semla.Props.c85_members_partial",
    "Semla.Props.c85_no_tools_not"
   ],
   "note": "The claim fails for every build: there is a comma behind the last member. Without it the text would be an object with the right members; a tools.txt without lines gives one empty tool name."
  },
  {
   "property": "C86",
   "status": "partial",
   "theorems": [
    "Semla.Props.c86_finds_partial",
    "Semla.Props.c86_library_partial",
    "Semla.Props.c86_memory_not"
   ],
   "note": "Holds as long as malloc grants what the hash table asks for (and no block of 64 GiB, where the number of buckets would wrap): lookups give exactly the masks added, and whole libraries are encrypted and decrypted as with an ideal table, with the limits of C33. The full claim is false: when malloc refuses memory, uthash ends the program with exit(-1)."
  },
  {
   "property": "C87",
   "status": "partial",
   "theorems": [
    "Semla.Props.c87_archive_partial",
    "Semla.Props.c87_accepts_partial",
    "Semla.Props.c87_two_gigabytes_not",
    "Semla.Props.c87_signature_not",
    "Semla.Props.c87_damage_not"
   ],
   "note": "Whenever all calls report success, a strict ZIP reader gets exactly the files, for all I/O outcomes; archives below 80 MB and 19280 files are accepted. Missing: the compressor, and archives of 2 GiB and more (negated)."
  },
  {
   "property": "C88",
   "status": "partial",
   "theorems": [
    "Semla.Props.c88_safe_partial",
    "Semla.Props.c88_usable",
    "Semla.Props.c88_released_partial",
    "Semla.Props.c88_serve_partial",
    "Semla.Props.c88_keys_not",
    "Semla.Props.c88_null_not",
    "Semla.Props.c88_start_not"
   ],
   "note": "Proved: no object is used or freed after it was freed, for all histories and all failing calls except X509_new and SSL_new; everything an open connection refers to exists; SSL and BIOs are freed on release; the same for the vendor executable once its setup has succeeded. False, with proof: CTX, certificate and two RSA objects with the private key stay allocated after each start (c88_keys_not); X509_new or SSL_new failing leads to a null pointer being used; a start that fails leaves objects behind."
  },
  {
   "property": "C89",
   "status": "partial",
   "theorems": [
    "Semla.Props.c89_contents_partial",
    "Semla.Props.c89_made_partial",
    "Semla.Props.c89_no_source_partial",
    "Semla.Props.c89_complete_partial",
    "Semla.Props.c89_served_partial",
    "Semla.Props.c89_appends",
    "Semla.Props.c89_previous_not",
    "Semla.Props.c89_full_not"
   ],
   "note": "Whenever success is reported a strict ZIP reader gets exactly the package of C83 from the bytes of the file, hence all files of the library and no sources; composed with C70 up to what a tool receives. Missing: a previous file that cannot be removed (c89_previous_not: refuted, sources of an earlier package stay), 2 GiB and more (C87), the compressor, conditions of C83 and C70."
  },
  {
   "property": "C90",
   "status": "partial",
   "theorems": [
    "Semla.Props.c90_reads",
    "Semla.Props.c90_plain_partial",
    "Semla.Props.c90_missing",
    "Semla.Props.c90_served_partial",
    "Semla.Props.c90_empty_not",
    "Semla.Props.c90_full_not"
   ],
   "note": "Files with paths above 4092 characters or 2^31 bytes and empty files with paths of 260 characters or more are not served (c90_empty_not, c90_full_not); otherwise as for C89 and C84. Enough memory is assumed; how the archive is unpacked is not modelled."
  },
  {
   "property": "C91",
   "status": "partial",
   "theorems": [
    "Semla.Props.c91_same",
    "Semla.Props.c91_partial",
    "Semla.Props.c91_gone_partial",
    "Semla.Props.c91_open_not",
    "Semla.Props.c91_ignored_not",
    "Semla.Props.c91_failure_not",
    "Semla.Props.c91_full_not"
   ],
   "note": "Proved for runs that succeed and whose removal meets no trouble: no file is left if the directory that the search for the icon lists first has no directories in it, nothing at all without an icon or where open directories go at once. False, with proof: failing runs, failures of the removal, and directories that the search for the icon leaves open."
  },
  {
   "property": "C92",
   "status": "partial",
   "theorems": [
    "Semla.Props.c92_encrypt_partial",
    "Semla.Props.c92_decrypt_partial",
    "Semla.Props.c92_room",
    "Semla.Props.c92_failure",
    "Semla.Props.c92_refused",
    "Semla.Props.c92_decrypt_not",
    "Semla.Props.c92_encrypt_not",
    "Semla.Props.c92_memory_not",
    "Semla.Props.c92_full_not"
   ],
   "note": "Neither tool looks at the result of fclose: with exit status 0 the output may lack the bytes that were in the buffer of the C library when the disk was full (c92_encrypt_not, c92_decrypt_not); proved that no more is missing, nothing if there is room, that nothing is left after a failure, and that refusals do not depend on the disk (c92_refused). Without memory for its context, decrypt_file writes the key mask behind the contents of a package file (c92_memory_not)."
  },
  {
   "property": "C93",
   "status": "partial",
   "theorems": [
    "Semla.Props.c93_copy_partial",
    "Semla.Props.c93_made",
    "Semla.Props.c93_bytes",
    "Semla.Props.c93_package_partial",
    "Semla.Props.c93_read_not",
    "Semla.Props.c93_disk_not",
    "Semla.Props.c93_lve_not",
    "Semla.Props.c93_full_not"
   ],
   "note": "The result of fread only gives a message, those of fwrite and fclose are ignored: with exit status 0 files in the package may be filled up with zeros or cut. Proved for files that can be read, with room on the disk; and that copies contain nothing but bytes of the file and zeros."
  },
  {
   "property": "C94",
   "status": "partial",
   "theorems": [
    "Semla.Props.c94_partial",
    "Semla.Props.c94_package",
    "Semla.Props.c94_complete_partial",
    "Semla.Props.c94_room",
    "Semla.Props.c94_no_source",
    "Semla.Props.c94_encrypted_not",
    "Semla.Props.c94_unusable_not",
    "Semla.Props.c94_manifest_not",
    "Semla.Props.c94_full_not"
   ],
   "note": "Full statement c94_full is false (c94_full_not): closing a file is not checked. Proved: the package has the same files, cut at most where the disk was full, encrypted files by no more than the C library's buffer; equality with enough room, and with C93 completeness of the package; no Modelica files in encrypted packages. Missing: ends of encrypted files and of the manifest."
  }
 ]
}
