{"id": "C01", "title": "Header acceptance matches the published message grammar", "statement": "A received message is accepted as a command if and only if its first non-empty line consists of exactly a known command name followed by the integer arguments its message form calls for (with a non-negative data length); the accepted command carries that name's id and exactly those integers. Every other message is rejected.", "quantifier": "every byte string received as a message (any length, embedded NULs, newlines, spaces, signs, overflowing digits)", "why_tests_cant": "The set of messages is infinite; the unit tests only tokenise a handful of well-formed lines.", "anchors": ["src/common/mlle_parse_command.c: mlle_tokenize, parse_int, mlle_parse_command", "src/common/mlle_protocol.c: mlle_command_info, mlle_nbr_tokens_for_form"]}
{"id": "C02", "title": "Rejected headers never leak a partial command", "statement": "Whenever a message is rejected by the grammar, the command structure handed back has the undefined id, number 0, length 0 and no data; nothing from the rejected message survives in it. Which rejection code is returned is determined by the message alone.", "quantifier": "every byte string received as a message and every previous content of the command structure", "why_tests_cant": "Needs every rejection path for every malformed input.", "anchors": ["src/common/mlle_parse_command.c: mlle_parse_command"]}
{"id": "C03", "title": "Error text formatting stays inside the caller's buffer", "statement": "Reporting a grammar or protocol-state error never writes outside the 4096-byte error buffer, the 285-byte list of valid commands, or the buffer used for the list of expected commands, whatever the offending message or state is; the resulting text is always NUL-terminated inside the buffer.", "quantifier": "every message, every protocol state, every command, every list of expected commands", "why_tests_cant": "Memory safety of a chained snprintf is a claim about all inputs; a test only observes one write.", "anchors": ["src/common/mlle_parse_command.c: mlle_parse_command", "src/lve/mlle_protocol_lve_state.c: mlle_next_state", "src/tool/mlle_licensing.c: mlle_expect_commands"]}
{"id": "C04", "title": "Send then parse is the identity", "statement": "A command sent with the simple, number, length, or number-and-length form is parsed by the peer (tool or vendor executable) as the same command with the same number and the same data length, and the extracted data is byte for byte the data sent.", "quantifier": "every command of the form, every long number, every data byte string (including NULs, newlines and header look-alikes)", "why_tests_cant": "Data is arbitrary binary; round-trip for all byte strings cannot be enumerated.", "anchors": ["src/common/mlle_io.c: mlle_send_simple_form, mlle_send_number_form, mlle_send_length_form, mlle_send_number_and_length_form, mlle_send_string, mlle_send_error", "src/common/mlle_parse_command.c: mlle_parse_command", "src/common/mlle_utils.c: extract_data"]}
{"id": "C05", "title": "Outgoing headers are never truncated", "statement": "The fixed-size buffers used to compose outgoing messages are always large enough: no header is truncated and no write goes outside the buffer, for any command, number and length.", "quantifier": "every command id, every 64-bit signed number, every size_t length", "why_tests_cant": "Worst-case widths (20-digit numbers, longest name) must be covered for all combinations.", "anchors": ["src/common/mlle_io.h: SIMPLE_FORM_BUFFER_SIZE, NUMBER_FORM_BUFFER_SIZE, NUMBER_AND_LENGTH_FORM_BUFFER_SIZE", "src/common/mlle_io.c: mlle_send_*_form"]}
{"id": "C06", "title": "Message data extraction is memory safe", "statement": "Extracting the data part of a received message never reads or writes outside the buffers involved, and yields exactly the declared number of bytes, all of them taken from the message.", "quantifier": "every message and every declared length", "why_tests_cant": "An attacker picks the message; safety has to hold for all combinations of declared and actual length.", "anchors": ["src/common/mlle_utils.c: extract_data"]}
{"id": "C07", "title": "A TLS read returns the whole record, in order, exactly once", "statement": "Reading one message from the TLS connection returns the concatenation, in order and without loss or duplication, of the bytes of the next non-empty record, however many retries and partial reads it takes; the receive buffer is never overrun and a successful read is never empty.", "quantifier": "every record content and size, every interleaving of retry notifications and partial reads", "why_tests_cant": "Depends on the schedule of non-blocking reads, which a test cannot enumerate.", "anchors": ["src/common/mlle_ssl.c: ssl_read_message"]}
{"id": "C08", "title": "The tool reassembles replies split over several records", "statement": "When a reply is delivered as several TLS records (header complete in the first one), the tool-side reader returns the command with exactly the data sent, for every split, and stays inside the data buffer.", "quantifier": "every reply and every way of splitting it into records and partial reads", "why_tests_cant": "All segmentations of all payload sizes.", "anchors": ["src/common/mlle_utils.c: mlle_read_command", "src/common/mlle_ssl.c: ssl_read_message"]}
{"id": "C09", "title": "A misbehaving peer cannot corrupt the tool", "statement": "Whatever bytes and connection failures the peer produces, reading a reply on the tool side either yields a command whose data has the declared length or reports an error, without memory corruption.", "quantifier": "every sequence of records and connection failures", "why_tests_cant": "Adversarial peers and failure points are unbounded.", "anchors": ["src/common/mlle_utils.c: mlle_read_command, extract_data"]}
{"id": "C10", "title": "Protocol ordering is enforced", "statement": "Files, features and licenses are only ever handled after a version has been agreed on and a LIB command has been handled, in that order; TOOLS is handled at most once and only between VERSION and LIB.", "quantifier": "every sequence of messages sent to the vendor executable", "why_tests_cant": "Requires all histories of the session.", "anchors": ["src/lve/mlle_protocol_lve_state.c: mlle_lve_valid_command_for_state, mlle_next_state", "src/lve/mlle_lve.c: mlle_lve_handle_command, mlle_lve_receive"]}
{"id": "C11", "title": "Out-of-order or malformed messages are harmless", "statement": "A message that is malformed, or a well-formed command that is not valid in the current protocol state, gets exactly one ERROR reply with code 1 and leaves the whole session (protocol state, library path, approval, license manager, key cache) unchanged.", "quantifier": "every session state and every such message", "why_tests_cant": "All states times all messages.", "anchors": ["src/lve/mlle_lve.c: mlle_lve_handle_command, mlle_lve_receive", "src/lve/mlle_protocol_lve_state.c: mlle_next_state"]}
{"id": "C12", "title": "The library path is fixed once per session", "statement": "Once a LIB command has been handled, no later message of the session can change the library root that files are served from.", "quantifier": "every message history after the LIB command", "why_tests_cant": "History property.", "anchors": ["src/lve/mlle_protocol_lve_state.c: mlle_lve_valid_command_for_state", "src/lve/mlle_lve_libpath.c: mlle_lve_libpath"]}
{"id": "C13", "title": "Exactly one reply per message", "statement": "Every message received by the vendor executable is answered by exactly one reply message, so a tool that waits for a reply is never left hanging and replies never get out of step with requests.", "quantifier": "every session history and every message", "why_tests_cant": "Liveness/lock-step over all histories.", "anchors": ["src/lve/mlle_lve.c: mlle_lve_handle_command, mlle_lve_receive", "src/lve/mlle_lve_libpath.c: mlle_lve_libpath", "src/lve/mlle_lve_feature.c", "src/lve/mlle_lve_file.c: mlle_lve_file"]}
{"id": "C14", "title": "Version negotiation", "statement": "The vendor executable answers a VERSION command carrying v with VERSION 1 if v is at least 1, and otherwise with ERROR 2, staying in the state where only VERSION is accepted. The tool accepts the answer if and only if it lies between the minimum and maximum version it was called with.", "quantifier": "every version number, every [min,max] interval", "why_tests_cant": "All integers, including overflowing ones.", "anchors": ["src/lve/mlle_lve.c: mlle_lve_handle_command", "src/tool/mlle_licensing.c: mlle_tool_version"]}
{"id": "C15", "title": "Untrusted tools never receive file contents", "statement": "If the public key the tool presented is not in the vendor executable's list of trusted keys, no message history makes the vendor executable send any FILECONT message; every FILE request is answered by an ERROR.", "quantifier": "every key list, every presented key, every message history, every file system and license manager", "why_tests_cant": "Security property over all histories and environments.", "anchors": ["src/lve/mlle_lve_pubkey.c: mlle_lve_validate_pubkey, validate", "src/lve/mlle_lve_file.c: mlle_lve_file", "src/lve/mlle_lve.c: mlle_lve_receive"]}
{"id": "C16", "title": "Tool approval is exactly key membership", "statement": "A tool that presents a public key is approved if and only if the key equals one of the trusted keys, regardless of the position and number of trusted keys.", "quantifier": "every list of trusted keys and every presented key (including none)", "why_tests_cant": "All key lists.", "anchors": ["src/lve/mlle_lve_pubkey.c: validate, mlle_lve_validate_pubkey", "src/lve/mlle_ssl_lve.c: cert_verify_callback"]}
{"id": "C17", "title": "FILE returns exactly the requested file", "statement": "For an approved tool in the license state, FILE p is answered with FILECONT carrying the bytes of the file at <library>/p if p has no .moc extension (in any letter case), and the decrypted bytes if it has; with ERROR 6 if the file cannot be read and ERROR 8 if decryption fails.", "quantifier": "every path, every file system, every session state", "why_tests_cant": "All paths and contents.", "anchors": ["src/lve/mlle_lve_file.c: mlle_lve_file", "src/common/mlle_io.c: mlle_io_read_file"]}
{"id": "C18", "title": "FILE requests are confined to the library", "statement": "A file served in answer to a FILE request always lies inside the library directory given by LIB.", "quantifier": "every requested path", "why_tests_cant": "Path traversal is a for-all-inputs claim.", "anchors": ["src/lve/mlle_lve_file.c: mlle_lve_file", "doc/SEMLA.md: Decryption"]}
{"id": "C19", "title": "Library path normalisation", "statement": "The library root used for serving is the LIB data with all trailing slashes and backslashes removed, except that a path consisting only of separators keeps its first character; the result never ends in a separator unless it is a single character.", "quantifier": "every LIB data string", "why_tests_cant": "All strings.", "anchors": ["src/lve/mlle_lve_libpath.c: mlle_lve_libpath"]}
{"id": "C20", "title": "License answers come from the license manager", "statement": "FEATURE f is answered YES if and only if the license manager grants f at that point of its call history, and otherwise NO with the manager's message (or ERROR 7 if no manager can be created); the manager is asked exactly once per FEATURE, and only a RETURNFEATURE checks a feature in.", "quantifier": "every history, every (stateful) license manager, every feature name", "why_tests_cant": "Stateful oracle, all histories.", "anchors": ["src/lve/mlle_lve_feature.c: mlle_lve_feature, mlle_lve_returnfeature, mlle_lve_setup_licensing"]}
{"id": "C21", "title": "The license manager is created at most once", "statement": "During a session at most one license manager is successfully created, and it is created for the library root of the session.", "quantifier": "every message history and every license manager behaviour", "why_tests_cant": "History property.", "anchors": ["src/lve/mlle_lve_feature.c: mlle_lve_setup_licensing", "src/lve/mlle_lve_libpath.c: mlle_lve_libpath"]}
{"id": "C22", "title": "Global license gate", "statement": "In a build with a global license feature, a tool for which that feature could not be checked out never receives file contents during the session.", "quantifier": "every history, every license manager behaviour", "why_tests_cant": "History property over an arbitrary oracle.", "anchors": ["src/lve/mlle_lve_libpath.c: mlle_lve_libpath (MLLE_GLOBAL_LICENSE_FEATURE)", "src/lve/mlle_lve_file.c: mlle_lve_file"]}
{"id": "C23", "title": "A failed LIB keeps files closed", "statement": "If the LIB command failed (missing path, not a directory, nonexistent), later FILE requests of that session are answered with an error and never with file contents, and never make the executable misbehave.", "quantifier": "every LIB data, every file system, every later history", "why_tests_cant": "History property.", "anchors": ["src/lve/mlle_lve_libpath.c: mlle_lve_libpath, validate_directory", "src/lve/mlle_lve.c: mlle_lve_handle_command"]}
{"id": "C24", "title": "The vendor executable survives every message", "statement": "No sequence of messages makes the vendor executable read or write out of bounds, use uninitialised memory, or dereference a null pointer.", "quantifier": "every sequence of messages, from any client that completes the TLS handshake", "why_tests_cant": "Adversarial input space.", "anchors": ["src/lve/mlle_lve.c: mlle_lve_receive, mlle_lve_handle_command", "src/common/mlle_utils.c: extract_data", "src/lve/mlle_lve_file.c", "src/lve/mlle_lve_pubkey.c"]}
{"id": "C25", "title": "The simplified license check is answered consistently", "statement": "LICENSE and RETURNLICENSE are always answered NOTSIMPLE, and the tool reports this as 'not simplified' (never as success).", "quantifier": "every package name and session history", "why_tests_cant": "All names and histories.", "anchors": ["src/lve/mlle_lve_license.c", "src/tool/mlle_licensing.c: mlle_tool_license, mlle_tool_returnlicense"]}
{"id": "C26", "title": "Tool calls succeed only on the expected answer", "statement": "Each tool call (version, libpath, feature, returnfeature, license, returnlicense, file) returns success if and only if the reply read is a well-formed command of the kind the call expects; an ERROR reply, an unexpected command, a malformed reply or a broken connection always gives failure with an error object set.", "quantifier": "every reply byte sequence and connection failure", "why_tests_cant": "All replies.", "anchors": ["src/tool/mlle_licensing.c: mlle_expect_command, mlle_expect_commands, mlle_tool_*"]}
{"id": "C27", "title": "Reading file contents in chunks reproduces the file", "statement": "Repeatedly reading from a fetched file with arbitrary positive buffer sizes yields, concatenated, exactly the file contents, never writes more than the buffer size, and after the end every call returns (size_t)-1.", "quantifier": "every file content and every sequence of buffer sizes", "why_tests_cant": "All chunkings.", "anchors": ["src/tool/mlle_licensing.c: mlle_tool_read_bytes, mlle_tool_file, mlle_tool_get_file_size"]}
{"id": "C28", "title": "End-to-end file delivery", "statement": "When a trusted tool opens a session (VERSION, LIB) against the vendor executable and asks for a file, the contents obtained through the tool API equal the plaintext of the packaged file, for any contents and for any fragmentation of the reply over TLS records.", "quantifier": "every library path, file path, file contents, record fragmentation", "why_tests_cant": "Composition of both programs over all data.", "anchors": ["src/tool/mlle_licensing.c", "src/lve/mlle_lve.c", "src/common"]}
{"id": "C29", "title": "Errors are reported once and intact", "statement": "An error object records the domain, code and message of the first failure; formatted messages are cut at 2047 bytes, literal ones are kept whole; releasing an error releases its whole chain of causes and leaves the pointer null; passing a null error location is always safe.", "quantifier": "every sequence of error operations and every message", "why_tests_cant": "All messages and nesting depths.", "anchors": ["src/common/mlle_error.c"]}
{"id": "C30", "title": "Encrypt then decrypt is the identity", "statement": "Decrypting a file produced by the encryptor with the matching key gives back the plaintext, whatever the plaintext content, length (up to what the int length parameter of decryption can count) and initialisation vector, independent of how the input is split into read chunks.", "quantifier": "every plaintext, key, IV, and read chunking", "why_tests_cant": "All lengths and contents; padding boundaries.", "anchors": ["src/decryptors/default/src/mlle_cr_encrypt.c: mlle_cr_encrypt", "src/decryptors/default/src/mlle_cr_decrypt.c: mlle_cr_decrypt"]}
{"id": "C31", "title": "Encrypted file layout and sizes", "statement": "An encrypted file is IV (16 bytes), ciphertext (16*(floor(n/16)+1) bytes for n bytes of payload) and MAC (32 bytes); every fixed buffer used on the way is large enough, and decryption never writes more than the input length to the output buffer.", "quantifier": "every plaintext length and every input file", "why_tests_cant": "All lengths.", "anchors": ["src/decryptors/default/src/mlle_cr_encrypt.c: CRYPT_BUF_LEN, mlle_cr_encrypt", "src/decryptors/default/src/mlle_cr_decrypt.c: mlle_cr_decrypt"]}
{"id": "C32", "title": "Tampering is detected before contents are released", "statement": "If decryption succeeds then the MAC stored at the end of the file equals the MAC of the IV and the decrypted payload under the directory's key; hence any change of IV, ciphertext or MAC that alters the payload is rejected unless it produces a MAC collision.", "quantifier": "every input file, every modification", "why_tests_cant": "All modifications of all files.", "anchors": ["src/decryptors/default/src/mlle_cr_decrypt.c: mlle_cr_decrypt"]}
{"id": "C33", "title": "A packaged library is decryptable in any request order", "statement": "For every library in which each directory on the way to an encrypted file has a package.mo, every encrypted file can be decrypted by the vendor executable to its original content, in whatever order and however often files are requested.", "quantifier": "every library tree, all random masks and IVs, every request history", "why_tests_cant": "The key cache makes the outcome history dependent; all orders must be covered.", "anchors": ["src/decryptors/default/src/mlle_cr_encrypt.c: mlle_mask_key", "src/decryptors/default/src/mlle_cr_decrypt.c: mlle_demask_key, mlle_store_keymask, mlle_cr_decrypt", "src/packagetool/utils.c: encryptDirectoryLinux"]}
{"id": "C34", "title": "Key masks of directories without package.mo", "statement": "Files in a directory that has no package.mo are encrypted under the mask of the nearest ancestor that has one, and decrypt back to their original contents.", "quantifier": "every library tree and request order", "why_tests_cant": "All trees.", "anchors": ["src/decryptors/default/src/mlle_cr_encrypt.c: mlle_mask_key", "src/decryptors/default/src/mlle_cr_decrypt.c: mlle_demask_key"]}
{"id": "C35", "title": "package.mo must be encrypted first", "statement": "Encrypting a package.mo is refused once a mask is already in use for its directory, so that no file is left encrypted under a mask that decryption will not reconstruct.", "quantifier": "every order of encryption calls", "why_tests_cant": "All histories of encryption calls.", "anchors": ["src/decryptors/default/src/mlle_cr_encrypt.c: mlle_mask_key"]}
{"id": "C36", "title": "Decryption of arbitrary files is memory safe", "statement": "Decrypting any file content, at any relative path, reads and writes only inside the buffers it was given and returns either a length that fits or -1.", "quantifier": "every file content and path (attacker-controlled file)", "why_tests_cant": "Adversarial files.", "anchors": ["src/decryptors/default/src/mlle_cr_decrypt.c: mlle_cr_decrypt, mlle_demask_key, mlle_store_keymask"]}
{"id": "C37", "title": "Different directories use different keys", "statement": "Two files are encrypted under the same key if and only if the masks in force for their directories are equal; the top-level package.mo is encrypted under the unmasked vendor key, any other package.mo under its parent directory's mask.", "quantifier": "every library tree and all random masks", "why_tests_cant": "All trees.", "anchors": ["src/decryptors/default/src/mlle_cr_encrypt.c: mlle_mask_key"]}
{"id": "C38", "title": "Packagetool accepts exactly well-formed command lines", "statement": "The packaging tool accepts a command line if and only if it is a sequence of pairs of a known argument name (with any one-character prefix) and a non-empty value, without repeated names; looking up an argument then returns the value given for it.", "quantifier": "every argument vector", "why_tests_cant": "All argument vectors.", "anchors": ["src/packagetool/arguments.c: validateArguments, addManifestData, getValueOf, containsKey, lookupArgument"]}
{"id": "C39", "title": "Encrypted archives contain no Modelica source", "statement": "When encryption is on, no file with extension .mo (any letter case) is put into the archive.", "quantifier": "every library tree", "why_tests_cant": "All trees and names.", "anchors": ["src/packagetool/utils.c: zipDirectoryLinux, isModelicaFile, createZipArchive"]}
{"id": "C40", "title": "The archive is complete", "statement": "Every regular file of the library outside .library ends up in the archive under its path relative to the staging directory: unchanged if it is not encrypted, and as an encrypted .moc twin if it is a .mo file and encryption is on.", "quantifier": "every library tree", "why_tests_cant": "All trees and names.", "anchors": ["src/packagetool/utils.c: copyDirectoryLinux, encryptDirectoryLinux, zipDirectoryLinux, encryptFile"]}
{"id": "C41", "title": "Encryption visits package.mo before its directory", "statement": "The packaging tool encrypts the package.mo of a directory before any other file in or below that directory, and encrypts every Modelica file exactly once.", "quantifier": "every library tree and directory listing order", "why_tests_cant": "Listing order is up to the file system.", "anchors": ["src/packagetool/utils.c: encryptDirectoryLinux"]}
{"id": "C42", "title": "Manifest text is properly escaped", "statement": "Argument values placed in the manifest are escaped so that an XML reader gets back exactly the given value; no value can introduce markup.", "quantifier": "every argument value", "why_tests_cant": "All strings.", "anchors": ["src/packagetool/manifest.c: print_escaped_text, xml_attribute, xml_text"]}
{"id": "C43", "title": "The manifest is well formed", "statement": "The generated manifest is a well-formed XML document with every element closed in the right order, containing the mandatory fields, for all argument combinations (without tools/dependencies include files).", "quantifier": "every accepted argument set and every set of available vendor executables", "why_tests_cant": "All combinations.", "anchors": ["src/packagetool/manifest.c: createManifestFile, xml_open, xml_close, xml_attribute, xml_text, addHeader, addLibraryHeader, addEncryption, addIcon, addFooter"]}
{"id": "C44", "title": "Included XML files are copied faithfully", "statement": "All lines of a tools/dependencies file except the first one are copied unchanged to the manifest.", "quantifier": "every include file", "why_tests_cant": "All file contents and line lengths.", "anchors": ["src/packagetool/manifest.c: copyFileInformation"]}
{"id": "C45", "title": "The icon path in the manifest is relative to the library", "statement": "The icon attribute of the manifest is the path of the icon file relative to the top-level directory of the library.", "quantifier": "every library tree, temporary directory and icon location", "why_tests_cant": "All environments.", "anchors": ["src/packagetool/utils.c: cleanUpIconPath, findFileLinux, locateIconFile", "doc/SEMLA.md: Icon Section"]}
{"id": "C46", "title": "Packaging steps fail closed", "statement": "The packaging tool reports success (exit code 0, help aside) only if every step up to and including creation of the archive succeeded, and stops at the first failing step with that step's own exit code.", "quantifier": "every combination of step outcomes", "why_tests_cant": "All failure points.", "anchors": ["src/packagetool/packagetool.c: doWork"]}
{"id": "C47", "title": "Command line license checkout is truthful", "statement": "Running the vendor executable with --checkout-feature f --libpath p exits successfully if and only if the library path is an existing directory and the license manager grants f (and the global feature if configured); nothing is written to the protocol channel. Option misuse never leads to success.", "quantifier": "every argument vector, license manager and file system", "why_tests_cant": "All argument vectors and environments.", "anchors": ["src/lve/lve.c: main, _checkout_feature"]}
{"id": "C48", "title": "Embedded keys reproduce the key file", "statement": "After initialisation, an embedded key array holds the key file with carriage returns removed, its length macro is the number of remaining bytes, the array is NUL-terminated, and clearing it erases every byte of the key.", "quantifier": "every key file content", "why_tests_cant": "All contents.", "anchors": ["src/embedfile/obfuscate_utils.c: create_header_file", "src/obfuscators/dummy/src/obfuscator.c", "src/embedfile/randomize_key.c"]}
{"id": "C49", "title": "Incremental encryption of a single file fits the library", "statement": "A file encrypted into an existing encrypted library with the single-file encryption tool can be decrypted in the context of that library to its original contents.", "quantifier": "every library tree, target path and contents", "why_tests_cant": "All trees.", "anchors": ["src/encrypt_decrypt/encrypt_file.c: main", "src/decryptors/default/src/mlle_cr_decrypt.c", "src/decryptors/default/src/mlle_cr_encrypt.c"]}
{"id": "C50", "title": "Secrets are erased from intermediate receive buffers", "statement": "When the receive buffer is replaced by a larger one, the received bytes in the old buffer are overwritten before it is released.", "quantifier": "every record content and read chunking", "why_tests_cant": "All chunkings.", "anchors": ["src/common/mlle_ssl.c: ssl_read_message"]}
{"id": "C51", "title": "Outgoing messages are written completely, once, or reported failed", "statement": "Writing a message to the TLS connection repeats the write only while the connection asks for it, and then either has handed over the whole message exactly once and returns its length, or returns -1.", "quantifier": "every message and every sequence of outcomes of the TLS write call", "why_tests_cant": "The sequence of retries and failures is chosen by the peer and the operating system.", "anchors": ["src/common/mlle_ssl.c: ssl_write_message"]}
{"id": "C52", "title": "Encryption reports success only for a complete file", "statement": "If encrypting a file reports success, then the input was read to its end without error and the output contains the complete encrypted file; a read error or a failed write at any point is reported as failure.", "quantifier": "every input, every position of a read or write failure", "why_tests_cant": "All failure positions for all input lengths.", "anchors": ["src/decryptors/default/src/mlle_cr_encrypt.c: mlle_cr_encrypt"]}
{"id": "C53", "title": "The generated vendor key has its full length", "statement": "Every key drawn at build time is embedded with a declared length of 32 bytes, so that all of its bytes take part in masking and in the MAC.", "quantifier": "every random draw of 32 bytes", "why_tests_cant": "Depends on the random bytes drawn; a test sees one draw.", "anchors": ["src/embedfile/randomize_key.c: main", "src/embedfile/obfuscate_utils.c: create_header_file"]}
{"id": "C54", "title": "Single-file encryption writes only the file it was asked to write", "statement": "The single-file encryption tool writes the encrypted contents to the file named on its command line and leaves the cleartext and every other file as they were.", "quantifier": "every pair of file names, with and without base directory", "why_tests_cant": "All combinations of names.", "anchors": ["src/encrypt_decrypt/encrypt_file.c: main"]}
{"id": "C55", "title": "Single-file decryption delivers the contents or nothing", "statement": "The single-file decryption tool changes no file but the one named for its output; if it exits with 0 for a file of an encrypted library that file holds exactly the original contents, and if it fails no partial output is left.", "quantifier": "every library, file, output name and failure", "why_tests_cant": "All trees, names and failures.", "anchors": ["src/encrypt_decrypt/decrypt_file.c: main"]}
{"id": "C56", "title": "The license manager's verdict reaches the tool's caller", "statement": "In a session past LIB, when the tool's caller checks a feature out or returns one, the call succeeds if and only if the license manager granted the request; if it refused, or if no manager could be created, the caller gets an error object carrying the manager's message (up to 2047 bytes), with code 'no license' for a refused checkout.", "quantifier": "every session state in the license stage, feature name, license manager answer and record fragmentation of the reply", "why_tests_cant": "Composition of both programs over all messages and fragmentations.", "anchors": ["src/lve/mlle_lve_feature.c", "src/tool/mlle_licensing.c: mlle_tool_feature, mlle_tool_returnfeature"]}
{"id": "C57", "title": "Packaged libraries can be decrypted", "statement": "An archive made by the packaging tool with encryption, unpacked at any place, decrypts to the library it was made from: any sequence of requests for Modelica files delivers the contents these files had when the library was packaged.", "quantifier": "every library tree, listing order, sequence of requests and place of unpacking", "why_tests_cant": "All trees, contents, orders of encryption and of decryption.", "anchors": ["src/packagetool/utils.c: encryptDirectoryLinux, encryptFile, zipDirectoryLinux", "src/decryptors/default/src/mlle_cr_encrypt.c", "src/decryptors/default/src/mlle_cr_decrypt.c"]}
{"id": "C58", "title": "The archive has a manifest that describes it", "statement": "An archive made by the packaging tool contains .library/manifest.xml in the library directory; it is well-formed XML and says what the command line says: identifier, version, language and so on, and, with encryption, the vendor executables, each of which is in the archive at the path given.", "quantifier": "every command line, library tree and environment in which the tool succeeds", "why_tests_cant": "All argument values, trees and subsets of vendor executables.", "anchors": ["src/packagetool/packagetool.c: doWork", "src/packagetool/manifest.c: createManifestFile", "src/packagetool/utils.c: copyLVE, zipDirectoryLinux", "doc/SEMLA.md: Manifest file"]}
{"id": "C59", "title": "Tool and vendor executable are connected with each other", "statement": "When mlle_start_executable starts a vendor executable, what the tool writes arrives at the standard input of this vendor executable and nowhere else, and what it reads is what this vendor executable writes to standard output, for as long as both exist and whatever other vendor executables are started, ended or released meanwhile; connections share no descriptors.", "quantifier": "every history of starts, releases, exits and of opening and closing other files, with every failure of pipe and fork", "why_tests_cant": "All interleavings of starts and releases and all descriptor tables, including those with low descriptors free.", "anchors": ["src/tool/mlle_spawn_posix.c: mlle_spawn, mlle_child_process", "src/tool/mlle_licensing.c: mlle_start_executable, mlle_connections_free"]}
{"id": "C60", "title": "The end of the vendor executable is noticed", "statement": "If a vendor executable ends, calls of the tool that use the connection return an error instead of waiting forever.", "quantifier": "every history of starts, releases and exits", "why_tests_cant": "All descriptor tables and interleavings; a test sees one, and only as a time-out.", "anchors": ["src/tool/mlle_spawn_posix.c: mlle_spawn", "src/common/mlle_ssl.c: ssl_read_message, ssl_write_message"]}
{"id": "C61", "title": "Releasing a connection frees everything", "statement": "mlle_connections_free closes all descriptors mlle_start_executable has opened, and the vendor executable sees the end of its input and exits; a start that fails leaves neither descriptors nor a process behind.  A tool can start and release vendor executables any number of times.", "quantifier": "every history of starts, releases and exits, and every failure of pipe, fork and memory", "why_tests_cant": "Arbitrarily long histories and all combinations of failures.", "anchors": ["src/tool/mlle_spawn_posix.c: mlle_spawn", "src/tool/mlle_licensing.c: mlle_start_executable, mlle_connections_free"]}
{"id": "C62", "title": "Vendor executables are isolated from each other and from the tool", "statement": "A vendor executable has no access to the connections of other vendor executables, nor to files the tool has open.", "quantifier": "every history of starts, releases, exits, opening and closing files", "why_tests_cant": "All interleavings; a test can only look at one descriptor table.", "anchors": ["src/tool/mlle_spawn_posix.c: mlle_child_process"]}
{"id": "C63", "title": "Failing to start is reported", "statement": "mlle_start_executable returns NULL exactly if it reports an error with a message that says what failed; if the vendor executable is missing or not executable, the message names it.", "quantifier": "every failure of spawning, of preparing TLS and of the handshake, every reason OpenSSL may give", "why_tests_cant": "All combinations of failing system and OpenSSL calls.", "anchors": ["src/tool/mlle_licensing.c: mlle_start_executable", "src/tool/mlle_spawn_posix.c: mlle_spawn", "src/tool/mlle_ssl_tool.c: ssl_setup_tool, tool_perform_handshake"]}
{"id": "C64", "title": "Only the key proven in the handshake counts", "statement": "Whatever the vendor executable answers, it answers in a session whose tool completed the handshake, and approval depends only on the public key of the certificate of this handshake: it is approved exactly if the key is in one of the key files the vendor executable was built with.  A peer that cannot prove to have such a key gets no file contents, whatever it sends.", "quantifier": "every certificate, handshake outcome, build-time list of keys, and sequence of messages", "why_tests_cant": "All certificates, histories and byte streams.", "anchors": ["src/lve/mlle_ssl_lve.c: cert_verify_callback, ssl_setup_lve, lve_perform_handshake", "src/common/mlle_ssl.c: get_public_key", "src/lve/lve.c: main", "src/embedfile/obfuscate_utils.c"]}
{"id": "C65", "title": "Private keys are in memory only while needed", "statement": "The functions that prepare the TLS connection, on both sides, hand exactly the contents of the key file to OpenSSL, and when they return, on success and on every error path, nothing of the key is left in the array they assembled it in.", "quantifier": "every key file and every outcome of the OpenSSL calls", "why_tests_cant": "All key contents and all error paths; the stack is not observable in a test.", "anchors": ["src/tool/mlle_ssl_tool.c: ssl_setup_tool", "src/lve/mlle_ssl_lve.c: ssl_setup_lve", "src/embedfile/obfuscate_utils.c"]}
{"id": "C66", "title": "Packaging leaves no unencrypted copy behind", "statement": "When the packaging tool has finished, however it ends, nothing is left of the temporary directory into which it copied the library.", "quantifier": "every command line, library tree and environment, every failure of the packaging and of the removal", "why_tests_cant": "All trees, and all points at which a run can fail.", "anchors": ["src/packagetool/packagetool.c: doWork", "src/packagetool/utils.c: deleteTemporaryStagingFolder, removeFolderLinux"]}
{"id": "C67", "title": "Every tool call sends its own request, once", "statement": "A call of the tool interface (libpath, feature, returnfeature, license, returnlicense, file) puts exactly one message on the connection: the command documented for that call, with the argument the caller passed; version sends VERSION with the highest version the caller supports. If the request cannot be sent the call fails instead of succeeding or waiting for an answer.", "quantifier": "for all calls, arguments, allocation outcomes, write outcomes and incoming data", "why_tests_cant": "Tests run against a connection that accepts the first write; requests to repeat a write, failing writes and failing allocations in combination with arbitrary incoming records cannot be enumerated.", "anchors": ["src/tool/mlle_licensing.c:207-422", "src/common/mlle_io.c:209-248"]}
{"id": "C68", "title": "Answers are of the documented kinds", "statement": "Every reply of the vendor executable to a command is one of the answers documented for that command (VERSION: VERSION; TOOLS: TOOLLIST; LIB: YES; FEATURE: YES or NO; RETURNFEATURE: YES; LICENSE: YES, NO or NOTSIMPLE; RETURNLICENSE: YES; FILE: FILECONT) or an ERROR with a code that the documentation allows after that command (2 only after VERSION, 3 only after FEATURE and LICENSE, 4 only after FILE and LIB, 5 only after FILE). Messages that are no commands get ERROR 1.", "quantifier": "for all builds, license managers, tool keys, message histories, file systems and memory conditions", "why_tests_cant": "Which answer a command gets depends on the whole session before it (approval, license calls, an earlier failed LIB), the license manager and the file system; tests sample a few sessions.", "anchors": ["doc/SEMLA.md:425-540", "src/lve/mlle_lve.c", "src/lve/mlle_lve_tools.c", "src/lve/mlle_lve_license.c", "src/lve/mlle_lve_file.c"]}
{"id": "C69", "title": "Extra files of the vendor are delivered", "statement": "If the packaging tool exits with status 0 and there is a directory .library beside it, every regular file of that directory is in the archive, at the same place below <library>/.library, with unchanged contents.", "quantifier": "for all libraries, extra directories, arguments, directory orders and copying outcomes", "why_tests_cant": "Whether a file arrives depends on the names of all other files (vendor executables, manifest, Modelica files that get encrypted, nested .library directories), on the order in which directories are listed, and on copying failures; tests use one layout.", "anchors": ["src/packagetool/utils.c:553-596", "src/packagetool/utils.c:1964-2030", "src/packagetool/packagetool.c:104-110"]}
{"id": "C70", "title": "A packaged library reaches the user's tool", "statement": "If a library is packaged with encryption, the archive is unpacked, and a tool trusted by the vendor executable that came with it opens the library there with a license, then every file the tool asks for arrives as it was on the vendor's disk: asking for the encrypted form of a Modelica file gives the text of the source, asking for any other file gives that file.", "quantifier": "for all libraries, packaging arguments, keys, masks, installation directories, trusted tools, license managers that grant, and request sequences of any length and order", "why_tests_cant": "The chain runs through three programs (packaging tool, vendor executable, tool library), the encryption format and the wire protocol; an end-to-end test covers one library and one order of requests, with empty caches.", "anchors": ["src/packagetool/packagetool.c", "src/packagetool/utils.c", "src/lve/mlle_lve_file.c", "src/tool/mlle_tool.c", "src/decryptors/default/src/mlle_cr_decrypt.c"]}
{"id": "C71", "title": "The log tells paths, no secrets", "statement": "What the vendor executable writes to its log file (environment variable SEMLA_LVE_LOG_FILE), and what the encryption and decryption code writes to the log of encrypt_file, decrypt_file and packagetool, consists of fixed texts and paths: in the vendor executable, only of paths that the tool asked for with FILE, directories on the way to them and package files in these directories. No byte of the vendor's key, of a derived key, of a key mask or of a file gets into the log.", "quantifier": "for all keys, drawn masks, libraries, message histories, trusted or untrusted tools, license managers and memory conditions", "why_tests_cant": "The log shows derived keys on paths that depend on the mask cache, on directories without package files and on damaged files, and whether it does so depends on a compile-time switch; a test greps one log for one key.", "anchors": ["src/decryptors/default/src/mlle_cr_decrypt.c:47-67", "src/decryptors/default/src/mlle_cr_decrypt.c:85-88", "src/decryptors/default/src/mlle_cr_encrypt.c:90-93", "src/common/mlle_io.c:41-56", "src/lve/lve.c:285"]}
{"id": "C72", "title": "The archive is <library>.mol and nothing else on the disk changes", "statement": "A run of the packaging tool writes its archive to the file <library>.mol in the directory where it is started, replacing an older one, and changes no other file outside its temporary directory. A run that fails leaves the older archive.", "quantifier": "for all libraries, library names, current directories, contents of the disk, arguments and failures", "why_tests_cant": "Which file is removed and which is written depends on buffer sizes, on the length of the library name and of the path of the current directory, and on the step that fails; tests run in one short directory.", "anchors": ["src/packagetool/utils.c:1330-1374", "src/packagetool/utils.c:1676-1705", "src/packagetool/packagetool.c:120-126"]}
{"id": "C73", "title": "Build tools write complete key headers", "statement": "Whenever obfuscate or randomize_key ends with status 0, the header it wrote is well-formed C whose macros stay inside their array and yield the key (of the key file without carriage returns, or the bytes drawn), NUL-terminated and with the right length; with any other status the header file has not been touched. A vendor executable compiled from headers made this way compares the tool's public key with exactly the key files it was built with.", "quantifier": "for all key files, variable names, lists of tools, random draws, and failures of stat, memory, reading and writing", "why_tests_cant": "A build is tried with one or two key files on a disk with space; hexadecimal constants of one and of two digits, arrays of every length, and headers cut short appear only with other keys and environments, and a wrong header shows only as a failed approval much later.", "anchors": ["src/embedfile/obfuscate.c:75-156", "src/embedfile/randomize_key.c:74-126", "src/embedfile/obfuscate_utils.c:68-99", "src/obfuscators/dummy/src/obfuscator.c:21-32", "src/lve/mlle_lve_pubkey.c:62-90"]}
{"id": "C74", "title": "Calls of the tool free what they allocate", "statement": "No call of the tool library frees a block twice or a block it did not allocate, and none touches the memory of the caller. When a call has returned and the caller has freed the error object and the file contents (after any number of mlle_tool_read_bytes), as much memory is in use as before the call.", "quantifier": "for all calls and sequences of calls, all arguments, all answers of the vendor executable in any division into records and reads, and all failures of malloc", "why_tests_cant": "Which blocks a call allocates depends on the answer, on its division into TLS records and on the allocations that fail; a block freed twice on one of these paths, or lost, does not change the result of the call that a test looks at.", "anchors": ["src/common/mlle_utils.c:84-172", "src/common/mlle_ssl.c:309-410", "src/tool/mlle_licensing.c:101-472", "src/common/mlle_io.c:209-248", "src/common/mlle_error.c:47-157"]}
{"id": "C75", "title": "Sessions of the vendor executable free and close what they no longer need", "statement": "No command that a tool sends makes the vendor executable free a block twice or a block it did not allocate. After any number of commands, the blocks of memory in use are the library path, the context of the decryptor, one entry for each directory whose key mask is known and the text of a refused license, each of them once, and no file is open.", "quantifier": "for all sequences of commands in any division into records and reads, all files and file errors, all answers of the license manager, and all failures of malloc", "why_tests_cant": "Blocks and files that are lost do not change any reply; which ones are lost depends on the file contents, the nesting of directories and the allocations that fail, and the effect shows only after as many requests as there are descriptors.", "anchors": ["src/lve/mlle_lve.c:59-263", "src/lve/mlle_lve_file.c:27-122", "src/lve/mlle_lve_libpath.c:56-129", "src/lve/mlle_lve_feature.c:39-106", "src/common/mlle_io.c:58-295", "src/decryptors/default/src/mlle_cr_decrypt.c:29-346"]}
{"id": "C76", "title": "ERROR replies of the vendor executable say what was wrong", "statement": "An ERROR reply carries a text that is true of the message it answers. A malformed message is answered with a text that names the fault: no command in it, an unknown command, too few or too many arguments with the documented form, the argument that is not an integer, or the negative length. A command at the wrong time is answered with its name and the commands that are valid then, or that it is never valid. A version that is too low is answered with the lowest one, FILE with the path and the system's reason or that the file could not be decrypted, and a tool that gets no files is told why: the library path, its key, or the license manager's reason.", "quantifier": "for all messages, sessions, library paths, files, system errors and answers of the license manager", "why_tests_cant": "The text depends on the order in which faults are looked for, on what earlier messages left in the shared error buffer and on where buffers cut it off; tests look at the text of a few messages sent first in a session.", "anchors": ["src/common/mlle_parse_command.c:37-246", "src/lve/mlle_protocol_lve_state.c:33-104", "src/lve/mlle_lve.c:94-263", "src/lve/mlle_lve_file.c:27-122", "src/lve/mlle_lve_libpath.c:56-159", "src/common/mlle_io.c:58-171"]}
{"id": "C77", "title": "Error objects of the tool library say why a call failed", "statement": "When a call of the tool library fails, the error object has the domain, code and text that belong to the failure: what OpenSSL reports about the connection, what is wrong with an answer that cannot be read, the text of an ERROR, the reason of a refusal (code 3), that licensing is not simplified (code 4), that the version is too low or too high, or which command came and which were expected. Codes 3 and 4 are given for nothing else.", "quantifier": "for all calls, arguments and answers in any division into records and reads", "why_tests_cant": "A tool decides by code and text whether to ask for a license, to try another command or to give up; which text belongs to which of the unboundedly many wrong answers cannot be enumerated, and the failures that leave the text empty occur only with a vendor executable that misbehaves.", "anchors": ["src/tool/mlle_licensing.c:101-472", "src/common/mlle_utils.c:84-172", "src/common/mlle_ssl.c:60-410", "src/common/mlle_parse_command.c:37-246"]}
{"id": "C78", "title": "The license manager that comes with SEMLA grants one feature", "statement": "In an executable built with the license manager that comes with SEMLA (testingdummy) exactly the feature test_licensed_feature can be checked out: FEATURE is answered by YES for it and by NO 'Feature not licensed' for every other name, RETURNFEATURE always by YES, a library that needs another feature is refused, and --checkout-feature exits with status 0 for this feature only.", "quantifier": "for all feature names, library paths, states of the license stage and command lines", "why_tests_cant": "The tests ask for the one licensed feature and for a few others; that no other name is granted is a statement about all byte strings, including those that the protocol allows and C strings cannot hold.", "anchors": ["src/license_managers/testingdummy/src/mlle_license_manager.c:36-70", "src/lve/mlle_lve_feature.c:29-106", "src/lve/mlle_lve_libpath.c:27-130"]}
{"id": "C79", "title": "Libraries are packaged whatever the length of their paths", "statement": "The packaging tool finds and copies the files of a library by their paths, however long these are and however many directories lie inside each other: every file is in the copy under the names and with the contents it has in the library, and nothing else is there; or the tool reports a failure.", "quantifier": "for all library trees, names, places of the library and of the temporary directory, and limits on open directories", "why_tests_cant": "Paths are built in buffers of 2048 bytes and cut silently; whether a cut path is that of no file, of another file or of the directory itself depends on all names and on the exact length. Tests use short paths.", "anchors": ["src/packagetool/utils.c:1964-2035", "src/packagetool/utils.c:1009-1154", "src/packagetool/utils.c:1503-1582", "src/packagetool/utils.h:26-27"]}
{"id": "C80", "title": "On Windows, a start connects tool and vendor executable and leaves the tool's streams alone", "statement": "On Windows, when mlle_spawn returns, the standard input and output of the tool are what they were before; if a connection is returned, exactly two descriptors are new, joined to the standard input and output of the vendor executable, each end of the two pipes is open at one place only, and the vendor executable has nothing of the tool but what is meant to be inherited; the start succeeds whenever the file can be started.", "quantifier": "for all descriptor tables, limits, results of _pipe, _dup2, _spawnl and calloc, and file names", "why_tests_cant": "Which descriptor numbers the pipes get, what is inherited and what is left behind depends on everything open before and on the point of failure; the tests start one executable in a console program with all streams open.", "anchors": ["src/tool/mlle_spawn_windows.c:41-194"]}
{"id": "C81", "title": "Tool and vendor executable never wait for each other for ever", "statement": "A program makes calls of the licensing interface one after the other, each of which may depend on earlier results, while the vendor executable runs at the same time. However few bytes the pipes between the two hold, however the TLS records are encoded, and however the two processes are scheduled, the exchange ends, always in the same way: every call has returned, each has sent one message and received one whole reply, and the vendor executable has handled the messages in order.", "quantifier": "for all clients (adaptive sequences of calls), pipe capacities of at least one byte, record sizes, schedules, vendor configurations and file systems", "why_tests_cant": "A deadlock depends on pipe capacity (64 KB on Linux, 512 bytes on Windows), file sizes and scheduling; a test runs one schedule on one system, and files that fit the pipe hide the problem.", "anchors": ["src/tool/mlle_licensing.c:207-422", "src/lve/mlle_lve.c:162-230", "src/tool/mlle_spawn_posix.c:61-70", "src/tool/mlle_spawn_windows.c:66-75", "src/lve/mlle_lve_libpath.c:63-68"]}
{"id": "C82", "title": "A vendor executable approves exactly the tools listed when it was built", "statement": "The vendor executable approves a connected tool if and only if the tool's public key is, carriage returns aside, the content of one of the key files named in public_key_tools.txt when the executable was built; a build from a list of readable key files succeeds.", "quantifier": "for all lists of key files (names of letters, digits and _-./, any line ends, any number of entries), all key file contents without NUL, all contents of the build directory and all tool keys", "why_tests_cant": "The list goes through CMake list handling, one generated header per key and a generated table of macros; a test builds one list of one or two keys. Keys that must not be approved are everything else, and what an old build directory contributes depends on its history.", "anchors": ["src/CMakeLists.txt:215-282", "src/GenPublicKeyToolH.cmake:26-97", "src/embedfile/obfuscate_utils.c:68-99", "src/lve/mlle_lve_pubkey.c:62-90"]}
{"id": "C83", "title": "The packaging tool makes the same package on Windows and on Linux", "statement": "If packagetool makes a package on Windows, then on Linux, from the same library, arguments, vendor key and random draws, it makes a package with the same files, in the same order and with the same bytes, except that the lines of the manifest end with \\r\\n. Without an icon it makes a package on Windows whenever it makes one on Linux that has a file in every directory of the library and of the extra files, and only then. With encryption, a package made on Windows never contains a Modelica source file, whatever fails.", "quantifier": "for all libraries (any depth and number of files), command lines, contents, directory listings and orders, and outcomes of system calls", "why_tests_cant": "The Windows code of copying, icon search, encryption and archiving is separate from the Linux code (FindFirstFile loops, other return values, case-insensitive lookups, text mode); tests of the project run on one platform with one library.", "anchors": ["src/packagetool/utils.c:853-1007", "src/packagetool/utils.c:1380-1495", "src/packagetool/utils.c:1587-1650", "src/packagetool/utils.c:1855-1957", "src/packagetool/packagetool.c:48-143"]}
{"id": "C84", "title": "Library files can be read on Windows whatever the length of their paths", "statement": "On Windows, mlle_io_read_file, through which the vendor executable reads every file that a tool asks for, returns the contents of the file a path leads to, and nothing else, for paths with slashes or backslashes and of any length up to 4092 characters. The buffer for long paths is never overflowed and never read where it was not written. When it fails, the message names the file.", "quantifier": "for all paths (any number and length of names, any mix of separators), file contents and sizes, and outcomes of fopen, _stat, fseek, ftell and malloc", "why_tests_cant": "The tests of the project have one long file name on a short path; the boundary cases (259/260, 4092/4093 characters, empty files, failing _stat) depend on the length of the installation directory and on the Windows version.", "anchors": ["src/common/mlle_io.c:58-175", "src/lve/mlle_lve_file.c:50-65", "src/decryptors/default/src/mlle_cr_decrypt.c:140-160"]}
{"id": "C85", "title": "What the vendor executable prints for --version is JSON", "statement": "The vendor executable, started with --version, prints a JSON object with the name and version of the project and, if it was built with a tools.txt, an array of exactly the lines of that file, so that installers and tools can read it.", "quantifier": "for all names, versions and lists of tools (any number of lines)", "why_tests_cant": "No test of the project parses the output; it depends on definitions that CMake hands to the compiler.", "anchors": ["src/lve/lve.c:44-60", "src/CMakeLists.txt:350-367"]}
{"id": "C86", "title": "Every directory keeps its own key mask", "statement": "Whatever directories a library has, encryption and decryption find for every directory the mask that was put into the table of key masks for it, and none for a directory that has none in the table, no matter which hash values collide and how often the table is enlarged; and if memory runs out the call fails.", "quantifier": "every number and choice of directories, every order of additions and look-ups, every pattern of memory exhaustion", "why_tests_cant": "Collisions and enlargements of the hash table depend on the names and number of directories; the libraries of the tests have only a few.", "anchors": ["src/decryptors/default/src/mlle_cr_encrypt.c:117,143,154,178", "src/decryptors/default/src/mlle_cr_decrypt.c:127-129,205,218", "ThirdParty/uthash/uthash.h: HASH_FIND_STR, HASH_ADD_KEYPTR, HASH_EXPAND_BUCKETS, HASH_JEN"]}
{"id": "C87", "title": "A package made on Windows is a ZIP archive of its files", "statement": "When every call that adds a file to the archive reports success, the archive is a ZIP archive that holds exactly the files added, under their names, in order and with their contents, as a reader that verifies every size, offset and CRC-32 finds; ordinary libraries are not refused; and a failure is reported.", "quantifier": "all lists of files, names and contents, all outcomes of reading, writing, allocating and flushing, every correct compressor", "why_tests_cant": "Tests open a few small archives; offsets, sizes, check sums and the search for the end record depend on all bytes of the archive, and failures of the disk do not occur in tests.", "anchors": ["src/packagetool/utils.c:1330-1374,1475-1486", "ThirdParty/miniz/miniz.c:995-1003,3170-3268,3324-3351,4047-4054,4087-4135,4159-4238,4263-4412,4715-4762,4813-4856"]}
{"id": "C88", "title": "TLS objects of a connection live exactly as long as it", "statement": "As long as a connection returned by mlle_start_executable is not released, every OpenSSL object that its TLS state refers to exists; no call of the library, and nothing a tool sends to the vendor executable, uses or frees an object that has been freed. mlle_connections_free, and a start that fails, free all objects the start has made, so that no copy of the private key stays in memory.", "quantifier": "for all sequences of starts, calls and releases on any number of connections, and all outcomes of the OpenSSL calls", "why_tests_cant": "A freed object that is used again, or one that is never freed, does not change the result of a call; which references are dropped depends on the call of OpenSSL that fails, and failures of most of them cannot be provoked.", "anchors": ["src/common/mlle_ssl.c:66-245", "src/tool/mlle_ssl_tool.c:45-120", "src/tool/mlle_licensing.c:48-98", "src/lve/mlle_ssl_lve.c:52-232", "src/lve/mlle_lve.c:246-262"]}
{"id": "C89", "title": "The package file made on Windows holds the package", "statement": "When packagetool reports success on Windows, the file <library>.mol in the current directory is a ZIP archive from which a reader that checks every size and check sum gets exactly the files of the package, with their names and contents, and nothing else: every file of the library is there, and no Modelica source text if encryption was asked for. Unpacked anywhere, it lets a trusted and licensed tool read exactly what the vendor packaged.", "quantifier": "for all libraries, command lines, staging directories, earlier files of the same name, and all outcomes of reading, writing and allocating while the archive is made", "why_tests_cant": "The archive is opened, changed in place and closed once for every file; which bytes end up in it depends on what was there before and on every single system call, and a test sees one library on a machine where nothing fails.", "anchors": ["src/packagetool/utils.c:1330-1497", "src/packagetool/packagetool.c:48-143", "ThirdParty/miniz/miniz.c:4813-4856"]}
{"id": "C90", "title": "An installed package is served on Windows", "statement": "The vendor executable on a Windows machine answers FILE requests with exactly the contents of the file that the request leads to below the library directory, whether that directory is given with slashes or backslashes and however long the path is, and with an error if there is no such file. A package made on Windows and unpacked there lets a trusted and licensed tool read exactly the Modelica texts and other files that the vendor packaged, in any order and any number of times.", "quantifier": "for all libraries, installation directories, sessions, sequences of requests and states of the machine at each request", "why_tests_cant": "Which branch of the reader is taken depends on the length of the path, on the size of the file and on what the operating system does with long paths; a test reads a few files with short paths, and packaging, unpacking and serving together are never run for all libraries.", "anchors": ["src/common/mlle_io.c:58-175", "src/lve/mlle_lve_file.c:27-122", "src/lve/mlle_lve.c:268-275", "src/decryptors/default/src/mlle_cr_decrypt.c:130-185"]}
{"id": "C91", "title": "Packaging on Windows leaves no unencrypted copy behind", "statement": "When the packaging tool has finished on Windows, however it ends, no file is left of the temporary directory into which it copied the library.", "quantifier": "every command line, library tree and order in which directories are listed, every failure of the packaging and of the removal, Windows removing open directories at once or not", "why_tests_cant": "All trees and orders of listing, and all points at which a run can fail; that the search for the icon leaves directories open shows only with certain trees, file systems and versions of Windows, and the tool reports success nevertheless.", "anchors": ["src/packagetool/packagetool.c: doWork", "src/packagetool/utils.c:697-758,824-848,855-915"]}
{"id": "C92", "title": "Exit status 0 of the single-file tools means that the output is on the disk", "statement": "However much room the disk has, however the C library buffers, and whether or not there is memory: if encrypt_file or decrypt_file exits with 0, the output file is the one the tool writes on a machine without failures; if it exits with another status, no part of an output file is left.", "quantifier": "all files, arguments, disk sizes, buffer sizes and failures of memory", "why_tests_cant": "The disk would have to fill up at every byte of every output, under every buffering; a test disk has room.", "anchors": ["src/encrypt_decrypt/encrypt_file.c:99-130", "src/encrypt_decrypt/decrypt_file.c:58-106", "src/decryptors/default/src/mlle_cr_encrypt.c: mlle_cr_encrypt", "src/decryptors/default/src/mlle_cr_decrypt.c:33-39,290-294"]}
{"id": "C93", "title": "Copies in a package are complete or reported", "statement": "If the packaging tool on Linux reports a file of the library or a vendor executable as copied, or makes a package with exit status 0, the copies have the contents and the permissions of the files.", "quantifier": "all files, errors of reading, sizes of the disk, buffering, failures of memory and of permissions", "why_tests_cant": "Reading or writing would have to fail at every byte of every file; on a test machine neither fails, and the damaged package is made without a sign.", "anchors": ["src/packagetool/utils.c:447-471,600-620,2014-2024,2037-2113"]}
{"id": "C94", "title": "A package reported as made is complete however full the disk", "statement": "If the packaging tool on Linux exits with 0 and leaves a package, the manifest and the encrypted files in it are those it makes on a disk with enough room; in particular they can be decrypted.", "quantifier": "all libraries, arguments, amounts of room below every file of the temporary directory, ways in which the C library buffers writes", "why_tests_cant": "The disk would have to fill up at every byte of every file; the writes that fail are those done by fclose, so nothing is reported, and the damage shows when a customer opens the library.", "anchors": ["src/packagetool/utils.c:1273-1307", "src/packagetool/manifest.c:95-205", "src/decryptors/default/src/mlle_cr_encrypt.c:199-315"]}
