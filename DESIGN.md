# SEMLA formal model: design and trusted base

Subject: modelon-community/SEMLA, C sources in /repo (read as text, never built or run here).
Model and proofs: Lean 4.33.0, Lake project in `/verif/lean`.

## 1. Trusted base

* The Lean 4 kernel and the three standard axioms `propext`, `Classical.choice`, `Quot.sound`.
  No axioms of our own, no `sorry`/`admit`, no `native_decide`/`bv_decide`.
  Section 6 lists what `#print axioms` reports.
* The hand transcription from C to Lean.  Every definition in `Verif/Model/*` cites the C lines
  it transcribes and says where it simplifies.
* The behaviour assumed of code outside the repository, always passed as parameters so that
  theorems quantify over it:
  - C library (glibc, LP64): `strtok_r`, `sscanf("%ld")` (clamping on overflow), `snprintf`
    truncation, `strcasecmp` in the C locale, `strstr`, `malloc` (an oracle that may refuse).
  - OpenSSL: TLS as a sequence of events per `SSL_read` call (record bytes in order, retry,
    failure).  `SSL_accept` succeeds with a certificate only if the verification callback returned
    1, and then the peer has the private key of the certificate.  AES-256-CBC as CBC with PKCS#7 padding and EVP streaming over an *arbitrary*
    block permutation family `E k`/`D k` with `D k (E k b) = b`; HMAC-SHA256 as an arbitrary
    function with a 32-byte result.  No cryptographic hardness is assumed or proved.
    Reference counts of SSL_CTX, SSL, BIO, X509, EVP_PKEY and RSA objects as in the manual pages of
    OpenSSL 3.0 (`Model/SslObjects`).
  - The file system (`read`, `stat`), the license manager (an arbitrary function of its whole
    call history), the random generator (an arbitrary list of draws), the
    compressor of miniz (an arbitrary function with an inverse), on Linux the whole library for archives.
  - POSIX descriptors (`Model/Process`): `pipe` and `dup2` as in the standard (lowest free
    descriptors), `fork` copies the table, `execl` keeps it; a read ends, or a write fails, when
    no process has the other end open.
  - Descriptors of the Microsoft C runtime (`Model/SpawnWindows`): lowest free ones, duplicates are
    inherited, the streams of a program without console are taken but cannot be duplicated.
  - The pipes between tool and vendor executable (`Model/Pipes`): each holds any fixed number of
    bytes, at least one; a write waits for room, a read of a TLS record waits for all of it; one
    `SSL_write` makes records of at most 16384 bytes.
  - Windows file systems (`Model/PackWin`): names are compared without regard to the case of ASCII
    letters, a file keeps the spelling it was made with, directories cannot be opened as files;
    streams in text mode translate line ends and stop at byte 0x1A.  Paths (`Spec/WinFiles`): up to 259
    characters always work, longer ones at least with the prefix `\\?\` and backslashes.
  - Windows directories (`Model/PackCleanWin`): one that is open can be removed; it is gone at once, or it
    stays in its parent directory until it is closed.
  - CMake (`Model/KeyList`): `file(STRINGS)` keeps empty lines and drops carriage returns,
    `list(LENGTH)` counts empty elements, `foreach` over an unquoted variable leaves them out.

## 2. Conventions of the model

* Bytes are `UInt8`, strings and buffers `List UInt8`; C strings are the prefix before the
  first NUL.
* Anything the C standard calls undefined behaviour (out-of-bounds access, use of
  uninitialised bytes, null dereference, integer underflow used as a size) is a distinct
  outcome `Res.ub` of the model function.  "Memory safe" theorems state that the outcome is
  not `ub`; negations exhibit an input whose outcome is `ub`.
* External nondeterminism is a function argument, never an axiom.
* Layout: `Verif/Model/*` transcriptions, `Verif/Spec/*` independent specifications,
  `Verif/Lemmas/*` helpers, `Verif/Props/*` the property theorems with a non-vacuity `example`
  beside each one.

## 3. Properties and how they are treated

Areas: W = wire format, T = TLS I/O, S = vendor-executable session, L = tool library,
E = error objects, K = crypto, P = packagetool, M = CLI and embedding, D = processes and starting.

| id | area | modelled as | how proved / status aim |
|----|------|-------------|--------------------------|
| C01 | W | `tokenize`, `parseInt`, `parseCommand` on byte lists | iff with a declarative line grammar (inductive relation) |
| C02 | W | `parseCommand` | all rejection paths; code is a function of the message |
| C03 | W,S | `snprintf` into a capped buffer, `ub` on bad offset | no-`ub` theorem, NUL terminated |
| C04 | W | `send*` then `parseCommand` and `extractData` | round trip for all data |
| C05 | W | `send*` with buffer sizes | width lemma for all 64-bit numbers |
| C06 | W | `extractData` | negation (heap overflow witness, uninitialised tail, missing newline) plus exact safety characterisation `_partial` |
| C07 | T | `sslReadMessage` over event lists | concatenation theorem for all schedules |
| C08 | T | `readCommand` over record lists | reassembly theorem for all splits |
| C09 | T | same | negation (two witnesses) plus `_partial` for conforming continuations |
| C10 | S | `lveRun` over message lists | invariant over histories |
| C11 | S | `lveStep` | frame theorem |
| C12 | S | `lveRun` | history invariant |
| C13 | S | `lveStep` | negation for empty LIB, exact characterisation `_partial` |
| C14 | S,L | VERSION handling, `toolVersion` | iff theorems |
| C15 | S | `lveRun` | invariant: unapproved never turns approved, no FILECONT |
| C16 | S | `validatePubkey` | iff membership; no certificate is `ub` (negation) |
| C17 | S,K | `lveFile` | decision theorem against spec |
| C18 | S | `lveFile` path | negation with `..` witness; partial for paths without special elements |
| C19 | S | `trimLibpath` | declarative characterisation |
| C20 | S | licence manager as function of call history | per-command and history theorem |
| C21 | S | same | count of successful creations in any history at most 1 |
| C22 | S | global feature parameter | history theorem |
| C23 | S | failed LIB | negation witnesses, partial for the cases which hold |
| C24 | S | `ub` outcome of `lveRun` | negations plus partial (exact safe condition) |
| C25 | S,L | LICENSE/RETURNLICENSE | both sides |
| C26 | L | `tool*` | iff per call |
| C27 | L | `readBytes` | induction over chunk sizes |
| C28 | S,L,T | composition | end-to-end theorem |
| C29 | E | `Err` objects | inductive chain, truncation |
| C30 | K | EVP streaming CBC | round trip for all chunkings |
| C31 | K | sizes | length formulas, bounds |
| C32 | K | decrypt | soundness of success |
| C33 | K,P | mask tables and cache | invariant over request histories |
| C34 | K | same, directory without package.mo | encryption side proved, decryption negated |
| C35 | K | `maskKey` | negation (guard can be bypassed) plus partial |
| C36 | K | decrypt | negations (short input, long path), partial |
| C37 | K | `maskKey` | key equation |
| C38 | P | argument vectors | iff; empty argument is `ub` |
| C39 | P | `zipDirectory` | for all trees |
| C40 | P | staging copy, encryption, zip | negation (`Package.MO` dropped), partial |
| C41 | P | `encryptDirectory` | order and exactly-once theorems |
| C42 | P | `printEscaped` | unescape inverse, no markup bytes |
| C43 | P | manifest generator | parses with an independent XML reader |
| C44 | P | `copyFileInformation` | negation (overflow, lost last line), partial |
| C45 | P | `cleanUpIconPath` | negation |
| C46 | P | `doWork` | iff |
| C47 | M | `lveMain` | iff |
| C48 | M | `createHeader` | array contents; negation for clearing with CR |
| C49 | K,M | `encrypt_file` main | composition with cache filling |
| C50 | T | receive buffers | negation |
| C51 | T | `sslWriteMessage` over write outcomes | for all outcome sequences |
| C52 | K | `crEncrypt` with read and write failures | success implies complete layout |
| C53 | M | `createHeader` on random bytes | negation (carriage return), iff |
| C54 | K,M | `encrypt_file` main over a file map | negation without base directory, frame theorem with |
| C55 | K,M | `decrypt_file` main over a file map | frame theorem, contents `_partial` (10 MB; larger files fail), negation for output = input |
| C56 | S,L | tool call and vendor executable composed | both directions |
| C57 | K,P | packaging run, then decryption of what the archive contains | composition, `_partial` |
| C58 | P | manifest inside the archive | composition with the XML reader, `_partial` |
| C59 | D | descriptor tables of tool and children over event histories | invariant; negation without standard input |
| C60 | D | same | writing proved, negation for reading |
| C61 | D | same | `_partial`, bound on the number of starts as negation |
| C62 | D | same | `_partial`, negations for inherited descriptors |
| C63 | D,E | `startExecutable` over outcomes of system and OpenSSL calls | all paths, negations for unchecked ones |
| C64 | D,S,M | `lveServe` | composition of handshake, approval and sessions |
| C65 | D,M | `sslSetupTool`, `sslSetupLve` | all paths, `_partial` for carriage returns |
| C66 | P | `packToolStaging`: the run with the temporary directory as result | `_partial` on success, negations for failing runs |
| C67 | D | every licensing call with what it writes | `_partial`: one message, the documented one; negation for failing writes |
| C68 | S | `lveStep` in every session against the documented answers | `_partial`, negations for TOOLS and RETURNLICENSE |
| C69 | P | `packTool` with the directory of extra files | `_partial`, negations for clashing names, Modelica files, nested `.library`, failing copies |
| C70 | K,P,S,L | packaging run, unpacking, tool and vendor executable | composition of C57, C40 and C28, `_partial` |
| C71 | K,L | every message of the log of a session, an encryption, a decryption | induction over the recursion and over sessions, `_partial`: release builds; negation for debug builds |
| C72 | P | packaging run over the files of the disk | frame theorem plus negations, `_partial`: name and current directory short enough; failing runs |
| C73 | M | text written by `obfuscate` and `randomize_key`, read by a small reader of C macros (Spec/Header) | all names and keys, `_partial`: nothing lost in writing, `stat` works; negations |
| C74 | M | blocks allocated and freed by the calls of the tool | all calls, answers, divisions and failing allocations; valid frees in full, `_partial`: what is lost is bounded; negation: every call loses 16400 bytes |
| C75 | M | blocks allocated and freed, and files opened and closed, by the vendor executable | all sessions, worlds and failing allocations; valid frees in full, `_partial`: with enough memory exactly the blocks of the context stay; negation: a request for a file that is too big leaves it open |
| C76 | S | text of the ERROR replies of `lveStep` in every session | texts stated on the words of the message (Spec/Diag), `_partial`: arguments of white space; negation for these |
| C77 | T | error objects of `valueCall` for everything that arrives | `_partial`: answers as in C26, texts missing in three cases; negations |
| C78 | S | manager as function of the calls, `lveStep`, `lveMain` with it | `_partial`: names without NUL; negation for names with one |
| C79 | P | `copyTreeTop`, `findTree`, `encTree`, `zipTree`: paths as strings in buffers, number of open directories | `_partial`: paths below 2048 bytes and few enough directories inside each other; negations for wrong contents, wrong names, missing files, endless copies |
| C80 | D | `winSpawn` on descriptor tables with inheritance flags | `_partial`: starts that succeed in programs with open standard streams, and failures before the streams are redirected; negations for later failures, programs without console, closed streams, inherited streams, long names; the message of a failed start is proved for every failure |
| C81 | L,S | `Step`: `Client.run` and `lveReceive` side by side on bounded pipes, byte by byte | `_partial`: every schedule, pipe size and record encoding leads to the same end, for clients whose arguments are C strings of at most 16000 bytes and whose paths meet the conditions of C24; negation for the empty library path |
| C82 | M | `buildKeys`: the list file through CMake's list handling, the numbered headers and the text of `public_key_tool.h`, read by a small reader of C macros (Spec/KeyList); `keyLoop` | `_partial`: every list, in a new build directory or without empty lines; negation for an empty line and an old header |
| C83 | P | `packToolWin`: the Windows branches of copying, icon, vendor executables, extra files, manifest, encryption and archive over a staging directory that disregards letter case, against `packTool` | `_partial`: success on Windows gives the same package on Linux, for names that differ by more than letter case, icons at the top, no directory called `package.mo`; without an icon, success on Windows exactly when Linux makes a package with a file in every directory; no source in encrypted packages without conditions; negations for empty directories, icons, letter case, failing `stat` and `fopen`, `TEMP` unset |
| C84 | P | `readFileWin`: `mlle_io_read_file` for Windows with the buffer for long paths, over oracles for `fopen`, `_stat`, `fseek`, `ftell` | memory safety, right contents and messages that name the file proved; `_partial`: files can be read if the path has at most 259 characters, or at most 4092 and the file is not empty, and (`c84_exactly`) only then where long paths need the prefix; negation for empty files with long paths |
| C85 | P | `printVersion`: `print_version` and the list CMake makes of `tools.txt`, against the grammar of RFC 8259 | the output is never JSON (`c85_never_json_not`); `_partial`: without the last comma it is an object with the right members; negation for a `tools.txt` without lines |
| C86 | K | `hashFind`, `hashAdd`: Jenkins' hash, buckets, chains and enlargement of uthash, and the key mask functions over them | refinement: lookups give what an association list gives, for every sequence of additions; with C33, whole libraries; negation: no memory ends the program |
| C87 | P | `addFiles`: `mz_zip_add_mem_to_archive_file_in_place` once for every file: reopening the archive, finding its end, overwriting the directory, CRC-32 by nibbles, over oracles for every read, write, flush and allocation | `unzip`, a strict reader of the format with bit-serial CRC-32, gets exactly the files whenever success is reported; ordinary archives are accepted; negations: 2 GiB, accidental signature, full disk |
| C88 | D | `startObjects`, `SslConn.close`, `serveObjects`: reference-counted objects of OpenSSL, every outcome of the calls that make them | histories of starts, calls and releases; `_partial`: `X509_new` and `SSL_new` succeed, only SSL and BIOs are freed on release; negations for the private keys, null pointers and failed starts |
| C89 | P | `packMol`: `doWork` of Windows with the bytes of the archive, C83's steps and C87's calls together; a previous file and whether it is removed | `unzip` of the file is exactly C83's package whenever success is reported, hence complete and without sources; with C70, what a tool gets from the vendor executable after unpacking; negation: a previous file that stays |
| C90 | P | `WinMachine.world`: the world that the executable's model sees on Windows, through `readFileWin`; the rest of the executable is the same code | `readFile` is `readFileWin` in that world, so what is proved for all worlds holds on Windows; plain files, missing files; C89's package unpacked on a drive and served; negation: empty files with long paths |
| C91 | P | `packMolStaging`: the run on Windows with the temporary directory as result, directories that the search for the icon leaves open, and whether these stay when removed | `_partial`: no file left on success when the directory listed first is flat, nothing at all left without icon; negations for failing runs, failing removal, and open directories |
| C92 | P | `encryptFileDisk`, `decryptFileDisk`: the tools writing through a buffer to a disk with limited room, with or without memory for the context; compared with `encryptFileMain` and `decryptFileMain` on a machine without failures | `_partial`: the output is at most cut, by no more than the buffer; equal if there is room; nothing left after a failure; refusals the same on every disk; negations for both tools and for missing memory |
| C93 | P | `copyFile`: size, reading, buffer, disk and permissions; `PackEnv.copying`: the packaging tool with it | `_partial`: contents and permissions right if the file can be read and there is room, for single copies and for packages; copies never contain bytes other than those of the file and zeros; negations for errors of reading, a full disk and the vendor executable |
| C94 | P | `packToolDisk`: manifest and encryption written through a buffer to a disk with limited room below every file of the temporary directory, compared with `packTool` on a machine without failing writes | `_partial`: same files in the same order, cut where the disk was full, encrypted files by no more than the buffer; equal with enough room; never Modelica files in a package with encryption; negations for an encrypted file, the manifest, and `package.moc`, whose cut makes all other files useless |

## 4. What is modelled and what is not

Each module of `Verif/Model` repeats its scope in its header.

| C source | Lean module | modelled |
|----------|-------------|----------|
| common/mlle_protocol.c, .h | Model/Protocol | command table, message forms, limits, error codes |
| common/mlle_parse_command.c | Model/Parse | all of it: tokenizer, numbers, error texts with buffer limits |
| common/mlle_io.c | Model/Send, Model/Lve (`readFile`), Model/Tool | senders with buffer sizes and allocation; `mlle_io_read_file` |
| `mlle_log` in mlle_cr_*.c | Model/CrLog | the messages, along the functions of Model/Crypt and Model/Lve; not: opening the file, `fprintf` failures |
| common/mlle_utils.c | Model/Utils, Model/ReadCommand | `extract_data`, `mlle_read_command` and its continuation loop |
| common/mlle_error.c | Model/Error | all of it, with allocation failures |
| common/mlle_ssl.c | Model/Ssl | `ssl_write_message`, `ssl_read_message`.  `get_public_key` in Model/Start.  The objects of `create_CTX`, `get_rsa` and `generate_X509` in Model/SslObjects |
| decryptors/default/src/mlle_cr_encrypt.c, mlle_cr_decrypt.c | Model/Crypt | all of it; uthash as an association list (justified by C86); OpenSSL primitives as parameters |
| encrypt_decrypt/encrypt_file.c, decrypt_file.c | Model/EncryptFile | `main` of both over a map of files |
| embedfile/obfuscate_utils.c, obfuscators/dummy | Model/Embed | generated macros and their effect |
| embedfile/obfuscate.c, randomize_key.c | Model/BuildTools | both `main` functions and the text of the header |
| CMakeLists.txt:215-282, GenPublicKeyToolH.cmake, lve/mlle_lve_pubkey.c | Model/KeyList | from `public_key_tools.txt` to the loop over the keys; names in the list of letters, digits and `_-./`; not: the rest of the build |
| lve/mlle_protocol_lve_state.c, mlle_lve.c, mlle_lve_*.c | Model/Lve, Model/LveHeap | state table, dispatch, every command, the receive loop |
| license_managers/testingdummy | Model/TestLicense | all of it |
| lve/lve.c | Model/LveMain | options, command line checkout |
| tool/mlle_licensing.c | Model/Tool, Model/Process, Model/Start, Model/ToolHeap | every licensing call; starting and freeing a connection |
| tool/mlle_spawn_posix.c | Model/Process | pipes, fork, descriptor tables of all processes |
| tool/mlle_ssl_tool.c, lve/mlle_ssl_lve.c | Model/Start | order of steps and error paths; the OpenSSL calls are outcomes |
| packagetool/arguments.c | Model/PackArgs, Model/Pack | reading and checking arguments; not: usage texts |
| packagetool/manifest.c | Model/Manifest | all of it |
| packagetool/packagetool.c, utils.c (Linux parts) | Model/Pack | `doWork` and everything it calls, with paths as lists of names; not: messages |
| packagetool/utils.c: paths | Model/PackPaths | the four walks through directories (copy, icon, encryption, archive) with paths in buffers of 2048, 2049 and 4096 bytes and with the number of open directories; not: descriptors of files, the copy of a directory as if it were a file |
| tool/mlle_spawn_windows.c | Model/SpawnWindows | all of it; not: buffering |
| both programs together | Model/Pipes | a client of the licensing calls and the receive loop of the vendor executable on two bounded pipes; not: handshake, closing, failing reads and writes |
| packagetool/utils.c: removal | Model/PackClean | `removeFolderLinux`, `deleteTemporaryStagingFolder`; `doWork` with what it leaves |
| packagetool/utils.c (Windows parts) | Model/PackWin | the branches for `WIN32` that `doWork` calls; not: `_snprintf` returning -1 |
| common/mlle_io.c (Windows) | Model/ReadFileWin | `mlle_io_read_file`; not: paths relative to a directory or with `.` and `..` (C84 is about paths from a drive) |
| lve (Windows) | Model/LveWin | the executable with `readFileWin`, as a `World` in which `FileObs.refused` carries the error text; enough memory assumed for the equality `c90_reads`; not: `_setmode` of `mlle_lve_init`, and streams left open (C75 is about Linux) |
| lve/lve.c `print_version`, CMakeLists.txt:350-367 | Model/Version | the text; lines of `tools.txt` free of `;`, quotes and backslashes |
| packagetool/utils.c: createZipArchive | Model/PackPlace | name, removal of an older archive and place of the new one on the disk; not: directories and links of that name |
| ThirdParty/uthash/uthash.h | Model/Uthash, Model/UthashCrypt | `HASH_FIND_STR`, `HASH_ADD_KEYPTR` and everything they expand to, and the functions of mlle_cr_encrypt.c and mlle_cr_decrypt.c over them; not: the list of items in the order of addition, which nothing reads, and failures of `calloc` for an item |
| packagetool/utils.c, packagetool.c (Windows) | Model/MolFile | `createZipArchive` and `zipDirectoryWin32` over the bytes of the archive, with a previous file; not: names of 200 bytes and more, paths of 2048 bytes and more |
| packagetool/utils.c: removal (Windows) | Model/PackCleanWin | `removeFolderWindows`, `deleteTemporaryStagingFolder`, handles that `findFileWin32` leaves open; `doWork` with what it leaves |
| encrypt_decrypt/*.c on a full disk | Model/FullDisk | `main` of both tools and `mlle_cr_encrypt` with the buffering of `FILE`; the `i`-th `fwrite` keeps a number of bytes in the buffer that does not depend on the data; not: errors of the disk other than lack of room |
| packagetool/utils.c: copyFile (Linux) | Model/CopyFile | `copyFile`, `linuxCopyFilePermissions`; not: the branch for Windows, which differs in not copying permissions |
| packagetool/utils.c, manifest.c on a full disk | Model/PackDisk | `createManifestFile`, `encryptFile` and the walk over the library with the buffering of `FILE` (Model/FullDisk); room is given for every file separately, so that every distribution of the room is covered; not: writing the archive itself (`PackEnv.zipCloses`), `mkdir` without room (`PackEnv.mkdirOk`) |
| ThirdParty/miniz/miniz.c | Model/Miniz | `mz_zip_add_mem_to_archive_file_in_place` and what it calls: `mz_crc32`, the reader's initialisation, `mz_zip_writer_add_mem_ex`, `mz_zip_writer_finalize_archive`; the compressor is a parameter that hands pieces to its callback; not: memory blocks, extraction |

Not modelled at all: other Windows code, the rest of `ThirdParty`, `libcrypto-compat.c`, `asprintf.c`,
the CMake build, `src/tests`.  A license manager is an arbitrary function of the calls made to it, except in C78.

Simplifications that matter when reading the theorems:

* `malloc` is an oracle on the requested size: the same size gives the same answer within one call of a
  library function or one message.
* A world (files, directories, memory) is fixed while one message is handled; it may be a different one
  for every message.
* In `Model/Pack` a file system call fails or not independently of earlier ones, through oracles; the
  staging directory itself is a map from paths to nodes, `readdir` listings are oracles constrained by
  `Truthful` where needed.
* Leaks of memory are not tracked except for error objects (C29), connections (C61), the calls of the tool
  (C74, Model/ToolHeap; the caller's error location is empty before a call) and the commands of the vendor executable
  (C75, Model/LveHeap; without the memory of OpenSSL, of the license manager and of the buckets of uthash).

## 5. Disagreements between the code and its documentation or expectation

Each is proved as a negation with a concrete witness (theorem in parentheses), unless it says "noted".

*Wire format and connection*

* `extract_data` copies as many bytes as have arrived behind the newline, not as many as announced: heap
  overflow, and over-read and uninitialised bytes in other cases (`c06_*_negated`).
* The tool's continuation loop writes beyond the announced length if the peer sends more
  (`c09_overlong_record_negated`), and runs on without newline (`c09_no_newline_negated`); after a broken
  connection it uses an error code as length (`c09_broken_connection_negated`); a NUL in the header gives
  success with null data (`c09_success_without_data_negated`).
* The tool drops the last byte of a message before parsing its header (noted; harmless because headers end
  with a newline).
* `ssl_read_message` does not clear the buffer it hands out when the caller frees it
  (`c50_not_scrubbed_negated`).

*Vendor executable*

* `mlle_tool_libpath` with the empty path makes tool and vendor executable wait for each other for ever
  (`c81_waits_for_ever_not`).
* A LIB message without data is not answered (`c13_empty_lib_not`), and a following FILE dereferences a null
  path (`c23_empty_lib_not`, `c24_survives_not`).
* A failed LIB (not a directory) is still answered with YES before the check, and files are served if the
  directory appears later (`c23_late_directory_not`).
* If memory for the decryption context is missing, the global license is not checked and unencrypted files
  are served (`c22_out_of_memory_not`).
* doc/SEMLA.md says that `..` in paths is ignored; it is not, and files outside the library are served
  (`c18_escape_not`).
* FEATURE is answered for tools that are not approved, and FILE does not need a FEATURE (noted).
* A tool without certificate leads to `strcmp(NULL, ..)` (`c16_no_certificate_not`).
* RETURNLICENSE is answered with NOTSIMPLE, which the tool does not accept (`c25_returnlicense_not`);
  doc/SEMLA.md announces YES (`c68_returnlicense_not`).
* TOOLS is documented to give TOOLLIST, the code sends VERSION 4 (`c68_tools_not`).  A VERSION that is too
  low is documented to give NO in one place and ERROR 2 in another; the code sends ERROR 2 (noted).
  LICENSEINFO, TEXT and PUBKEY are documented but not in the command table (noted).
* `--checkout-feature` without value is `strlen(NULL)` (`c47_missing_value_not`); on the command line the
  global license is not checked (`c47_global_not`), and a failing license manager makes `main` write to a
  null connection (`c47_no_manager_not`).

*Tool*

* A failing `mlle_tool_version` may leave no error object (`c26_version_send_failure_not`); a refusal without
  text aborts (`c26_refusal_abort_not`); calls may succeed with an error object set
  (`c26_success_with_error_not`), a file cut short by a broken connection is delivered
  (`c26_interrupted_file_not`).
* The functions that send requests ignore the result of the write and send nothing if memory is missing, so a
  call may succeed although its request was never sent (`c67_unsent_not`).
* The getters of error objects dereference a null object (`c29_getter_null_negated`).
* `mlle_read_command` never frees its message buffers: each call loses 16400 bytes and a copy of the answer, and the
  data of a NO or of an unexpected answer as well (`c74_lost_not`).

*Starting and TLS*

* After `fork` the parent keeps the write end of the pipe it reads from: if the vendor executable ends
  unexpectedly, the tool waits forever (`c60_read_not`).  The same descriptor is lost with every start
  (`c61_descriptor_not`), until no more vendor executables can be started (`c61_exhaustion_not`); failing
  starts lose descriptors as well (`c61_failure_not`).
* Descriptors are not close-on-exec: a vendor executable inherits the connections of earlier ones and the
  files of the tool (`c62_connections_not`, `c62_files_not`), and keeps earlier ones from ending
  (`c61_later_not`).
* If memory runs out behind `fork`, the vendor executable stays (`c61_orphan_not`).
* If the tool has no standard input, the child exits at once, without notice (`c59_stdin_not`).
* `SIGPIPE` is not ignored by the library, children are never waited for, and a failing `execl` is not
  reported (noted).
* A peer that ends the connection during the handshake leaves the message uninitialised
  (`c63_uninit_not`); `SSL_new` is not checked (`c63_ssl_new_not`); `SSL_new` is called twice and `malloc` in
  `get_public_key` not checked (noted).
* If `ssl_setup_lve` fails, `mlle_lve_shutdown` passes NULL to `SSL_shutdown` (`c64_setup_not`).
  `lve_perform_handshake` stores a pointer to a local array in the context (noted; never used).
* Key files with DOS line ends leave bytes of the private key on the stack
  (`c65_carriage_return_not`).
* Every start leaves two RSA objects with the private key of the tool in memory, also after
  `mlle_connections_free`, although the array with the key is wiped with care: `create_CTX` does not
  free its RSA object, `generate_X509` not its EVP_PKEY, and nobody the CTX and the certificate
  (`c88_keys_not`).
* `EVP_PKEY_new`, `X509_new` and `SSL_new` are not checked; if one of the last two fails, a null pointer is
  used (`c88_null_not`).  Starts that fail leave objects behind (`c88_start_not`); the vendor executable
  calls `SSL_new` twice and loses the first one.
* On Windows, after a start that fails, the standard streams of the tool are pipes that nobody uses
  (`c80_failure_not`); a tool without console keeps the ends of the vendor executable (`c80_window_not`), with standard
  input closed the vendor executable gets none (`c80_closed_not`); it always inherits the streams of the tool
  (`c80_inherit_not`); names of 4091 bytes or more are replaced by `\\?\` (`c80_long_not`).

*Encryption*

* Files in directories without `package.mo` do not decrypt (`c34_decrypt_*_not`); an empty `package.mo`
  breaks its siblings (`c33_empty_package_not`).
* `package.mo` encrypted after its siblings is refused only sometimes: the table can be lost
  (`c35_lost_not`).
* Reading short files reads before or behind the buffer (`c36_*_not`), long paths overflow a buffer
  (`c36_long_path_not`).
* Encrypting an existing `package.mo` again breaks its siblings (`c49_replace_package_not`);
  `encrypt_file` without base directory writes over a file not asked for
  (`c54_no_base_directory_not`); `decrypt_file` onto its input destroys it (`c55_same_file_not`), and files
  beyond 10 MB fail (`c55_large_partial`).
* `encrypt_file` and `decrypt_file` do not look at the result of `fclose`: when the disk is full they exit with 0 and the
  output lacks its end (`c92_encrypt_not`, `c92_decrypt_not`); a file encrypted so cannot be decrypted.  The same holds
  for `encryptFile` of the packaging tool (utils.c:1303-1304, noted).  If `mlle_cr_create` fails, `decrypt_file` goes on, and
  for a package file writes the secret key mask behind the contents, exiting with 0 (`c92_memory_not`).
* A random key with byte 0x0D is shortened (`c53_not`), and clearing leaves bytes of the key
  (`c48_clear_not`).

* Debug builds log every key and key mask in hexadecimal (`c71_debug_not`); `encrypt_file`, `decrypt_file` and
  `packagetool` write this log to standard error always, the vendor executable wherever the user of the tool
  says in the environment.

*Build tools*

* `obfuscate.c`: if `stat` fails, `%s` is given a `char` (`c73_stat_not`); results of `fprintf` and `fclose` are not
  checked, so a header cut short is no error (`c73_lost_not`).  `randomize_key.c`: `calloc` is not checked
  (`c73_random_not`).
* `CMakeLists.txt` counts empty lines of `public_key_tools.txt` as keys but makes no header for them: an empty line
  ends the build, or, if the header of an earlier build is still there, a key that was taken out of the list stays
  approved (`c82_stale_not`).  The list is read when CMake runs; nothing makes it run again when the list changes, so
  until then a removed key stays approved too (noted).

*Memory of the vendor executable*

* `mlle_io_read_file` does not close the file if `stat` or `calloc` fails, so a tool that asks for a big file again
  and again uses up the descriptors of the executable (`c75_streams_not`).
* The text of the error about missing memory in `mlle_lve_file` is never freed (`c75_blocks_not`).
* `mlle_lve_shutdown` frees the library path only; the context of the decryptor, the key masks in it and the text of
  a license error stay until the process ends (`c75_shutdown`).
* A command with an argument of white space, such as `LIB` with a tab, is answered by ERROR 1 with the text of the last
  error before it, about another message, or with no text (`c76_blank_not`: `sscanf` gives EOF, which is taken for a
  failure without writing the message).
* The tool gives an error object without text if the vendor executable dies (`c77_connection_not`) or answers with an
  argument of white space (`c77_blank_not`).

*Packaging tool*

* An empty argument is read behind its end (`c38_empty_not`).
* `Package.MO` and other spellings are neither encrypted nor put into the archive (`c40_case_not`,
  `c41_case_not`); `x.moc` beside `x.mo` is overwritten (`c40_clash_not`); failures to copy single files are
  ignored (`c40_copy_not`), as is a failure of `zip_close` (`c46_close_not`).
* Control characters, carriage returns and line breaks in values do not survive in the manifest
  (`c42_attr_not`, `c42_text_not`, `c43_not`); included files lose their last line if it has no newline, stop
  at byte 0xFF, and overflow a buffer of 200 bytes (`c44_*_not`).
* The icon path contains the library name (`c45_library_name_not`), icons in subdirectories are not found
  (`c45_subdirectory_not`), another file of the same name may be taken (`c45_other_file_not`), and an
  unusual `TMPDIR` breaks the path (`c45_tmpdir_not`).
* The temporary directory with the unencrypted library stays if anything fails (`c66_failure_not`), and
  failures to remove it are ignored, also a directory in it that cannot be opened (`c66_ignored_not`).
* The archive of a library with a name of 196 bytes or more loses its extension (`c72_long_name_not`); in a current
  directory with a very long path another file is deleted (`c72_other_file_not`); a run that fails while archiving
  has deleted the older archive (`c72_previous_not`).
* `copyFile` of the packaging tool looks neither at the results of `fwrite` and `fclose` nor, except for a message, at that
  of `fread`: a file that cannot be read to its end is filled up with zeros (`c93_read_not`), one for which the disk has no
  room is cut (`c93_disk_not`), also the vendor executable (`c93_lve_not`), and the tool exits with 0.
* `encryptFile` of the packaging tool does not look at the result of `fclose`, and writing the manifest looks at none: with a
  full disk a package with cut encrypted files (`c94_encrypted_not`) or an empty manifest (`c94_manifest_not`) is made, and the
  tool exits with 0.  If the file is `package.moc`, no file of its directory can be decrypted (`c94_unusable_not`).
* Extra files (directory `.library` beside the tool) that cannot be copied are missing without notice
  (`c69_copy_not`); with encryption, extra Modelica files are replaced by encrypted ones
  (`c69_modelica_not`); an extra file may take the place of a vendor executable (`c69_vendor_not`), an extra
  `manifest.xml` is overwritten (`c69_manifest_not`), a `.library` in it is left out (`c69_nested_not`).
* Paths of 2048 bytes or more are cut without notice while copying: a file gets the contents of another one
  (`c79_contents_not`), is missing (`c79_missing_not`) or has another name (`c79_names_not`), a directory is copied
  into itself (`c79_endless_not`); directories too deep to be opened are left out (`c79_open_not`).
* Failures of `fopen` during encryption and of `mkdtemp` are undefined behaviour (`c46_open_not`,
  `c46_mkdtemp_not`), the library path `/` as well (noted, `getLibraryName`).
* On Windows the search for the icon ends with the first directory listed, since `findFileWin32` always returns 1.
  NTFS lists `.library`, made by the tool just before, ahead of names that start with letters: then no command line
  with an icon makes a package (`c83_icon_fails`, `c83_icon_not`; the other way round, `c83_deep_icon_not`).
* On Windows an empty directory, or one with nothing to be archived, makes the tool fail with exit status 9 after
  writing part of the archive (`c83_empty_not`); a failing `stat` loses the rest of a directory without notice
  (`c83_stat_not`); a file that cannot be opened, or `TEMP` unset, is a null pointer (`c83_open_not`,
  `c83_temp_not`).  `Package.mo` is encrypted on Windows and dropped on Linux (`c83_case_not`); a directory
  `package.mo` is fatal on Linux only (`c83_package_dir_not`).
* A file `A\package.mo` next to a package `A` makes the encryption fail, since the encryptor takes both
  separators for the same (`c46_backslash_not`).
* On Windows an empty file with a path of 260 characters or more cannot be read: `_stat` cannot handle the prefix
  for long paths, and the size 0 that `ftell` tells is taken for a failure (`c84_empty_not`).  Relative paths and
  those with `..` do not work when they are long (noted).
* The hash table of key masks ends the program with `exit(-1)` if `malloc` refuses it memory, although
  `mlle_cr_decrypt` and `mlle_cr_encrypt` could return an error (`c86_memory_not`).
* `--version` prints a comma behind the last member, so the output is no JSON (`c85_never_json_not`); a `tools.txt`
  without lines is printed as one tool without a name (`c85_no_tools_not`).
* miniz takes an archive for missing when `_stat` fails, as it does for 2 GiB and more: it starts anew, reports
  success, and the earlier files are lost (`c87_two_gigabytes_not`).  It takes four bytes of a size or offset in the
  end record for the end record itself if they happen to be its signature, and refuses to go on
  (`c87_signature_not`).  The directory is overwritten before the new one is written: when the disk is full, the old
  archive is gone (`c87_damage_not`; the tool does report the failure).
* `createZipArchive` does not look at the value of `remove`.  On Windows an earlier package that another program has
  open stays, and the new files are added to it: success is reported, and a package made with encryption has the source
  texts of an earlier one made without (`c89_appends`, `c89_previous_not`).
* `findFileWin32` returns without `FindClose` from every directory in which it finds one.  Where Windows keeps such a
  directory until it is closed, the directory above it cannot be removed, and the removal of the temporary directory
  ends there: sources are left while success is reported (`c91_open_not`; the library has an icon, and its first
  directory has directories in it).  As on Linux, failing runs leave all sources, and failures of the removal are
  not reported (`c91_failure_not`, `c91_ignored_not`).

## 6. Axioms per theorem

From `#print axioms` for every theorem named in MANIFEST.json (all in namespace `Semla.Props`).

**no axioms** (7 theorems)

`c05_simple_not_truncated`, `c29_null_location`, `c29_getter_null_negated`, `c44_long_not`,
`c44_longer_not`, `c44_last_not`, `c44_ff_not`

**propext** (42 theorems)

`c06_extract_overflow_negated`, `c06_extract_overread_negated`, `c06_extract_uninit_negated`,
`c09_broken_connection_negated`, `c09_overlong_record_negated`, `c09_no_newline_negated`,
`c09_success_without_data_negated`, `c16_no_certificate_not`, `c25_returnlicense_not`,
`c26_version_send_failure_not`, `c26_refusal_abort_not`, `c26_success_with_error_not`,
`c26_interrupted_file_not`, `c29_no_memory`, `c29_first_error_kept`, `c42_attr_not`,
`c42_text_not`, `c43_fields`, `c47_missing_value_not`, `c47_global_not`, `c48_clear_not`,
`c51_write_once`, `c63_ssl_new_not`, `c65_carriage_return_not`, `c67_unsent_not`, `c73_lost_not`,
`c73_stat_not`, `c73_random_not`, `c79_contents_not`, `c79_missing_not`, `c79_names_not`,
`c79_open_not`, `c79_endless_not`, `c80_failure_not`, `c80_inherit_not`, `c80_long_not`,
`c85_no_tools_not`, `c88_released_partial`, `c88_null_not`, `c88_start_not`, `c93_copy_partial`,
`c93_made`

**propext, Classical.choice, Quot.sound** (232 theorems)

`c01_accept_iff`, `c01_accept_unique`, `c01_exclusive`, `c02_reject`, `c02_reject_empty`,
`c03_parse_error_text_fits`, `c03_session_error_text_fits`, `c04_simple`, `c04_number`,
`c04_length`, `c04_numlen`, `c05_number_not_truncated`, `c05_length_not_truncated`,
`c05_numlen_not_truncated`, `c06_extract_safe_iff_partial`, `c06_extract_data_partial`,
`c07_whole_record`, `c07_failure`, `c07_memory_safe`, `c08_reassembly_length`,
`c08_reassembly_error`, `c08_reassembly_plain`, `c09_first_record_partial`, `c10_order`,
`c10_served`, `c11_unchanged`, `c11_refused`, `c12_root_fixed`, `c12_lib_is_final`,
`c13_one_reply_partial`, `c14_lve_version`, `c14_tool_accepts_iff`, `c15_untrusted`, `c17_plain`,
`c17_unreadable`, `c17_encrypted`, `c17_library`, `c18_confined_partial`, `c19_root`,
`c20_feature`, `c20_returnfeature`, `c20_calls`, `c21_one_manager`, `c22_global_gate_partial`,
`c23_not_directory_partial`, `c23_refused`, `c24_survives_partial`, `c24_library_partial`,
`c25_lve_notsimple`, `c25_tool_notsimple_partial`, `c26_libpath_partial`,
`c26_returnfeature_partial`, `c26_returnlicense_partial`, `c26_feature_partial`,
`c26_license_partial`, `c26_file_partial`, `c26_version_partial`, `c26_success_only`,
`c26_failure_error_partial`, `c27_chunks`, `c27_within_buffer`, `c28_delivery`, `c30_round_trip`,
`c30_chunking`, `c30_layout_inverse`, `c31_layout`, `c31_decrypt_output`, `c32_mac_checked`,
`c32_library`, `c33_library_partial`, `c34_encrypt_nearest`, `c34_decrypt_truncates_not`,
`c35_refused_partial`, `c36_memory_safe_partial`, `c36_long_path_not`, `c37_keys_differ`,
`c37_package_keys`, `c39_no_source`, `c40_partial`, `c40_letters`, `c41_once`, `c41_calls`,
`c43_partial`, `c45_partial`, `c46_arguments`, `c46_partial`, `c46_open_not`, `c46_mkdtemp_not`,
`c47_success`, `c47_checkout_partial`, `c47_misuse`, `c47_no_manager_not`, `c48_contents`,
`c48_clear_partial`, `c49_incremental_partial`, `c49_replace_package_not`,
`c50_not_scrubbed_negated`, `c50_short_record_partial`, `c52_success_means_complete`,
`c53_length_partial`, `c53_not`, `c53_usable`, `c54_base_directory`,
`c54_no_base_directory_partial`, `c54_no_base_directory_not`, `c55_contents_partial`,
`c55_large_partial`, `c55_same_file_not`, `c56_feature`, `c56_returnfeature`, `c57_partial`,
`c58_partial`, `c59_start_partial`, `c59_succeeds_iff`, `c59_stays`, `c59_distinct`,
`c59_stdin_not`, `c60_write_partial`, `c60_read_not`, `c61_end_partial`, `c61_later_not`,
`c61_descriptor_not`, `c61_exhaustion_not`, `c61_failure_not`, `c61_orphan_not`, `c62_partial`,
`c62_connections_not`, `c62_files_not`, `c63_report_partial`, `c63_setup`, `c63_handshake`,
`c64_untrusted`, `c64_files`, `c64_setup_not`, `c65_cleared_partial`, `c65_key`, `c66_partial`,
`c67_request`, `c67_version`, `c68_answers_partial`, `c68_malformed`, `c69_partial`, `c70_partial`,
`c71_session_partial`, `c71_decrypt_partial`, `c73_header`, `c73_obfuscate_partial`,
`c73_obfuscate_succeeds`, `c73_random_partial`, `c73_trusted`, `c74_same`, `c74_bounded_partial`,
`c74_session_partial`, `c74_file`, `c74_lost_not`, `c75_same`, `c75_partial`, `c75_count`,
`c75_shutdown`, `c75_streams_not`, `c75_not`, `c76_malformed_partial`, `c76_one_complaint`,
`c76_out_of_turn`, `c76_untrusted`, `c76_unlicensed`, `c76_blank_not`, `c77_partial`,
`c77_codes_partial`, `c78_feature_partial`, `c78_command_line`, `c78_nul_not`, `c79_copy_partial`,
`c79_copy_steps`, `c79_icon`, `c79_encrypt`, `c79_archive`, `c80_starts`, `c80_says_why`,
`c81_no_deadlock_partial`, `c81_library_partial`, `c81_waits_for_ever_not`, `c82_table`,
`c82_trusts_partial`, `c82_builds`, `c82_stale_not`, `c83_same_partial`, `c83_exactly_partial`,
`c83_complete_partial`, `c83_no_source`, `c83_icon_fails`, `c83_letters`, `c84_safe`, `c84_right`,
`c84_reads_partial`, `c84_exactly`, `c84_named`, `c84_empty_not`, `c84_full_not`,
`c86_finds_partial`, `c86_library_partial`, `c87_archive_partial`, `c87_accepts_partial`,
`c87_two_gigabytes_not`, `c87_signature_not`, `c89_contents_partial`, `c89_made_partial`,
`c89_no_source_partial`, `c89_complete_partial`, `c89_served_partial`, `c89_appends`,
`c89_previous_not`, `c89_full_not`, `c90_reads`, `c90_plain_partial`, `c90_missing`,
`c90_served_partial`, `c90_empty_not`, `c90_full_not`, `c91_partial`, `c91_gone_partial`,
`c91_open_not`, `c91_ignored_not`, `c92_encrypt_partial`, `c92_decrypt_partial`, `c92_room`,
`c93_package_partial`, `c94_partial`, `c94_package`, `c94_complete_partial`, `c94_room`,
`c94_no_source`

**propext, Quot.sound** (111 theorems)

`c03_state_error_text_fits`, `c03_expected_text_fits`, `c13_empty_lib_not`, `c16_approved_iff`,
`c18_escape_not`, `c22_out_of_memory_not`, `c23_empty_lib_not`, `c23_late_directory_not`,
`c24_survives_not`, `c29_recorded`, `c29_history`, `c29_free_chain`, `c29_propagate`,
`c33_empty_package_not`, `c34_decrypt_sub_not`, `c35_lost_not`, `c36_short_file_not`,
`c36_short_package_not`, `c36_short_path_not`, `c38_accepts`, `c38_lookup`, `c38_rejects_partial`,
`c38_empty_not`, `c40_case_not`, `c40_clash_not`, `c40_copy_not`, `c41_order`, `c41_all_partial`,
`c41_case_not`, `c42_attr_partial`, `c42_text_partial`, `c42_markup`, `c43_not`, `c44_partial`,
`c44_manifest_partial`, `c45_library_name_not`, `c45_subdirectory_not`, `c45_other_file_not`,
`c45_tmpdir_not`, `c46_codes`, `c46_close_not`, `c46_backslash_not`, `c55_frame`,
`c63_missing_file`, `c63_not_executable`, `c63_system`, `c63_uninit_not`, `c64_key`, `c66_same`,
`c66_failure_not`, `c66_ignored_not`, `c68_tools_not`, `c68_returnlicense_not`, `c69_copy_not`,
`c69_nested_not`, `c69_manifest_not`, `c69_modelica_not`, `c69_vendor_not`, `c71_encrypt_partial`,
`c71_debug_not`, `c72_same`, `c72_partial`, `c72_previous_not`, `c72_long_name_not`,
`c72_other_file_not`, `c73_random_succeeds`, `c75_blocks_not`, `c77_connection_not`,
`c77_blank_not`, `c78_library`, `c80_streams_partial`, `c80_ends_partial`,
`c80_early_failure_partial`, `c80_window_not`, `c80_closed_not`, `c83_same_full_not`,
`c83_empty_not`, `c83_icon_not`, `c83_deep_icon_not`, `c83_case_not`, `c83_package_dir_not`,
`c83_stat_not`, `c83_open_not`, `c83_temp_not`, `c85_never_json_not`, `c85_full_not`,
`c85_members_partial`, `c86_memory_not`, `c87_damage_not`, `c88_safe_partial`, `c88_usable`,
`c88_serve_partial`, `c88_keys_not`, `c91_same`, `c91_failure_not`, `c91_full_not`, `c92_failure`,
`c92_refused`, `c92_decrypt_not`, `c92_encrypt_not`, `c92_memory_not`, `c92_full_not`, `c93_bytes`,
`c93_read_not`, `c93_disk_not`, `c93_lve_not`, `c93_full_not`, `c94_encrypted_not`,
`c94_unusable_not`, `c94_manifest_not`, `c94_full_not`
