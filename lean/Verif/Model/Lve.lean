import Verif.Model.Parse
import Verif.Model.Send
import Verif.Model.Utils
import Verif.Model.Error
import Verif.Model.Ssl
import Verif.Model.Crypt

/-!
# The session of the library vendor executable (LVE)

Models `src/lve/mlle_protocol_lve_state.c`, `mlle_lve.c`, `mlle_lve_pubkey.c`, `mlle_lve_libpath.c`,
`mlle_lve_feature.c`, `mlle_lve_license.c`, `mlle_lve_tools.c`, `mlle_lve_file.c`, and
`mlle_io_read_file` of `src/common/mlle_io.c`.

A message is what one call of `ssl_read_message` delivers.  The replies to it are the byte strings handed
to `ssl_write_message`, in order; whether they reach the tool is the subject of `Model/Ssl.lean`.
Everything outside the process that can change while it runs (files, directories, free memory) is a
`World`, and every message is handled in a world of its own.  The license manager is an arbitrary
function of the history of calls made to it.

Not modelled: Windows-only code, releasing memory, the log file; `SSL_get_shutdown` only decides when the
loop ends.
-/

namespace Semla

/-! ## Protocol states -/

/-- `enum mlle_lve_state` without `INVALID` and `SIZE`, mlle_protocol_lve_state.h. -/
inductive LveState where
  | version | tools | lib | license
  deriving DecidableEq, Repr

/-- The order of the enum. -/
def LveState.all : List LveState := [.version, .tools, .lib, .license]

/-- `mlle_lve_valid_command_for_state[cmd][state]`, mlle_protocol_lve_state.c:28-47; `none` is
`MLLE_LVE_STATE_INVALID`. -/
def validNext : CmdId → LveState → Option LveState
  | .tools, .tools => some .lib
  | .version, .version => some .tools
  | .feature, .license => some .license
  | .file, .license => some .license
  | .lib, .tools => some .license
  | .lib, .lib => some .license
  | .license, .license => some .license
  | .returnFeature, .license => some .license
  | .returnLicense, .license => some .license
  | _, _ => none

/-- `VALID_COMMANDS_LEN`, mlle_protocol_lve_state.c:49. -/
def validCommandsLen : Nat := CmdId.all.length * (maxCmdLength + 2)

/-- The loop composing the list of valid commands, mlle_protocol_lve_state.c:79-85.  `n` and `i` are the
variables of that name, `buf` the text in `valid_commands`. -/
def validCommandsLoop (st : LveState) : List CmdId → Nat → Nat → Bytes → Res (Nat × Bytes)
  | [], n, _, buf => .ok (n, buf)
  | c :: cs, n, i, buf =>
    if (validNext c st).isSome then do
      let text := (if n > 0 then b!", " else []) ++ c.name
      let buf ← snprintfAt validCommandsLen i buf text
      validCommandsLoop st cs (n + 1) (i + text.length) buf
    else validCommandsLoop st cs n i buf

/-- `mlle_next_state`, mlle_protocol_lve_state.c:51-99: the next state (`none` is INVALID) and the text
in the error buffer of `cap` bytes.  The assertions hold because of the types, except for
`command_id > MLLE_PROTOCOL_UNDEFINED_CMD`. -/
def nextState (cap : Nat) (st : LveState) (c : CmdId) (errMsg : Bytes) :
    Res (Option LveState × Bytes) :=
  if c = .undefined then .ub .assertFail
  else
    match validNext c st with
    | some s => .ok (some s, errMsg)
    | none =>
      if LveState.all.any fun s => (validNext c s).isSome then do
        let (n, list) ← validCommandsLoop st CmdId.defined 0 0 []
        .ok (none, snprintf cap (b!"Protocol error: Command " ++ c.name ++
          b!" is not valid in this state, expected command " ++
          (if n > 1 then b!"is one of " else []) ++ list ++ b!"."))
      else
        .ok (none, snprintf cap (b!"Protocol error: Command " ++ c.name ++
          b!" can't be sent to the library vendor executable."))

/-! ## The environment -/

/-- What can be observed of a path when `mlle_io_read_file` reads it. -/
inductive FileObs where
  /-- `fopen` fails; text of `strerror(errno)` -/
  | noOpen (why : Bytes)
  /-- `stat` fails -/
  | noStat (why : Bytes)
  /-- the function fails, with this message; on Windows only, see `Verif/Model/LveWin.lean` -/
  | refused (msg : Bytes)
  /-- the file has `st_size = size` and delivers `bytes`, then end of file or an error -/
  | stream (size : Nat) (bytes : Bytes) (ioError : Option Bytes)
  deriving DecidableEq, Repr

/-- Files, directories and memory at the time a message is handled.  `stat p` is `none` if `stat` fails,
otherwise whether `p` is a directory. -/
structure World where
  files : Bytes → FileObs
  stat : Bytes → Option Bool
  malloc : Nat → Bool

/-- Result of `mlle_io_read_file`: contents, or the error object left at `*error`. -/
inductive ReadFile where
  | contents (b : Bytes)
  | failed (err : Option Err)
  deriving DecidableEq, Repr

/-- `mlle_io_read_file`, mlle_io.c:58-171 (Linux), with `*error == NULL` before the call. -/
def readFile (w : World) (path : Bytes) : ReadFile :=
  match w.files path with
  | .noOpen why => .failed (errorNew w.malloc 1 1 (b!"Couldn't open file " ++ path ++
      b!". The error message was: " ++ why))
  | .noStat why => .failed (errorNew w.malloc 1 1 (b!"Couldn't find file size for " ++ path ++
      b!". The error message was: " ++ why))
  | .refused msg => .failed (errorNew w.malloc 1 1 msg)
  | .stream size bytes ioError =>
    if w.malloc (size + 1) then
      let got := bytes.take size
      match ioError with
      | some why =>
        if got.length < size then
          .failed (errorNew w.malloc 1 1 (b!"I/O error while reading file " ++ path ++
            b!". The error message was: " ++ why))
        else .contents got
      | none => .contents got
    else .failed (errorNew w.malloc 1 1 (b!"Couldn't allocate memory to read file: " ++ path))

/-- Contents only. -/
def World.read (w : World) (path : Bytes) : Option Bytes :=
  match readFile w path with
  | .contents b => some b
  | .failed _ => none

/-- A call of the license manager interface, `src/license_managers/include/mlle_license_manager.h`. -/
inductive LicCall where
  | new (libpath : Option Bytes)
  | checkout (feature : Bytes)
  | checkin (feature : Bytes)
  deriving DecidableEq, Repr

/-- Its answer; on failure the message of the error object (`none`: no error object or no message). -/
inductive LicAnswer where
  | success
  | failure (msg : Option Bytes)
  deriving DecidableEq, Repr

/-- What is fixed when the executable is built: primitives, vendor key and its declared length, keys of
trusted tools, the global license feature, the license manager (its answer to the last of the calls made
so far). -/
structure LveConf where
  C : Crypto
  key : Bytes
  keyLen : Nat
  trusted : List Bytes
  globalFeature : Option Bytes
  licenseManager : List LicCall → LicAnswer

/-- `struct mlle_lve_ctx`, mlle_lve.h:44-55, with the protocol state and the error buffer of
`mlle_lve_receive`, and the calls made to the license manager.  `hasMgr` is `lic_mgr != NULL`; `cr` is
the table of the decryption context, `none` if `cr_context == NULL`. -/
structure LveSt where
  proto : LveState
  errMsg : Bytes
  libpath : Option Bytes
  pathSize : Nat
  approved : Bool
  toolErrType : Int
  toolErrMsg : Option Bytes
  hasMgr : Bool
  cr : Option MaskTable
  calls : List LicCall
  deriving DecidableEq, Repr

/-- The context at start, lve.c:218, with the local variables of `mlle_lve_receive`. -/
def LveSt.initial : LveSt := ⟨.version, [], none, 0, false, 0, none, false, none, []⟩

/-- `ERROR_SIZE`, mlle_lve.h:39. -/
def lveErrorSize : Nat := 4096

/-! ## Tool approval -/

/-- `validate`, mlle_lve_pubkey.c:62-90.  `none`: the tool presented no certificate, and
`global_tool_pub_key` is NULL. -/
def validate (trusted : List Bytes) (toolKey : Option Bytes) : Res Bool :=
  match trusted with
  | [] => .ok false
  | k :: ks =>
    match toolKey with
    | none => .ub .nullDeref
    | some t => if cstr t = cstr k then .ok true else validate ks toolKey

/-- `mlle_lve_validate_pubkey`, mlle_lve_pubkey.c:40-57. -/
def validatePubkey (conf : LveConf) (toolKey : Option Bytes) (st : LveSt) : Res LveSt := do
  let ok ← validate conf.trusted toolKey
  if ok then .ok { st with approved := true }
  else .ok { st with approved := false, toolErrMsg := some b!"Not a valid tool",
                     toolErrType := errToolNotAllowed }

/-- Start of `mlle_lve_receive`, mlle_lve.c:162-176. -/
def lveStart (conf : LveConf) (toolKey : Option Bytes) : Res LveSt :=
  validatePubkey conf toolKey .initial

/-! ## Sending -/

/-- A reply in the given mode: without a connection (`quiet`, command line use) `ssl` is NULL. -/
def reply (quiet : Bool) (r : Res (Option Bytes)) : Res (List Bytes) :=
  if quiet then .ub .nullDeref
  else do
    let m ← r
    .ok m.toList

/-! ## License manager -/

/-- One call of the license manager. -/
def callManager (conf : LveConf) (st : LveSt) (c : LicCall) : LveSt × LicAnswer :=
  ({ st with calls := st.calls ++ [c] }, conf.licenseManager (st.calls ++ [c]))

/-- `mlle_lve_setup_licensing`, mlle_lve_feature.c:29-37.  The path passed to the manager is a
C string. -/
def setupLicensing (conf : LveConf) (st : LveSt) : LveSt × LicAnswer :=
  if st.hasMgr then (st, .success)
  else
    match callManager conf st (.new (st.libpath.map cstr)) with
    | (st, .success) => ({ st with hasMgr := true }, .success)
    | (st, .failure m) => (st, .failure m)

/-- `mlle_lve_setup_licensing_check_error`, mlle_lve_feature.c:39-52. -/
def setupLicensingCheckError (conf : LveConf) (w : World) (quiet : Bool) (st : LveSt) :
    Res (LveSt × List Bytes × Bool) :=
  match setupLicensing conf st with
  | (st, .success) => .ok (st, [], true)
  | (_, .failure none) => .ub .nullDeref
  | (st, .failure (some m)) => do
    let out ← reply quiet (sendError w.malloc errLicense (some m))
    .ok (st, out, false)

/-- The feature name as the license manager gets it: `length` bytes (and a NUL).  The manager is
assumed to look at all of them. -/
def featureArg (cmd : Command) : Res Bytes :=
  match cmd.data with
  | none => .ub .nullDeref
  | some b => readCells b.cells cmd.length

/-- `mlle_lve_feature`, mlle_lve_feature.c:54-82: context, replies, return value. -/
def lveFeature (conf : LveConf) (w : World) (quiet : Bool) (st : LveSt) (cmd : Command) :
    Res (LveSt × List Bytes × Bool) := do
  let (st, out, ok) ← setupLicensingCheckError conf w quiet st
  if ¬ ok then .ok (st, out, false)
  else do
    let f ← featureArg cmd
    match callManager conf st (.checkout f) with
    | (st, .success) => .ok (st, if quiet then [] else [sendSimple .yes], true)
    | (st, .failure m) =>
      if quiet then .ok (st, [], false)
      else
        match m with
        | none => .ub .nullDeref
        | some m => do
          let out ← reply false (sendString w.malloc .no m)
          .ok (st, out, false)

/-- `mlle_lve_returnfeature`, mlle_lve_feature.c:84-106. -/
def lveReturnFeature (conf : LveConf) (w : World) (st : LveSt) (cmd : Command) :
    Res (LveSt × List Bytes) := do
  let (st, out, ok) ← setupLicensingCheckError conf w false st
  if ¬ ok then .ok (st, out)
  else do
    let f ← featureArg cmd
    match callManager conf st (.checkin f) with
    | (st, .success) => .ok (st, [sendSimple .yes])
    | (_, .failure none) => .ub .nullDeref
    | (st, .failure (some m)) => do
      let out ← reply false (sendError w.malloc errLicense (some m))
      .ok (st, out)

/-! ## LIB -/

/-- The trimming loop, mlle_lve_libpath.c:76-81: `path_size` starts with the length of the path. -/
def trimLoop (path : Bytes) : Nat → Bytes
  | 0 => []
  | n + 1 =>
    if 1 < n + 1 ∧ (path.getD n 0 = 92 ∨ path.getD n 0 = 47) then trimLoop path n
    else path.take (n + 1)

/-- `sizeof(mlle_cr_context)`, only used as an argument of the allocation oracle. -/
def crContextSize : Nat := 48

/-- `validate_directory`, mlle_lve_libpath.c:141-159. -/
def validateDirectory (w : World) (st : LveSt) : LveSt × Bool :=
  match w.stat (cstr (st.libpath.getD [])) with
  | none => ({ st with toolErrType := errFileNotFound,
                       toolErrMsg := some b!"Library path does not exist." }, false)
  | some false => ({ st with toolErrType := errFileNotFound,
                             toolErrMsg := some b!"Library path is not a directory." }, false)
  | some true => (st, true)

/-- The global license check, mlle_lve_libpath.c:92-114: context and, if it failed, the message of the
error object. -/
def globalLicense (conf : LveConf) (st : LveSt) : LveSt × LicAnswer :=
  match conf.globalFeature with
  | none => (st, .success)
  | some f =>
    if st.approved then
      match setupLicensing conf st with
      | (st, .success) => callManager conf st (.checkout f)
      | (st, .failure m) => (st, .failure m)
    else (st, .success)

/-- `mlle_lve_libpath`, mlle_lve_libpath.c:56-129: context, replies, return value. -/
def lveLibpath (conf : LveConf) (w : World) (quiet : Bool) (st : LveSt) (cmd : Command) :
    Res (LveSt × List Bytes × Bool) :=
  match cmd.data with
  | none => .ok ({ st with toolErrType := errFileNotFound,
                           toolErrMsg := some b!"Path to library is missing." }, [], false)
  | some buf =>
    if cmd.length = 0 then
      .ok ({ st with toolErrType := errFileNotFound,
                     toolErrMsg := some b!"Path to library is missing." }, [], false)
    else if ¬ w.malloc ((cmd.length + 1) % sizeMod) then .ub .nullDeref
    else do
      let data ← readCells buf.cells cmd.length
      let path := trimLoop data data.length
      let st := { st with libpath := some path, pathSize := path.length }
      if ¬ w.malloc (crContextSize + (cstr path).length) then
        .ok ({ st with cr := none, toolErrType := errOther,
                       toolErrMsg := some b!"Failed to allocate memory for decryption context." },
          [], false)
      else
        let st := { st with cr := some [] }
        match globalLicense conf st with
        | (_, .failure none) => .ub .nullDeref
        | (st, .failure (some m)) => do
          let msg := if w.malloc ((cstr m).length + 1) then some (cstr m) else none
          let st := { st with toolErrMsg := msg, toolErrType := errLicense, approved := false }
          let out ← if quiet then Res.ok [] else reply false (sendError w.malloc errLicense msg)
          .ok (st, out, false)
        | (st, .success) =>
          let (st, ok) := validateDirectory w st
          .ok (st, if quiet then [] else [sendSimple .yes], ok)

/-! ## FILE -/

/-- `strrchr(s, '.') + 1`: what follows the last dot, if there is one. -/
def extension (s : Bytes) : Option Bytes :=
  if 46 ∈ s then some (s.reverse.takeWhile (· ≠ 46)).reverse else none

/-- Is the file to be decrypted, mlle_lve_file.c:66-73? -/
def isEncryptedName (s : Bytes) : Bool :=
  match extension s with
  | some e => eqNoCase e b!"moc"
  | none => false

/-- The decryption environment of a session in a world. -/
def crEnvOf (conf : LveConf) (w : World) (st : LveSt) : CrEnv :=
  ⟨conf.C, conf.key, conf.keyLen, cstr (st.libpath.getD []), w.read⟩

/-- The error message of an error object, or undefined if there is none. -/
def errorMessage (e : Option Err) : Res (Option Bytes) :=
  match e with
  | none => .ub .nullDeref
  | some e => .ok e.message

/-- End of `mlle_lve_file` with an error: nothing is sent for a null message. -/
def fileError (w : World) (code : Int) (msg : Option Bytes) : Res (List Bytes) :=
  match msg with
  | none => .ok []
  | some m => reply false (sendError w.malloc code (some m))

/-- `mlle_cr_decrypt` as `mlle_lve_file` calls it: the context may be NULL. -/
def lveDecrypt (conf : LveConf) (w : World) (st : LveSt) (rel content : Bytes) :
    Res (LveSt × Int × Bytes) :=
  match st.cr with
  | some t => do
    let (t, n, out) ← crDecrypt (crEnvOf conf w st) t rel content
    .ok ({ st with cr := some t }, n, out)
  | none => do
    let (n, out) ← crDecryptNoContext (crEnvOf conf w st) content
    .ok (st, n, out)

/-- `mlle_lve_file`, mlle_lve_file.c:27-122. -/
def lveFile (conf : LveConf) (w : World) (st : LveSt) (cmd : Command) : Res (LveSt × List Bytes) :=
  if ¬ st.approved then do
    let out ← fileError w st.toolErrType st.toolErrMsg
    .ok (st, out)
  else
    let size := (st.pathSize + cmd.length + 2) % sizeMod
    if ¬ w.malloc size then do
      let out ← fileError w errOther (some b!"Couldn't allocate memory")
      .ok (st, out)
    else
      match st.libpath, cmd.data with
      | some lib, some buf => do
        let rel ← readCStr buf.cells
        if size = 0 then .ub .uninit
        else
          let path := snprintf size (cstr lib ++ b!"/" ++ rel)
          match readFile w path with
          | .failed e => do
            let msg ← errorMessage e
            let out ← fileError w errFileIo msg
            .ok (st, out)
          | .contents content =>
            if isEncryptedName rel then
              if ¬ w.malloc (content.length + 1) then do
                let out ← fileError w errOther (if w.malloc (100 + size) then
                  some (b!"Could not allocate memory to decrypt file " ++ path ++ b!".") else none)
                .ok (st, out)
              else do
                let (st, n, out) ← lveDecrypt conf w st rel content
                if n < 0 then do
                  let out ← fileError w errOther (if w.malloc (100 + size) then
                    some (b!"Failed to decrypt file " ++ path ++ b!", might be corrupted.") else none)
                  .ok (st, out)
                else do
                  let r ← reply false (sendLength w.malloc .fileCont (out.take n.toNat))
                  .ok (st, r)
            else do
              let r ← reply false (sendLength w.malloc .fileCont content)
              .ok (st, r)
      | _, _ => .ub .nullDeref

/-! ## Dispatch -/

/-- The switch of `mlle_lve_handle_command`, mlle_lve.c:88-140, for a command valid in state
`st.proto`, whose next state is `next`. -/
def dispatch (conf : LveConf) (w : World) (st : LveSt) (next : LveState) (cmd : Command) :
    Res (LveSt × List Bytes) :=
  match st.proto with
  | .version =>
    if cmd.number < 1 then do
      let msg := snprintf lveErrorSize b!"Minimum supported protocol version is 1"
      let out ← reply false (sendError w.malloc errVersionTooLow (some msg))
      .ok ({ st with errMsg := msg }, out)
    else .ok ({ st with proto := next }, [sendNumber .version 1])
  | .tools =>
    if cmd.id = .tools then .ok ({ st with proto := next }, [sendNumber .version 4])
    else do
      let (st, out, _) ← lveLibpath conf w false st cmd
      .ok ({ st with proto := next }, out)
  | .lib => do
    let (st, out, _) ← lveLibpath conf w false st cmd
    .ok ({ st with proto := next }, out)
  | .license =>
    if cmd.id = .feature then do
      let (st, out, _) ← lveFeature conf w false st cmd
      .ok ({ st with proto := next }, out)
    else if cmd.id = .returnFeature then do
      let (st, out) ← lveReturnFeature conf w st cmd
      .ok ({ st with proto := next }, out)
    else if cmd.id = .license ∨ cmd.id = .returnLicense then
      .ok ({ st with proto := next }, [sendSimple .notSimple])
    else do
      let (st, out) ← lveFile conf w st cmd
      .ok ({ st with proto := next }, out)

/-- `mlle_lve_handle_command`, mlle_lve.c:59-150, for a parsed command and the message it came in. -/
def handleCommand (conf : LveConf) (w : World) (st : LveSt) (cmd : Command) (msg : Bytes) :
    Res (LveSt × List Bytes) := do
  let (next, errMsg) ← nextState lveErrorSize st.proto cmd.id st.errMsg
  match next with
  | none => do
    let out ← reply false (sendError w.malloc errCommandNotUnderstood (some errMsg))
    .ok ({ st with errMsg := errMsg }, out)
  | some next => do
    let (cmd, _) ← if cmd.id.form = .length then extractData w.malloc cmd msg else Res.ok (cmd, 0)
    dispatch conf w st next cmd

/-- One round of the loop of `mlle_lve_receive`, mlle_lve.c:191-217.  `malloc(bytesRead + 1)` is not
checked. -/
def lveStep (conf : LveConf) (w : World) (st : LveSt) (msg : Bytes) : Res (LveSt × List Bytes) :=
  if ¬ w.malloc (msg.length + 1) then .ub .nullDeref
  else do
    let (g, cmd, errMsg) ← parseCommand lveErrorSize msg st.errMsg
    let st := { st with errMsg := errMsg }
    if g = .valid then handleCommand conf w st cmd msg
    else do
      let text := if g = .unknownError then b!"Internal error in parsing." else errMsg
      let out ← reply false (sendError w.malloc errCommandNotUnderstood (some text))
      .ok (st, out)

/-- A session: every message with the world it is handled in.  Gives the context afterwards and the
replies to each message. -/
def lveRun (conf : LveConf) : LveSt → List (World × Bytes) → Res (LveSt × List (List Bytes))
  | st, [] => .ok (st, [])
  | st, (w, msg) :: rest => do
    let (st, out) ← lveStep conf w st msg
    let (st, outs) ← lveRun conf st rest
    .ok (st, out :: outs)

/-- `mlle_lve_receive`, mlle_lve.c:176-237, on a connection.  Each entry of the list is the world of one
round and whether `SSL_get_shutdown` is set after it; a list that is used up means that the executable is
still running.  `LE_LINE_TOO_LONG` is never returned by `ssl_read_message`. -/
def lveReceive (conf : LveConf) : LveSt → List (World × Bool) → Conn → Res (LveSt × List (List Bytes))
  | st, [], _ => .ok (st, [])
  | st, (w, stop) :: rest, c => do
    let (r, c) ← sslReadMessage w.malloc c
    match r with
    | .blocked => .ok (st, [])
    | .failed _ _ => .ok (st, [])
    | .message cells n _ => do
      let msg ← readCells cells n
      let (st, out) ← lveStep conf w st msg
      if stop then .ok (st, [out])
      else do
        let (st, outs) ← lveReceive conf st rest c
        .ok (st, out :: outs)

end Semla
