import Verif.Model.Lve
import Verif.Model.ToolHeap

/-!
# Memory and open files of the library vendor executable

The session of `Model/Lve` once more, this time with the blocks of memory that it allocates and frees and the files
that it opens and closes: `mlle_lve_receive`, `mlle_lve_handle_command` and `mlle_lve_shutdown` (`src/lve/mlle_lve.c`),
`mlle_lve_libpath`, `mlle_lve_feature`, `mlle_lve_returnfeature` and `mlle_lve_file` (`src/lve/mlle_lve_libpath.c`,
`mlle_lve_feature.c`, `mlle_lve_file.c`), `mlle_io_read_file` and the senders (`src/common/mlle_io.c`),
`mlle_cr_create`, `mlle_demask_key`, `mlle_store_keymask` and `mlle_cr_decrypt`
(`src/decryptors/default/src/mlle_cr_decrypt.c`).  What is received, read, decrypted and sent is taken from the
functions of the other models.

Left out: memory of OpenSSL and of the license manager (but not the error objects that it hands over), the bucket
array of uthash.  As in `Model/Crypt`, allocations of the decryptor do not fail.
-/

namespace Semla

/-- Memory, the number of streams that are open, and the blocks that `struct mlle_lve_ctx` points to: `libpath`,
`cr_context`, the entries of its `keymask_map` (oldest first), and `tool_error_msg` if it is not a constant. -/
structure LveMem where
  heap : Heap
  streams : Nat
  libpath : Option Nat
  context : Option Nat
  masks : List Nat
  text : Option Nat
  deriving DecidableEq, Repr

/-- At the start of `mlle_lve_receive`. -/
def LveMem.initial : LveMem := ⟨[], 0, none, none, [], none⟩

/-- `malloc(n)` when it succeeds. -/
def LveMem.alloc (s : LveMem) (n : Nat) : Nat × LveMem :=
  (s.heap.length, { s with heap := s.heap ++ [some n] })

/-- `free`. -/
def LveMem.free (s : LveMem) (p : Option Nat) : Res LveMem := do
  let h ← s.heap.free p
  .ok { s with heap := h }

/-- `mlle_error_free`, mlle_error.c:143-157: the object, and its message. -/
def LveMem.freeErr (s : LveMem) : Option (Nat × Option Nat) → Res LveMem
  | none => .ok s
  | some (p, q) => do
    let s ← s.free q
    s.free (some p)

/-- `mlle_error_set` at a location with NULL. -/
def LveMem.newErr (w : World) (s : LveMem) : Option (Nat × Option Nat) × LveMem :=
  let (e, h) := newError w.malloc (some defaultMsgSize) s.heap
  (e, { s with heap := h })

/-- An error object with a message of `n` bytes that the license manager hands over. -/
def LveMem.managerErr (s : LveMem) (n : Nat) : Option (Nat × Option Nat) × LveMem :=
  let (p, s) := s.alloc errStructSize
  let (q, s) := s.alloc (n + 1)
  (some (p, some q), s)

/-- `mlle_io_read_file`, mlle_io.c:58-171: the buffer and the error object.  The stream is closed at the end only. -/
def readFileHeap (w : World) (path : Bytes) (s : LveMem) :
    Res (Option Nat × Option (Nat × Option Nat) × LveMem) :=
  match w.files path with
  | .noOpen _ =>
    let (e, s) := s.newErr w
    .ok (none, e, s)
  | .refused _ => -- on Windows, where streams are not modelled
    let (e, s) := s.newErr w
    .ok (none, e, s)
  | .noStat _ =>
    let s := { s with streams := s.streams + 1 }
    let (e, s) := s.newErr w
    .ok (none, e, s)
  | .stream size bytes ioError =>
    let s := { s with streams := s.streams + 1 }
    if w.malloc (size + 1) then
      let (p, s) := s.alloc (size + 1)
      if (bytes.take size).length < size ∧ ioError.isSome then do
        let (e, s) := s.newErr w
        let s ← s.free (some p)
        .ok (none, e, { s with streams := s.streams - 1 })
      else .ok (some p, none, { s with streams := s.streams - 1 })
    else
      let (e, s) := s.newErr w
      .ok (none, e, s)

/-! ## Sending -/

/-- `mlle_send_length_form` with its block, mlle_io.c:209-240; `n` is the length of the data. -/
def sendLengthHeap (w : World) (n : Nat) (s : LveMem) : Res LveMem :=
  let size := (numberBufSize + n + 1) % sizeMod
  if w.malloc size then
    let (p, s) := s.alloc size
    s.free (some p)
  else .ok s

/-- `mlle_send_error` with its block, mlle_io.c:250-295. -/
def sendErrorHeap (w : World) (msg : Bytes) (s : LveMem) : Res LveMem :=
  let size := (numberAndLengthBufSize + (cstr msg).length + 1) % sizeMod
  if w.malloc size then
    let (p, s) := s.alloc size
    s.free (some p)
  else .ok s

/-- The same unless the message is NULL, mlle_lve_file.c:111-113. -/
def fileErrorHeap (w : World) (msg : Option Bytes) (s : LveMem) : Res LveMem :=
  match msg with
  | none => .ok s
  | some m => sendErrorHeap w m s

/-! ## Decryption -/

/-- `sizeof(struct mlle_key_mask_map)` for keys of 32 bytes on LP64, mlle_cr_context.h:30-35. -/
def maskItemSize : Nat := 104

/-- `mlle_store_keymask`, mlle_cr_decrypt.c:189-227: an entry unless the directory has one. -/
def storeHeap (t : MaskTable) (p : Bytes) (s : LveMem) : LveMem :=
  let d := if p.length = 11 ∨ p.length - 12 = 0 then b!"/" else p.take (p.length - 12)
  match t.find d with
  | some _ => s
  | none =>
    let (a, s) := s.alloc (maskItemSize + d.length + 1)
    { s with masks := s.masks ++ [a] }

/-- `mlle_cr_decrypt` after `mlle_demask_key`, mlle_cr_decrypt.c:295-341: the buffer of the MAC. -/
def decryptTailHeap (e : CrEnv) (t : MaskTable) (p key : Bytes) (flag : Int) (content : Bytes) (s : LveMem) :
    Res LveMem := do
  let (mac, s) := s.alloc 32
  let (_, n, _) ← decryptTail e t p key flag content
  let s := if 0 ≤ n ∧ flag ≠ 0 then storeHeap t p s else s
  s.free (some mac)

/-- `mlle_demask_key`, mlle_cr_decrypt.c:70-186: results as in `demaskKey`, and memory. -/
def demaskHeap (e : CrEnv) (w : World) :
    Nat → MaskTable → Bytes → Bytes → LveMem → Res ((MaskTable × Bytes × Int) × LveMem)
  | 0, _, _, _, _ => .ub .tooDeep
  | fuel + 1, t, p, key, s =>
    let ls := lastSlash p
    if eqNoCase b!"package.moc" (fileName p) then
      if ls = 0 then .ok ((t, key, 1), s)
      else do
        let ((t, key, r), s) ← demaskHeap e w fuel t (p.take ls) key s
        .ok ((t, key, if r < 0 then -1 else 1), s)
    else
      match t.find (dirKey p) with
      | some m => .ok ((t, e.mask key m, 0), s)
      | none =>
        if longFileNameMax < ls + 13 then .ub .oobWrite
        else do
          let q := if ls = 0 then b!"package.moc" else p.take ls ++ b!"/package.moc"
          let full := snprintf longFileNameMax (e.basedir ++ b!"/" ++ q)
          let (buffer, err, s) ← readFileHeap w full s
          match e.read full with
          | none => do
            let (r, s) ← demaskHeap e w fuel t q key s
            let s ← s.free buffer
            let s ← s.freeErr err
            .ok (r, s)
          | some content => do
            let (out, s) := s.alloc content.length
            let ((t, k, flag), s) ← demaskHeap e w fuel t q e.key s
            let s ← decryptTailHeap e t q k flag content s
            let (t, r, plain) ← decryptTail e t q k flag content
            let s ← s.free buffer
            let s ← s.free (some out)
            let s ← s.freeErr err
            if 0 < r then .ok ((t, e.mask key ((plain.drop r.toNat).take e.keyLen), 0), s)
            else .ok ((t, key, -1), s)

/-- `mlle_cr_decrypt` as `mlle_lve_file` calls it. -/
def lveDecryptHeap (conf : LveConf) (w : World) (st : LveSt) (rel content : Bytes) (s : LveMem) : Res LveMem :=
  let e := crEnvOf conf w st
  match st.cr with
  | some t => do
    let ((t, key, flag), s) ← demaskHeap e w (demaskFuel rel) t rel e.key s
    decryptTailHeap e t rel key flag content s
  | none => decryptTailHeap e [] [] e.key 0 content s

/-! ## Commands -/

/-- `mlle_lve_file`, mlle_lve_file.c:27-122.  The message for a file that can't be decrypted is freed only if it was
`mlle_cr_decrypt` that failed. -/
def lveFileHeap (conf : LveConf) (w : World) (st : LveSt) (cmd : Command) (s : LveMem) : Res LveMem :=
  if ¬ st.approved then fileErrorHeap w st.toolErrMsg s
  else
    let size := (st.pathSize + cmd.length + 2) % sizeMod
    if ¬ w.malloc size then fileErrorHeap w (some b!"Couldn't allocate memory") s
    else
      match st.libpath, cmd.data with
      | some lib, some buf => do
        let (filePath, s) := s.alloc size
        let rel ← readCStr buf.cells
        let path := snprintf size (cstr lib ++ b!"/" ++ rel)
        let (fileBuffer, err, s) ← readFileHeap w path s
        match readFile w path with
        | .failed e => do
          let msg ← errorMessage e
          let s ← s.free fileBuffer
          let s ← s.free (some filePath)
          let s ← fileErrorHeap w msg s
          s.freeErr err
        | .contents content =>
          if isEncryptedName rel then
            if ¬ w.malloc (content.length + 1) then
              let s := if w.malloc (100 + size) then (s.alloc (100 + size)).2 else s
              do
              let s ← s.free fileBuffer
              let s ← s.free (some filePath)
              let s ← fileErrorHeap w (if w.malloc (100 + size) then
                  some (b!"Could not allocate memory to decrypt file " ++ path ++ b!".") else none) s
              s.freeErr err
            else do
              let (fileOut, s) := s.alloc (content.length + 1)
              let s ← lveDecryptHeap conf w st rel content s
              let (_, n, _) ← lveDecrypt conf w st rel content
              if n < 0 then
                let (msg, s) := if w.malloc (100 + size) then
                    let (p, s) := s.alloc (100 + size)
                    (some p, s)
                  else (none, s)
                do
                let s ← s.free fileBuffer
                let s ← s.free (some fileOut)
                let s ← s.free (some filePath)
                let s ← fileErrorHeap w (if w.malloc (100 + size) then
                    some (b!"Failed to decrypt file " ++ path ++ b!", might be corrupted.") else none) s
                let s ← s.freeErr err
                s.free msg
              else do
                let s ← sendLengthHeap w n.toNat s
                let s ← s.free fileBuffer
                let s ← s.free (some fileOut)
                let s ← s.free (some filePath)
                s.freeErr err
          else do
            let s ← sendLengthHeap w content.length s
            let s ← s.free fileBuffer
            let s ← s.free (some filePath)
            s.freeErr err
      | _, _ => .ub .nullDeref

/-- The error object of a call of the license manager. -/
def answerHeap (a : LicAnswer) (s : LveMem) : Option (Nat × Option Nat) × LveMem :=
  match a with
  | .failure (some m) => s.managerErr m.length
  | _ => (none, s)

/-- `mlle_lve_setup_licensing_check_error`, mlle_lve_feature.c:39-52. -/
def setupHeap (conf : LveConf) (w : World) (st : LveSt) (s : LveMem) : Res LveMem :=
  let a := (setupLicensing conf st).2
  let (err, s) := answerHeap a s
  match a with
  | .success => .ok s
  | .failure none => .ub .nullDeref
  | .failure (some m) => do
    let s ← sendErrorHeap w m s
    s.freeErr err

/-- `mlle_lve_feature`, mlle_lve_feature.c:54-82, with a connection. -/
def lveFeatureHeap (conf : LveConf) (w : World) (st : LveSt) (cmd : Command) (s : LveMem) : Res LveMem := do
  let s ← setupHeap conf w st s
  let (st, _, ok) ← setupLicensingCheckError conf w false st
  if ¬ ok then .ok s
  else do
    let f ← featureArg cmd
    let a := (callManager conf st (.checkout f)).2
    let (err, s) := answerHeap a s
    match a with
    | .success => .ok s
    | .failure none => .ub .nullDeref
    | .failure (some m) => do
      let s ← sendLengthHeap w (cstr m).length s
      s.freeErr err

/-- `mlle_lve_returnfeature`, mlle_lve_feature.c:84-106. -/
def lveReturnFeatureHeap (conf : LveConf) (w : World) (st : LveSt) (cmd : Command) (s : LveMem) : Res LveMem := do
  let s ← setupHeap conf w st s
  let (st, _, ok) ← setupLicensingCheckError conf w false st
  if ¬ ok then .ok s
  else do
    let f ← featureArg cmd
    let a := (callManager conf st (.checkin f)).2
    let (err, s) := answerHeap a s
    match a with
    | .success => .ok s
    | .failure none => .ub .nullDeref
    | .failure (some m) => do
      let s ← sendErrorHeap w m s
      s.freeErr err

/-- `mlle_lve_libpath`, mlle_lve_libpath.c:56-129, with a connection.  The pointers are overwritten without a look at
what they point to. -/
def lveLibpathHeap (conf : LveConf) (w : World) (st : LveSt) (cmd : Command) (s : LveMem) : Res LveMem :=
  match cmd.data with
  | none => .ok { s with text := none }
  | some buf =>
    if cmd.length = 0 then .ok { s with text := none }
    else if ¬ w.malloc ((cmd.length + 1) % sizeMod) then .ub .nullDeref
    else do
      let (p, s) := s.alloc ((cmd.length + 1) % sizeMod)
      let data ← readCells buf.cells cmd.length
      let path := trimLoop data data.length
      let s := { s with libpath := some p }
      if ¬ w.malloc (crContextSize + (cstr path).length) then
        .ok { s with context := none, masks := [], text := none }
      else
        let (c, s) := s.alloc (crContextSize + (cstr path).length)
        let s := { s with context := some c, masks := [] }
        let (st, a) := globalLicense conf { st with libpath := some path, pathSize := path.length, cr := some [] }
        let (err, s) := answerHeap a s
        match a with
        | .failure none => .ub .nullDeref
        | .failure (some m) =>
          if ¬ w.malloc ((cstr m).length + 1) then .ub .nullDeref
          else do
            let (q, s) := s.alloc ((cstr m).length + 1)
            let s ← sendErrorHeap w m { s with text := some q }
            s.freeErr err
        | .success => .ok (if (validateDirectory w st).2 then s else { s with text := none })

/-- The switch of `mlle_lve_handle_command`, mlle_lve.c:88-140. -/
def dispatchHeap (conf : LveConf) (w : World) (st : LveSt) (cmd : Command) (s : LveMem) : Res LveMem :=
  match st.proto with
  | .version =>
    if cmd.number < 1 then sendErrorHeap w (snprintf lveErrorSize b!"Minimum supported protocol version is 1") s
    else .ok s
  | .tools => if cmd.id = .tools then .ok s else lveLibpathHeap conf w st cmd s
  | .lib => lveLibpathHeap conf w st cmd s
  | .license =>
    if cmd.id = .feature then lveFeatureHeap conf w st cmd s
    else if cmd.id = .returnFeature then lveReturnFeatureHeap conf w st cmd s
    else if cmd.id = .license ∨ cmd.id = .returnLicense then .ok s
    else lveFileHeap conf w st cmd s

/-- `mlle_lve_handle_command`, mlle_lve.c:59-150. -/
def handleHeap (conf : LveConf) (w : World) (st : LveSt) (cmd : Command) (msg : Bytes) (s : LveMem) : Res LveMem := do
  let (next, errMsg) ← nextState lveErrorSize st.proto cmd.id st.errMsg
  match next with
  | none => sendErrorHeap w errMsg s
  | some _ => do
    let (cmd, _) ← if cmd.id.form = .length then extractData w.malloc cmd msg else Res.ok (cmd, 0)
    let (data, s) := if cmd.data = none then (none, s) else
      let (d, s) := s.alloc ((cmd.length + 1) % sizeMod)
      (some d, s)
    let s ← dispatchHeap conf w st cmd s
    s.free data

/-- One round of the loop of `mlle_lve_receive`, mlle_lve.c:191-217. -/
def lveStepHeap (conf : LveConf) (w : World) (st : LveSt) (msg : Bytes) (s : LveMem) : Res LveMem :=
  if ¬ w.malloc (msg.length + 1) then .ub .nullDeref
  else do
    let (token, s) := s.alloc (msg.length + 1)
    let (g, cmd, errMsg) ← parseCommand lveErrorSize msg st.errMsg
    let s ← s.free (some token)
    let st := { st with errMsg := errMsg }
    if g = .valid then handleHeap conf w st cmd msg s
    else sendErrorHeap w (if g = .unknownError then b!"Internal error in parsing." else errMsg) s

/-- `mlle_lve_receive`, mlle_lve.c:176-237. -/
def lveReceiveHeap (conf : LveConf) : LveSt → List (World × Bool) → Conn → LveMem → Res LveMem
  | _, [], _, s => .ok s
  | st, (w, stop) :: rest, c, s => do
    let (buffer, h) ← sslReadHeap w.malloc c s.heap
    let s := { s with heap := h }
    let (r, c) ← sslReadMessage w.malloc c
    match r with
    | .blocked => .ok s
    | .failed _ _ => .ok s
    | .message cells n _ => do
      let msg ← readCells cells n
      let s ← lveStepHeap conf w st msg s
      let s ← s.free buffer
      let (st, _) ← lveStep conf w st msg
      if stop then .ok s
      else lveReceiveHeap conf st rest c s

/-- `mlle_lve_shutdown`, mlle_lve.c:247-263: of all that the context points to, only `libpath` is freed. -/
def lveShutdownHeap (s : LveMem) : Res LveMem := s.free s.libpath

end Semla
