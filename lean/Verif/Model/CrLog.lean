import Verif.Model.Lve

/-!
# The debug log

Models what `mlle_cr_decrypt.c` and `mlle_cr_encrypt.c` write to `mlle_log` (`src/common/mlle_io.c:41-56`).
The vendor executable opens it if the environment variable `SEMLA_LVE_LOG_FILE` is set (`src/lve/lve.c:285`);
`encrypt_file`, `decrypt_file` and `packagetool` always write it to `stderr`.

The log functions run along the functions of `Model/Crypt` and `Model/Lve`, whose results they use.  `debug`
tells whether `DEBUG` or `_DEBUG` was defined at build time (mlle_cr_decrypt.c:47-67).  One element of the
list is one `fprintf`; failures to write are left out, and so is the first line with the time of opening.
-/

namespace Semla

/-- One digit of `%02X`. -/
def upperHex (n : UInt8) : UInt8 := if n < 10 then 48 + n else 55 + n

/-- `%02X`. -/
def upperHexByte (b : UInt8) : Bytes := [upperHex (b / 16), upperHex (b % 16)]

/-- `mlle_debug_log_key`, mlle_cr_decrypt.c:47-67: nothing in release builds. -/
def logKey (debug : Bool) (keyLen : Nat) (key : Bytes) : List Bytes :=
  if debug then [b!"key: " ++ (List.intersperse b!":" ((key.take keyLen).map upperHexByte)).flatten ++ b!"\n"] else []

/-- One message about `p`, followed by what `mlle_debug_log_key` writes. -/
def logAbout (debug : Bool) (keyLen : Nat) (before p after key : Bytes) : List Bytes :=
  (before ++ p ++ after) :: logKey debug keyLen key

/-- What `mlle_cr_decrypt` logs after `mlle_demask_key`: the message of `mlle_store_keymask`,
mlle_cr_decrypt.c:221-224, if a mask is stored. -/
def tailLog (debug : Bool) (e : CrEnv) (t : MaskTable) (p key : Bytes) (flag : Int) (content : Bytes) : List Bytes :=
  match decryptTail e t p key flag content with
  | .ub _ => []
  | .ok (t', n, out) =>
    if t'.length = t.length then []
    else logAbout debug e.keyLen b!"mlle_store_keymask: stored key_mask for " p b!" \n" (out.drop n.toNat)

/-- What `mlle_demask_key` logs, mlle_cr_decrypt.c:85-88, 135-138, 164-167, with what it calls. -/
def demaskLog (debug : Bool) (e : CrEnv) : Nat → MaskTable → Bytes → Bytes → List Bytes
  | 0, _, _, _ => []
  | fuel + 1, t, p, key =>
    let ls := lastSlash p
    logAbout debug e.keyLen b!"mlle_demask_key: " p b!"\n" key ++
    (if eqNoCase b!"package.moc" (fileName p) then
      if ls = 0 then [] else demaskLog debug e fuel t (p.take ls) key
    else
      match t.find (dirKey p) with
      | some m => logAbout debug e.keyLen b!"mlle_demask_key: applied mask for " p b!"\n" (e.mask key m)
      | none =>
        if longFileNameMax < ls + 13 then []
        else
          let q := if ls = 0 then b!"package.moc" else p.take ls ++ b!"/package.moc"
          match e.read (snprintf longFileNameMax (e.basedir ++ b!"/" ++ q)) with
          | none => demaskLog debug e fuel t q key
          | some content =>
            demaskLog debug e fuel t q e.key ++
            (match demaskKey e fuel t q e.key with
            | .ub _ => []
            | .ok (t, k, flag) =>
              tailLog debug e t q k flag content ++
              (match decryptTail e t q k flag content with
              | .ub _ => []
              | .ok (_, r, out) =>
                if 0 < r then
                  logAbout debug e.keyLen b!"mlle_demask_key: applied mask for " p b!"\n"
                    (e.mask key ((out.drop r.toNat).take e.keyLen))
                else [])))

/-- What `mlle_cr_decrypt` logs. -/
def crDecryptLog (debug : Bool) (e : CrEnv) (t : MaskTable) (p content : Bytes) : List Bytes :=
  demaskLog debug e (demaskFuel p) t p e.key ++
  (match demaskKey e (demaskFuel p) t p e.key with
  | .ub _ => []
  | .ok (t, key, flag) => tailLog debug e t p key flag content)

/-- What `mlle_mask_key` logs, mlle_cr_encrypt.c:90-93, 146-149, 173-176, 186-189.  Its error messages, which
go to `stderr`, are left out. -/
def maskLog (debug : Bool) (e : CrEnv) (rand : Bytes → Bytes) : Nat → MaskTable → Bytes → Bytes → List Bytes
  | 0, _, _, _ => []
  | fuel + 1, t, p, key =>
    let d := dirKey p
    logAbout debug e.keyLen b!"mlle_mask_key: got key for " p b!" \n" key ++
    (if eqNoCase b!"package.mo" (fileName p) then
      match t.find d with
      | some _ => []
      | none =>
        (if d.head? = some 47 then [] else maskLog debug e rand fuel t d key) ++
        (match ((if d.head? = some 47 then Res.ok ⟨t, key, 0, []⟩ else maskKey e rand fuel t d key) : Res MaskOut) with
        | .ub _ => []
        | .ok r =>
          if r.ret ≠ 0 then []
          else logAbout debug e.keyLen b!"mlle_mask_key: generated and stored mask for " d b!" \n" (rand d))
    else
      match t.find d with
      | some m => logAbout debug e.keyLen b!"mlle_mask_key: applied key mask for " p b!" \n" (e.mask key m)
      | none =>
        let zeros := List.replicate e.keyLen 0
        (if d.head? = some 47 then [] else maskLog debug e rand fuel t d zeros) ++
        (match ((if d.head? = some 47 then Res.ok ⟨t, zeros, 0, []⟩ else maskKey e rand fuel t d zeros) : Res MaskOut) with
        | .ub _ => []
        | .ok r =>
          if r.ret ≠ 0 then []
          else logAbout debug e.keyLen b!"mlle_mask_key: storing mask based on parent for " d b!" \n" r.key ++
            logAbout debug e.keyLen b!"mlle_mask_key: applied key mask for " p b!" \n" (e.mask key r.key)))

/-- What `mlle_cr_encrypt` logs, mlle_cr_encrypt.c:199-315: nothing if the initialisation vector cannot be
written. -/
def crEncryptLog (debug : Bool) (e : CrEnv) (t : MaskTable) (p : Bytes) (rand : Bytes → Bytes)
    (wOk : Nat → Bool) : List Bytes :=
  if ¬ wOk 0 then [] else maskLog debug e rand (p.length + 2) t p e.key

/-- What `mlle_lve_file` logs, mlle_lve_file.c:27-122. -/
def fileLog (debug : Bool) (conf : LveConf) (w : World) (st : LveSt) (cmd : Command) : List Bytes :=
  if ¬ st.approved then []
  else
    let size := (st.pathSize + cmd.length + 2) % sizeMod
    if ¬ w.malloc size then []
    else
      match st.libpath, cmd.data with
      | some lib, some buf =>
        match readCStr buf.cells with
        | .ub _ => []
        | .ok rel =>
          if size = 0 then []
          else
            match readFile w (snprintf size (cstr lib ++ b!"/" ++ rel)) with
            | .failed _ => []
            | .contents content =>
              if isEncryptedName rel then
                if ¬ w.malloc (content.length + 1) then []
                else
                  match st.cr with
                  | some t => crDecryptLog debug (crEnvOf conf w st) t rel content
                  | none => []
              else []
      | _, _ => []

/-- What `mlle_lve_handle_command` logs, mlle_lve.c:59-150: only FILE does. -/
def commandLog (debug : Bool) (conf : LveConf) (w : World) (st : LveSt) (cmd : Command) (msg : Bytes) : List Bytes :=
  match nextState lveErrorSize st.proto cmd.id st.errMsg with
  | .ok (some _, _) =>
    match (if cmd.id.form = .length then extractData w.malloc cmd msg else Res.ok (cmd, 0)) with
    | .ok (cmd, _) => if st.proto = .license ∧ cmd.id = .file then fileLog debug conf w st cmd else []
    | .ub _ => []
  | _ => []

/-- What one round of `mlle_lve_receive` logs, mlle_lve.c:191-217. -/
def stepLog (debug : Bool) (conf : LveConf) (w : World) (st : LveSt) (msg : Bytes) : List Bytes :=
  if ¬ w.malloc (msg.length + 1) then []
  else
    match parseCommand lveErrorSize msg st.errMsg with
    | .ub _ => []
    | .ok (g, cmd, errMsg) => if g = .valid then commandLog debug conf w { st with errMsg := errMsg } cmd msg else []

/-- What a session logs. -/
def runLog (debug : Bool) (conf : LveConf) : LveSt → List (World × Bytes) → List Bytes
  | _, [] => []
  | st, (w, msg) :: rest =>
    stepLog debug conf w st msg ++
    (match lveStep conf w st msg with
    | .ub _ => []
    | .ok (st, _) => runLog debug conf st rest)

end Semla
