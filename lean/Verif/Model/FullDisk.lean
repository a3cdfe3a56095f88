import Verif.Model.EncryptFile

/-!
# The single-file tools on a disk that fills up, and without memory for the context

`encrypt_file.c` and `decrypt_file.c` write through a `FILE *`: `fwrite` hands bytes to the buffer of the C library,
which passes them on when it likes, and `fclose` passes on the rest.  The tools look at the results of `fwrite` but
not at that of `fclose` (encrypt_file.c:120, decrypt_file.c:95).  `Model/EncryptFile` has the results of `fwrite` as an
oracle that is independent of what is on the disk afterwards; here both follow from the room on the disk.

`mlle_cr_create` returns `NULL` if there is no memory (mlle_cr_decrypt.c:36); decrypt_file.c:60 prints a message and goes
on, encrypt_file.c:75 and 90 do not look.
-/

namespace Semla

/-- The disk below the output file, and the C library: how many bytes the disk takes, and how many of the bytes handed
over so far are still in the buffer when the `i`-th `fwrite` returns. -/
structure OutDisk where
  room : Nat
  kept : Nat → Nat

/-- Whether the `i`-th `fwrite` succeeds, if `n` bytes have been handed over with it: the disk takes what is not kept in
the buffer. -/
def OutDisk.takes (d : OutDisk) (i n : Nat) : Bool := n - d.kept i ≤ d.room

/-- A sequence of `fwrite`s starting with the `i`-th one, after `n` bytes; stops at the first failure.  The bytes handed
over, and success. -/
def diskWrites (d : OutDisk) : Nat → Nat → List Bytes → Bytes × Bool
  | _, _, [] => ([], true)
  | i, n, w :: ws =>
    if w = [] || d.takes i (n + w.length) then
      let r := diskWrites d (i + 1) (n + w.length) ws
      (w ++ r.1, r.2)
    else (w, false)

/-- What the file holds after `fclose`, if the bytes `o` were handed over. -/
def OutDisk.closed (d : OutDisk) (o : Bytes) : Bytes := o.take d.room

/-- `mlle_cr_encrypt`, mlle_cr_encrypt.c:199-315, as in `crEncrypt`, writing to such a disk; `ctx` tells whether there is
a context, which `mlle_mask_key` dereferences (mlle_cr_encrypt.c:84). -/
def crEncryptDisk (d : OutDisk) (ctx : Bool) (e : CrEnv) (t : MaskTable) (p iv : Bytes) (rand : Bytes → Bytes)
    (inp : Bytes) (bad : Bool) : Res (Bytes × Bool) :=
  if ¬ d.takes 0 iv.length then .ok (iv, false)
  else if ¬ ctx then .ub .nullDeref
  else do
    let m ← maskKey e rand (p.length + 2) t p e.key
    if m.ret < 0 then .ok (iv, false)
    else do
      let (ws, complete) ← encBody e m.key iv inp bad m.ret m.stored
      let (o, ok) := diskWrites d 1 iv.length ws
      .ok (iv ++ o, ok && complete)

/-- encrypt_file.c:99-130, as in `encryptTo`. -/
def encryptToDisk (v : FileToolEnv) (d : OutDisk) (ctx : Bool) (fs : Files) (e : CrEnv) (t : MaskTable)
    (inName pathdest name : Bytes) (content : Bytes) : Res (Nat × Files) :=
  if ¬ v.writable pathdest then .ok (2, fs)
  else do
    let content := if inName = pathdest then [] else content
    let (out, ok) ← crEncryptDisk d ctx e t name v.iv v.rand content v.bad
    .ok (if ok then (0, fs.set pathdest (some (d.closed out))) else (1, fs.set pathdest none))

/-- The part of `mlle_cr_decrypt` that looks for key masks, mlle_cr_decrypt.c:290-294; without a context, nothing is done. -/
def demaskWith (ctx : Bool) (e : CrEnv) (p key : Bytes) : Res (MaskTable × Bytes × Int) :=
  if ctx then demaskKey e (demaskFuel p) [] p key else .ok ([], key, 0)

/-- `main` of encrypt_file.c:40-130, as in `encryptFileMain`.  Without a context `mlle_cr_decrypt` does not look for key
masks (mlle_cr_decrypt.c:291). -/
def encryptFileDisk (v : FileToolEnv) (d : OutDisk) (ctx : Bool) (fs : Files) : List Bytes → Res (Nat × Files)
  | [inName, target, destdir] =>
    match fs inName with
    | none => .ok (1, fs)
    | some content =>
      if 4096 ≤ target.length then .ub .oobWrite
      else do
        let e := v.context fs destdir
        let pathdest := snprintf 4096 (destdir ++ b!"/" ++ target)
        let (t, _, _) ← demaskWith ctx e target v.junk
        if target = [] then .ub .oobWrite
        else encryptToDisk v d ctx fs e t inName pathdest target.dropLast content
  | [inName, target] =>
    match fs inName with
    | none => .ok (1, fs)
    | some content =>
      if 4096 ≤ target.length then .ub .oobWrite
      else if target = [] then .ub .oobRead
      else
        let s := if target.getLast? = some 99 then target.dropLast else target
        encryptToDisk v d ctx fs (v.context fs []) [] inName s (s.drop (baseStart s (target.length - 1))) content
  | _ => .ok (1, fs)

/-- `main` of decrypt_file.c:42-106, as in `decryptFileMain`.  Without a context `mlle_cr_decrypt` uses the embedded key
as it is, and does not take off a key mask (mlle_cr_decrypt.c:291, 325). -/
def decryptFileDisk (v : FileToolEnv) (d : OutDisk) (ctx : Bool) (fs : Files) : List Bytes → Res (Nat × Files)
  | dir :: rel :: outName :: _ =>
    let path := snprintf 4096 (dir ++ b!"/" ++ rel)
    match fs path with
    | none => .ok (1, if v.writable outName then fs.set outName none else fs)
    | some _ =>
      if ¬ v.writable outName then .ok (1, fs)
      else do
        let fs1 := fs.set outName (some [])
        let content := ((fs1 path).getD []).take decryptBufSize
        let e := v.context fs1 dir
        let (t, key, flag) ← demaskWith ctx e rel v.key
        let (_, n, out) ← decryptFileMain.decryptTailStatic e t rel key flag content
        let (o, ok) := diskWrites d 0 0 [out.take n.toNat]
        if 0 ≤ n ∧ ok then .ok (0, fs.set outName (some (d.closed o)))
        else .ok (1, fs.set outName none)
  | _ => .ok (1, fs)

end Semla
