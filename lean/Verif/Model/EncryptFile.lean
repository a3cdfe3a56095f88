import Verif.Model.Crypt

/-!
# The single-file command line tools

Models `main` of `src/encrypt_decrypt/encrypt_file.c` and `src/encrypt_decrypt/decrypt_file.c`.

The file system is a partial map from path names to contents: one name per file (no links, no
`a//b`), `fopen(.., "rb")` succeeds exactly on files in the map, `fopen(.., "wb")` succeeds where
`writable` says so.  `strcpy` between overlapping parts of `encrypted` (encrypt_file.c:96, undefined
in ISO C) is taken to copy forwards.  Arguments contain no NUL bytes (they are C strings).
Messages on `stderr` and the OpenSSL set-up are not modelled.
-/

namespace Semla

/-- Contents of the files of the machine. -/
abbrev Files := Bytes → Option Bytes

/-- The files after writing, or with `none` removing, one of them. -/
def Files.set (fs : Files) (p : Bytes) (c : Option Bytes) : Files := fun q => if q = p then c else fs q

/-- What a run of one of the tools depends on besides its arguments: primitives and embedded key, where
files can be created, the random draws, whether reading the input ends in an error, which writes
succeed, and what the uninitialised key buffer contains. -/
structure FileToolEnv where
  C : Crypto
  key : Bytes
  keyLen : Nat
  writable : Bytes → Bool
  iv : Bytes
  rand : Bytes → Bytes
  bad : Bool
  wOk : Nat → Bool
  junk : Bytes

/-- `mlle_cr_create(dir)`: a context with an empty table. -/
def FileToolEnv.context (v : FileToolEnv) (fs : Files) (dir : Bytes) : CrEnv :=
  ⟨v.C, v.key, v.keyLen, dir, fs⟩

/-- Index at which `fname` ends up in encrypt_file.c:91-95: the position after the last separator
among the first `n` bytes, or 0. -/
def baseStart (s : Bytes) : Nat → Nat
  | 0 => 0
  | n + 1 => if isSep (s.getD n 0) then n + 1 else baseStart s n

/-- The part of encrypt_file.c `main` from line 99: `pathdest` is opened for writing, which truncates
it, then `input` is encrypted as `name` with context table `t`. -/
def encryptTo (v : FileToolEnv) (fs : Files) (e : CrEnv) (t : MaskTable) (inName pathdest name : Bytes)
    (content : Bytes) : Res (Nat × Files) :=
  if ¬ v.writable pathdest then .ok (2, fs)
  else do
    let content := if inName = pathdest then [] else content
    let (_, out, ok) ← crEncrypt e t name v.iv v.rand content v.bad v.wOk
    .ok (if ok then (0, fs.set pathdest (some out)) else (1, fs.set pathdest none))

/-- `main` of encrypt_file.c:40-130 on `argv[1..]`: exit status and files afterwards. -/
def encryptFileMain (v : FileToolEnv) (fs : Files) : List Bytes → Res (Nat × Files)
  | [inName, target, destdir] =>
    match fs inName with
    | none => .ok (1, fs)
    | some content =>
      if 4096 ≤ target.length then .ub .oobWrite
      else do
        let e := v.context fs destdir
        let pathdest := snprintf 4096 (destdir ++ b!"/" ++ target)
        let (t, _, _) ← demaskKey e (demaskFuel target) [] target v.junk
        if target = [] then .ub .oobWrite
        else encryptTo v fs e t inName pathdest target.dropLast content
  | [inName, target] =>
    match fs inName with
    | none => .ok (1, fs)
    | some content =>
      if 4096 ≤ target.length then .ub .oobWrite
      else if target = [] then .ub .oobRead
      else
        let s := if target.getLast? = some 99 then target.dropLast else target
        encryptTo v fs (v.context fs []) [] inName s (s.drop (baseStart s (target.length - 1))) content
  | _ => .ok (1, fs)

/-- `BUF_SIZE`, decrypt_file.c:38. -/
def decryptBufSize : Nat := 10 * 1024 * 1024

/-- `main` of decrypt_file.c:42-106 on `argv[1..]`.  Note the order: the output file is created, or
truncated, also if the input does not exist.  `fread` delivers at most 10 MB.  The context is created
before; reads of package files see the files as truncated.  The input buffer is longer than the
contents, so a short file is filled up with zeros. -/
def decryptFileMain (v : FileToolEnv) (fs : Files) : List Bytes → Res (Nat × Files)
  | dir :: rel :: outName :: _ =>
    let path := snprintf 4096 (dir ++ b!"/" ++ rel)
    match fs path with
    | none => .ok (1, if v.writable outName then fs.set outName none else fs)
    | some _ =>
      if ¬ v.writable outName then .ok (1, fs)
      else do
        let fs1 := fs.set outName (some [])
        let content := ((fs1 path).getD []).take decryptBufSize
        let e := v.context fs1 dir
        let (t, key, flag) ← demaskKey e (demaskFuel rel) [] rel v.key
        let (_, n, out) ← decryptTailStatic e t rel key flag content
        if 0 ≤ n ∧ (n = 0 ∨ v.wOk 0) then .ok (0, fs.set outName (some (out.take n.toNat)))
        else .ok (1, fs.set outName none)
  | _ => .ok (1, fs)
where
  /-- `mlle_cr_decrypt` on a static buffer: the IV of a short file continues with zero bytes. -/
  decryptTailStatic (e : CrEnv) (t : MaskTable) (p key : Bytes) (flag : Int) (content : Bytes) :
      Res (MaskTable × Int × Bytes) :=
    if content.length < 48 then .ok (t, -1, [])
    else decryptTail e t p key flag content

end Semla
