import Verif.Model.Crypt

/-! # Specification vocabulary for encrypted files

The layout of an encrypted file, written down block by block and without any notion of streaming.
-/

namespace Semla.Spec

open Semla

/-- Cipher block chaining: each plaintext block is combined with the previous ciphertext block. -/
def cbc (E : Bytes → Bytes) : Bytes → List Bytes → List Bytes
  | _, [] => []
  | prev, b :: bs =>
    let c := E (List.zipWith (· ^^^ ·) b prev)
    c :: cbc E c bs

/-- `out` is an encryption of `payload`: IV, CBC of the PKCS#7-padded payload, MAC of IV and
payload. -/
def Encrypted (C : Crypto) (key macKey iv payload out : Bytes) : Prop :=
  ∃ blocks pad, 1 ≤ pad ∧ pad ≤ 16 ∧ (∀ b ∈ blocks, b.length = 16) ∧
    blocks.flatten = payload ++ List.replicate pad (UInt8.ofNat pad) ∧
    out = iv ++ (cbc (C.enc key) iv blocks).flatten ++ C.mac macKey (iv ++ payload)

/-- A context as the build produces it: good primitives, a 32-byte key array of which at most
32 bytes are declared. -/
structure GoodEnv (e : CrEnv) : Prop where
  crypto : e.C.Good
  key : e.key.length = 32
  keyLen : e.keyLen ≤ 32

end Semla.Spec

namespace Semla.Spec

open Semla

/-! ## Libraries -/

/-- A name in a library: not empty, without separators and NUL bytes. -/
def IsName (n : Bytes) : Prop := n ≠ [] ∧ ∀ c ∈ n, c ≠ 47 ∧ c ≠ 92 ∧ c ≠ 0

/-- Path of the entry reached through these names, relative to the library. -/
def relPath : List Bytes → Bytes
  | [] => []
  | [n] => n
  | n :: m :: ns => n ++ b!"/" ++ relPath (m :: ns)

/-- One file to encrypt: directories, name and contents, with the random draws of the call: the
initialisation vector and, for a `package.mo`, the mask of its directory. -/
structure Job where
  dirs : List Bytes
  name : Bytes
  iv : Bytes
  mask : Bytes
  plain : Bytes
  deriving DecidableEq, Repr

/-- Is this the package file of its directory? -/
def Job.isPackage (j : Job) : Prop := j.name = b!"package.mo"

instance (j : Job) : Decidable j.isPackage := inferInstanceAs (Decidable (_ = _))

/-- Path of the source file, relative to the library. -/
def Job.path (j : Job) : Bytes := relPath (j.dirs ++ [j.name])

/-- The encryptor, called once per file in the order given and with one context.  The result lists
the encrypted files (name with `c` appended) unless one of the calls failed. -/
def encryptAll (e : CrEnv) : MaskTable → List Job → Res (Option (List (Bytes × Bytes)))
  | _, [] => .ok (some [])
  | t, j :: js => do
    let (t, out, ok) ← crEncrypt e t j.path j.iv (fun _ => j.mask) j.plain false (fun _ => true)
    if ok then do
      let r ← encryptAll e t js
      .ok (r.map ((j.path ++ b!"c", out) :: ·))
    else .ok none

/-- A sequence of decryption requests with one context: each one reads the file below the base
directory and decrypts it.  Gives the key cache afterwards and lists what each request delivers
(`none`: no file or an error). -/
def decryptAll (e : CrEnv) : MaskTable → List Bytes → Res (MaskTable × List (Option Bytes))
  | t, [] => .ok (t, [])
  | t, p :: ps =>
    match e.read (e.basedir ++ b!"/" ++ p) with
    | none => do
      let (t, r) ← decryptAll e t ps
      .ok (t, none :: r)
    | some content => do
      let (t, n, out) ← crDecrypt e t p content
      let (t, r) ← decryptAll e t ps
      .ok (t, (if n < 0 then none else some (out.take n.toNat)) :: r)

/-- The files of a library in an order of encryption in which every directory's `package.mo` comes
before everything else in and below the directory, and every directory on the way to a file has
one. -/
structure Packaged (keyLen : Nat) (jobs : List Job) : Prop where
  /-- names are names; `package.mo` is spelled in lower case; no directory is called like a package
  file -/
  names : ∀ j ∈ jobs, IsName j.name ∧ (eqNoCase b!"package.mo" j.name → j.name = b!"package.mo") ∧
    ∀ d ∈ j.dirs, IsName d ∧ ¬ eqNoCase b!"package.mo" d ∧ ¬ eqNoCase b!"package.moc" d
  /-- sizes of the random draws -/
  draws : ∀ j ∈ jobs, j.iv.length = 16 ∧ j.mask.length = keyLen
  /-- no file twice -/
  nodup : (jobs.map fun j => (j.dirs, j.name)).Nodup
  /-- package files first -/
  first : ∀ before j after, jobs = before ++ j :: after → ∀ ds, ds <+: j.dirs →
    ¬ (j.isPackage ∧ ds = j.dirs) → ∃ k ∈ before, k.dirs = ds ∧ k.isPackage

/-- The same without an order: the files of a library in which every directory on the way to a file has
a package file. -/
structure Complete (keyLen : Nat) (jobs : List Job) : Prop where
  names : ∀ j ∈ jobs, IsName j.name ∧ (eqNoCase b!"package.mo" j.name → j.name = b!"package.mo") ∧
    ∀ d ∈ j.dirs, IsName d ∧ ¬ eqNoCase b!"package.mo" d ∧ ¬ eqNoCase b!"package.moc" d
  draws : ∀ j ∈ jobs, j.iv.length = 16 ∧ j.mask.length = keyLen
  nodup : (jobs.map fun j => (j.dirs, j.name)).Nodup
  closed : ∀ j ∈ jobs, ∀ ds, ds <+: j.dirs → ∃ k ∈ jobs, k.dirs = ds ∧ k.isPackage

/-- Sizes are in range: each directory's package file has a full path that fits the buffers, and
contents can be counted by an `int`. -/
def SizesOk (e : CrEnv) (jobs : List Job) : Prop :=
  ∀ j ∈ jobs, e.basedir.length + 1 + (relPath (j.dirs ++ [b!"package.moc"])).length < 4096 ∧
    j.plain.length + 96 < 2 ^ 31

end Semla.Spec

namespace Semla.Spec

open Semla

/-- `m` is the mask in force in directory `ds`: the one drawn for the nearest directory on the way
down (including `ds`) that has a package file, or zeros if there is none. -/
def MaskInForce (keyLen : Nat) (jobs : List Job) (ds : List Bytes) (m : Bytes) : Prop :=
  (∃ k ∈ jobs, k.isPackage ∧ k.dirs <+: ds ∧ k.mask = m ∧
    ∀ k' ∈ jobs, k'.isPackage → k'.dirs <+: ds → k'.dirs.length ≤ k.dirs.length) ∨
  ((∀ k ∈ jobs, k.isPackage → ¬ k.dirs <+: ds) ∧ m = List.replicate keyLen 0)

/-- The files of a library in an order in which a `package.mo`, where there is one, comes before
everything else in and below its directory. -/
structure PackagesFirst (keyLen : Nat) (jobs : List Job) : Prop where
  names : ∀ j ∈ jobs, IsName j.name ∧ (eqNoCase b!"package.mo" j.name → j.name = b!"package.mo") ∧
    ∀ d ∈ j.dirs, IsName d ∧ ¬ eqNoCase b!"package.mo" d
  draws : ∀ j ∈ jobs, j.iv.length = 16 ∧ j.mask.length = keyLen
  nodup : (jobs.map fun j => (j.dirs, j.name)).Nodup
  first : ∀ before j after, jobs = before ++ j :: after → ∀ k ∈ jobs, k.isPackage →
    k.dirs <+: j.dirs → k ≠ j → k ∈ before

/-- The key of a file: the vendor key masked with the mask in force in its directory; for a package
file the mask in force in the parent directory, and for the top-level one no mask. -/
def KeyOf (e : CrEnv) (jobs : List Job) (j : Job) (key : Bytes) : Prop :=
  if j.isPackage then
    if j.dirs = [] then key = e.key
    else ∃ m, MaskInForce e.keyLen jobs j.dirs.dropLast m ∧ key = e.mask e.key m
  else ∃ m, MaskInForce e.keyLen jobs j.dirs m ∧ key = e.mask e.key m

/-- The encrypted files of the library `jobs` are found below the base directory. -/
def LibraryAt (e : CrEnv) (jobs : List Job) : Prop :=
  ∀ j ∈ jobs, ∃ content key, e.read (e.basedir ++ b!"/" ++ (j.path ++ b!"c")) = some content ∧
    KeyOf e jobs j key ∧
    Encrypted e.C key (key.take e.keyLen) j.iv (j.plain ++ if j.isPackage then j.mask else []) content

/-- The library with one file added, or replaced if it was there. -/
def withFile (jobs : List Job) (j : Job) : List Job :=
  jobs.filter (fun k => ¬ (k.dirs = j.dirs ∧ k.name = j.name)) ++ [j]

/-- Where a file may be added: beside an existing package file, or as the package file of a new
directory below an existing one. -/
def Addable (jobs : List Job) (j : Job) : Prop :=
  if j.isPackage then
    (∀ k ∈ jobs, k.isPackage → k.dirs ≠ j.dirs) ∧
      (j.dirs ≠ [] → ∃ k ∈ jobs, k.isPackage ∧ k.dirs = j.dirs.dropLast)
  else ∃ k ∈ jobs, k.isPackage ∧ k.dirs = j.dirs

/-! ## Histories of encryption calls -/

/-- `t'` is the table of an encryption context after any sequence of calls of the encryptor, whatever
their arguments and outcomes, starting with table `t`. -/
inductive EncHistory (e : CrEnv) : MaskTable → MaskTable → Prop where
  | nil (t) : EncHistory e t t
  | call {t t1 t2 : MaskTable} {p iv : Bytes} {rand : Bytes → Bytes} {inp : Bytes} {bad : Bool}
      {wOk : Nat → Bool} {out : Bytes} {ok : Bool}
      (h : crEncrypt e t p iv rand inp bad wOk = .ok (t1, out, ok))
      (rest : EncHistory e t1 t2) : EncHistory e t t2

/-- What the cipher delivers for an input that arrives in the given portions. -/
def feed (C : Crypto) (key : Bytes) : EncCtx → List Bytes → Bytes
  | ctx, [] => encFinal C key ctx
  | ctx, c :: cs => (encUpdate C key ctx c).1 ++ feed C key (encUpdate C key ctx c).2 cs

end Semla.Spec
