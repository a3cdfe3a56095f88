import Verif.Model.Pack
import Verif.Spec.Pack
import Verif.Spec.Crypt
import Verif.Spec.Manifest

/-!
# Libraries and archives

Vocabulary for the properties of the packaging tool: directory trees as flat lists of paths.
-/

namespace Semla.Spec

open Semla

/-- Kinds of directory entries. -/
inductive Kind where
  | file
  | dir
  | locked
  | other
  deriving DecidableEq, Repr

/-- All entries of a directory tree, with their paths from the top. -/
def entries : Listing → List (List Bytes × Kind)
  | .done => []
  | .file n rest => ([n], .file) :: entries rest
  | .dir n sub rest => ([n], .dir) :: ((entries sub).map fun e => (n :: e.1, e.2)) ++ entries rest
  | .locked n rest => ([n], .locked) :: entries rest
  | .other n rest => ([n], .other) :: entries rest

/-- No path twice. -/
def NoRepeats (l : Listing) : Prop := ((entries l).map (·.1)).Nodup

instance (l : Listing) : Decidable (NoRepeats l) := inferInstanceAs (Decidable (List.Nodup _))

/-- The name ends with `.mo` in any letter case. -/
def ModelicaName (n : Bytes) : Prop := ∃ a b, n = a ++ b ∧ eqNoCase b b!".mo" = true

/-- The last name of a path. -/
def nameOf (p : List Bytes) : Bytes := p.getLastD []

/-- Not in a directory `.library`. -/
def Outside (p : List Bytes) : Prop := b!".library" ∉ p

instance (p : List Bytes) : Decidable (Outside p) := inferInstanceAs (Decidable (_ ∉ _))

/-- Kind of an entry of the staging directory. -/
def kindOf : Node → Kind
  | .dir => .dir
  | .file _ => .file

/-- The listing of the directory `base` of the staging directory: every entry below it and no other. -/
def Shows (l : Listing) (base : List Bytes) (fs : Staged) : Prop :=
  NoRepeats l ∧ (∀ e ∈ entries l, (fs.get (base ++ e.1)).map kindOf = some e.2) ∧
    ∀ q ∈ fs.map (·.1), base <+: q → q ≠ base → q.drop base.length ∈ (entries l).map (·.1)

instance (l : Listing) (base : List Bytes) (fs : Staged) : Decidable (Shows l base fs) :=
  inferInstanceAs (Decidable (_ ∧ _ ∧ _))

/-- The same while encrypted files are being added: these may be listed or not. -/
def ShowsOld (l : Listing) (base : List Bytes) (fs : Staged) : Prop :=
  NoRepeats l ∧
    (∀ e ∈ entries l, (fs.get (base ++ e.1)).map kindOf = some e.2 ∨
      (e.2 = .file ∧ ¬ ModelicaName (nameOf e.1))) ∧
    ∀ q ∈ fs.map (·.1), base <+: q → q ≠ base → ∃ k, (q.drop base.length, k) ∈ entries l ∧
      (fs.get q).map kindOf = some k

/-- Name of the directory a path leads to: the last name, disregarding separators at the end. -/
def LibraryName (path lib : Bytes) : Prop :=
  ∃ a s, path = a ++ lib ++ s ∧ (∀ c ∈ s, c = 47 ∨ c = 92) ∧ lib ≠ [] ∧ 47 ∉ lib ∧
    lib.getLast? ≠ some 92 ∧ (a = [] ∨ a.getLast? = some 47)

/-- A library of regular files and directories, all of which can be copied; `content` is what the files
contain. -/
structure Copyable (s : Source) (l : Listing) (content : List Bytes → Bytes) : Prop where
  nodup : NoRepeats l
  kinds : ∀ e ∈ entries l, e.2 = .file ∨ e.2 = .dir
  copied : ∀ p, (p, Kind.file) ∈ entries l → Outside p → s.copied p = some (content p)
  made : ∀ p, (p, Kind.dir) ∈ entries l → Outside p → s.mkdirOk p = true

/-- Listings of directories in the staging directory show what is there. -/
structure Truthful (env : PackEnv) (lib : Bytes) : Prop where
  icon : ∀ fs l, env.iconWalk fs = some l → Shows l [lib] fs
  encrypt : ∀ fs l, env.encryptWalk fs = some l → ShowsOld l [lib] fs
  zip : ∀ fs l, env.zipWalk fs = some l → Shows l [] fs

/-- Path of the encrypted twin of a file. -/
def twin (p : List Bytes) : List Bytes := p.dropLast ++ [nameOf p ++ b!"c"]

end Semla.Spec

namespace Semla.Spec

open Semla

/-- The arguments ask for encryption. -/
def AsksEncryption (ps : List (Bytes × Bytes)) : Prop :=
  ∃ v, (b!"encrypt", v) ∈ ps ∧ eqNoCase v b!"true" = true

/-- Nothing but `package.mo` itself is called like it. -/
def PlainPackages (l : Listing) : Prop :=
  ∀ e ∈ entries l, eqNoCase (nameOf e.1) b!"package.mo" = true → nameOf e.1 = b!"package.mo" ∧ e.2 = .file

/-- No file lies where the encrypted twin of another one goes. -/
def NoClash (l : Listing) : Prop :=
  ∀ p q, (p, Kind.file) ∈ entries l → ModelicaName (nameOf p) → (q, Kind.file) ∈ entries l → q ≠ twin p

/-- The primitives, the key and the random draws of the encryption have the sizes required. -/
structure GoodCrypto (env : PackEnv) : Prop where
  crypto : env.C.Good
  key : env.key.length = 32
  keyLen : env.keyLen ≤ 32
  iv : ∀ p, (env.iv p).length = 16
  mask : ∀ p, (env.mask p).length = env.keyLen

/-- The directory of extra files has no Modelica files. -/
def PlainExtras (env : PackEnv) : Prop :=
  ∀ l, env.extra = some (some l) → ∀ e ∈ entries l, ¬ ModelicaName (nameOf e.1)

/-- No extra file or directory has the name of something that the tool puts into `.library`: the manifest,
and, if the library is encrypted, the vendor executables. -/
def NoReserved (env : PackEnv) (enc : Prop) (x : Listing) : Prop :=
  ∀ p ∈ (entries x).map (·.1), p ≠ [b!"manifest.xml"] ∧
    (enc → ∀ v ∈ vendorExecutables, env.lve v.1 = true → p ≠ [v.1])

/-- The Modelica files of a library. -/
def IsSource (l : Listing) (p : List Bytes) : Prop :=
  (p, Kind.file) ∈ entries l ∧ Outside p ∧ ModelicaName (nameOf p)

/-- Every directory on the way to a Modelica file has a package file, which is not empty. -/
def PackagesEverywhere (l : Listing) (content : List Bytes → Bytes) : Prop :=
  ∀ p, IsSource l p → ∀ ds, ds <+: p.dropLast → (ds ++ [b!"package.mo"], Kind.file) ∈ entries l ∧
    content (ds ++ [b!"package.mo"]) ≠ []

/-- Names are names, and no directory is called like an encrypted package file. -/
def NamesOk (l : Listing) : Prop :=
  ∀ e ∈ entries l, (∀ n ∈ e.1, IsName n) ∧ (e.2 = .dir → eqNoCase b!"package.moc" (nameOf e.1) = false)

/-- The archive has been unpacked: the file system read through `read` has the files of directory `lib` of
the archive below `basedir`. -/
def Unpacked (a : Archive) (lib basedir : Bytes) (read : Bytes → Option Bytes) : Prop :=
  ∀ p out, (lib :: p, out) ∈ a → read (basedir ++ b!"/" ++ relPath p) = some out

/-- The value given for an argument. -/
def argOf (ps : List (Bytes × Bytes)) (k : Bytes) : Option Bytes := (ps.find? (·.1 = k)).map (·.2)

/-- A name that the temporary directory can have. -/
def TempName (t : Bytes) : Prop := ∃ x, x.length = 6 ∧ (47 : UInt8) ∉ x ∧ t = b!"/tmp/TemporaryFolder" ++ x

/-- The last name in a path. -/
def LastName (path n : Bytes) : Prop := ∃ a, path = a ++ n ∧ (47 : UInt8) ∉ n ∧ (a = [] ∨ a.getLast? = some 47)

/-- A path without the separators at its end (of which at least one byte is left). -/
def Trimmed (path t : Bytes) : Prop :=
  ∃ s, path = t ++ s ∧ (∀ c ∈ s, c = 47 ∨ c = 92) ∧ t ≠ [] ∧
    (t.length = 1 ∨ (t.getLast? ≠ some 47 ∧ t.getLast? ≠ some 92))

/-- The command line can be worked with: it consists of known arguments given at most once, with library
path, version and language among them; the library is a directory; there is a vendor executable if the
library is to be encrypted; files named exist. -/
def Acceptable (env : PackEnv) (args : List Bytes) : Prop :=
  ∃ ps, ArgPairs args ps ∧ DistinctNames ps ∧
    (∀ k ∈ [b!"librarypath", b!"version", b!"language"], ∃ v, (k, v) ∈ ps) ∧
    (∀ path t, (b!"librarypath", path) ∈ ps → Trimmed path t → env.isDir t = true) ∧
    (AsksEncryption ps → env.exeDir = true ∧ ∃ x ∈ vendorExecutables, env.lve x.1 = true) ∧
    ∀ k ∈ [b!"tools", b!"dependencies", b!"icon"], ∀ v, (k, v) ∈ ps → env.fileExists v = true

/-- Things that go wrong when a library is packaged, with the number of the step. -/
inductive Trouble (env : PackEnv) (ps : List (Bytes × Bytes)) (lib : Bytes) (l : Listing) : Nat → Prop where
  /-- copying the library -/
  | name : lib = b!"." ∨ lib = b!".." → Trouble env ps lib l 2
  | stage : env.mkdirOk [lib] = false → Trouble env ps lib l 2
  | source : env.library = none → Trouble env ps lib l 2
  /-- making `.library` -/
  | folder : env.mkdirOk [lib, b!".library"] = false → Trouble env ps lib l 3
  /-- finding the icon (it has to be at the top level, see C45), in a path `v` whose last name is `n` -/
  | icon {v n : Bytes} : (b!"icon", v) ∈ ps → LastName v n → ¬ (([n], Kind.file) ∈ entries l ∧ Outside [n]) →
      Trouble env ps lib l 4
  | iconWalk {v : Bytes} : (b!"icon", v) ∈ ps → (∀ fs, env.iconWalk fs = none) → Trouble env ps lib l 4
  /-- copying vendor executables -/
  | vendor {x : Bytes × Bytes} : AsksEncryption ps → x ∈ vendorExecutables → env.lve x.1 = true →
      (∀ c, env.lveCopied x.1 ≠ (some c, true)) → Trouble env ps lib l 5
  /-- copying extra files -/
  | exe : env.exeDir = false → Trouble env ps lib l 6
  | extra : env.extra = some none → Trouble env ps lib l 6
  /-- encryption -/
  | encrypt {p : List Bytes} : AsksEncryption ps → IsSource l p → env.readError (lib :: p) = true →
      Trouble env ps lib l 8
  | encryptWalk : AsksEncryption ps → (∀ fs, env.encryptWalk fs = none) → Trouble env ps lib l 8
  | write {p : List Bytes} : AsksEncryption ps → IsSource l p → env.writeOk p 0 = false →
      Trouble env ps lib l 8
  /-- making the archive -/
  | zip : env.zipOpens = false → Trouble env ps lib l 9
  | zipWalk : (∀ fs, env.zipWalk fs = none) → Trouble env ps lib l 9
  | add {p : List Bytes} : (p, Kind.file) ∈ entries l → Outside p →
      ¬ (AsksEncryption ps ∧ ModelicaName (nameOf p)) → env.zipAdds (lib :: p) = false → Trouble env ps lib l 9
  | addTwin {p : List Bytes} : IsSource l p → AsksEncryption ps → env.zipAdds (lib :: twin p) = false →
      Trouble env ps lib l 9

/-- Nothing stands in the way of encrypting a library: the directory of extra files has no Modelica files,
names are names, and paths are not too long. -/
structure Encryptable (env : PackEnv) (l : Listing) : Prop where
  extras : PlainExtras env
  names : ∀ p, IsSource l p → ∀ n ∈ p, IsName n
  short : ∀ p, IsSource l p → (relPath p.dropLast).length < 4096

/-- A staging directory as it can be on a disk, with a directory `lib` as its only top-level entry. -/
structure StagingTree (lib : Bytes) (fs : Staged) : Prop where
  top : fs.get [] = some .dir
  library : fs.get [lib] = some .dir
  above : ∀ p n, p ++ [n] ∈ fs.map (·.1) → fs.get p = some .dir
  only : ∀ p ∈ fs.map (·.1), p = [] ∨ [lib] <+: p

/-- Further reasons for a step to fail: the staging directory cannot be listed, the library has names that
do not go with encryption, or files cannot be written or added to the archive. -/
inductive StagingTrouble (env : PackEnv) (ps : List (Bytes × Bytes)) (lib : Bytes) (l : Listing) :
    Nat → Prop where
  | icon {fs : Staged} {v : Bytes} : (b!"icon", v) ∈ ps → StagingTree lib fs → env.iconWalk fs = none →
      StagingTrouble env ps lib l 4
  | encryptWalk {fs : Staged} : AsksEncryption ps → StagingTree lib fs → env.encryptWalk fs = none →
      StagingTrouble env ps lib l 8
  | encryptWrite {p : List Bytes} {n : Nat} : AsksEncryption ps → IsSource l p → env.writeOk p n = false →
      StagingTrouble env ps lib l 8
  | encryptNames : AsksEncryption ps → ¬ Encryptable env l → StagingTrouble env ps lib l 8
  | zip {fs : Staged} : StagingTree lib fs → env.zipWalk fs = none → StagingTrouble env ps lib l 9
  | add {p : List Bytes} : env.zipAdds (lib :: p) = false → StagingTrouble env ps lib l 9

end Semla.Spec
