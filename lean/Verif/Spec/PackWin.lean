import Verif.Model.PackWin
import Verif.Spec.PackTree

/-!
# Vocabulary for packaging on Windows
-/

namespace Semla.Spec

open Semla

/-- `/` for every `\`. -/
def withSlashes : Bytes → Bytes
  | [] => []
  | c :: s => (if c = 92 then 47 else c) :: withSlashes s

/-- A text with the line ends of Windows. -/
def crlf : Bytes → Bytes
  | [] => []
  | c :: s => if c = 10 then 13 :: 10 :: crlf s else c :: crlf s

/-- A text with the line ends of Windows made one with those of Linux. -/
def linuxLines : Bytes → Bytes
  | 13 :: 10 :: s => 10 :: linuxLines s
  | c :: s => c :: linuxLines s
  | [] => []

/-- A text file of Windows made one of Linux: it ends at the first 0x1A. -/
def linuxText (s : Bytes) : Bytes := linuxLines (s.takeWhile (· ≠ 26))

/-- Paths that differ in letter case at most. -/
def SameButCase (p q : List Bytes) : Prop := p.map (·.map toLower) = q.map (·.map toLower)

/-- The command line to be given on Linux: `/` for `\` in the paths of library and icon. -/
def slashArgs : List Bytes → List Bytes
  | k :: v :: rest =>
    k :: (if k.drop 1 = b!"librarypath" ∨ k.drop 1 = b!"icon" then withSlashes v else v) :: slashArgs rest
  | l => l

/-- The same files and directories, disregarding what the files contain. -/
def SameShape (fs fs' : Staged) : Prop :=
  (fs.map fun e => (e.1, kindOf e.2)) = fs'.map fun e => (e.1, kindOf e.2)

/-- A Linux machine with the same library, vendor executables, extra files, vendor key and random draws as
a Windows machine, on which the same calls work.  Directories are listed in the same order.  Text files are
those of the Windows machine with line ends for Linux. -/
structure SamePlace (w : PackWinEnv) (lin : PackEnv) : Prop where
  isDir : ∀ p, w.env.isDir p = true → lin.isDir (withSlashes p) = true
  fileExists : ∀ p, w.env.fileExists p = true → lin.fileExists p = true ∧ lin.fileExists (withSlashes p) = true
  readFile : ∀ p, lin.readFile p = (w.env.readFile p).map linuxText
  exeDir : lin.exeDir = w.env.exeDir
  lve : lin.lve = w.env.lve
  lveCopied : lin.lveCopied = w.env.lveCopied
  library : lin.library = w.env.library
  libraryFiles : ∀ p c, w.fetch p = .data c → lin.librarySource.copied p = some c
  libraryDirs : lin.librarySource.mkdirOk = w.env.librarySource.mkdirOk
  extra : lin.extra = w.env.extra
  extraFiles : ∀ p c, w.fetchExtra p = .data c → lin.extraSource.copied p = some c
  extraDirs : lin.extraSource.mkdirOk = w.env.extraSource.mkdirOk
  mkdirOk : lin.mkdirOk = w.env.mkdirOk
  temp : ∃ t, lin.tempDir = some t ∧ TempName t
  tmpVar : lin.tmpVar = none
  iconWalk : ∀ fs fs', SameShape fs fs' → lin.iconWalk fs' = w.env.iconWalk fs
  encryptWalk : ∀ fs fs', SameShape fs fs' → lin.encryptWalk fs' = w.env.encryptWalk fs
  zipWalk : ∀ fs fs', SameShape fs fs' → lin.zipWalk fs' = w.env.zipWalk fs
  canRead : lin.canRead = w.env.canRead
  canWrite : lin.canWrite = w.env.canWrite
  C : lin.C = w.env.C
  key : lin.key = w.env.key
  keyLen : lin.keyLen = w.env.keyLen
  iv : lin.iv = w.env.iv
  mask : lin.mask = w.env.mask
  readError : lin.readError = w.env.readError
  writeOk : lin.writeOk = w.env.writeOk
  zipOpens : lin.zipOpens = true
  zipAdds : lin.zipAdds = w.env.zipAdds
  zipCloses : lin.zipCloses = true

/-- The paths `P`, among which are all that occur when the library `lib` is packaged, differ by more than
letter case. -/
structure CaseApart (w : PackWinEnv) (lib : Bytes) (P : List Bytes → Prop) : Prop where
  apart : ∀ p q, P p → P q → SameButCase p q → p = q
  top : ∀ p ∈ [[], [lib], [lib, b!".library"], [lib, b!".library", b!"manifest.xml"], [lib, b!"package.mo"],
    [lib, b!"package.moc"]], P p
  vendor : ∀ x ∈ vendorExecutables, P [lib, b!".library", x.1]
  library : ∀ l, w.env.library = some l → ∀ e ∈ entries l, P (lib :: e.1)
  extra : ∀ l, w.env.extra = some (some l) → ∀ e ∈ entries l, P (lib :: b!".library" :: e.1)
  encrypt : ∀ fs l, (∀ e ∈ fs, P e.1) → w.env.encryptWalk fs = some l → ∀ e ∈ entries l,
    (∀ n ∈ e.1, IsName n) ∧ P (lib :: e.1) ∧
    (e.2 = .file → ModelicaName (nameOf e.1) → P (lib :: twin e.1)) ∧
    (e.2 = .dir → P (lib :: (e.1 ++ [b!"package.mo"])) ∧ P (lib :: (e.1 ++ [b!"package.moc"])))
  zip : ∀ fs l, (∀ e ∈ fs, P e.1) → w.env.zipWalk fs = some l → ∀ e ∈ entries l, P e.1

/-- If an icon is given, the library has files of its name at most at the top, and the temporary directory
is one of those in the directory that the variable `TEMP` names. -/
structure IconOnTop (w : PackWinEnv) (P : List Bytes → Prop) (ps : List (Bytes × Bytes)) : Prop where
  top : ∀ v n, (b!"icon", v) ∈ ps → LastName (withSlashes v) n → ∀ fs l, (∀ e ∈ fs, P e.1) →
    w.env.iconWalk fs = some l → ∀ e ∈ entries l, e.2 = .file → nameOf e.1 = n → e.1 = [n]
  temp : ∀ v, (b!"icon", v) ∈ ps → ∃ t x, w.env.tmpVar = some t ∧ (92 : UInt8) ∉ x ∧ x ≠ [] ∧
    w.env.tempDir = some (t ++ b!"\\" ++ x)

/-- No directory of the library and among the extra files is called `package.mo`. -/
def NoPackageDirs (w : PackWinEnv) : Prop :=
  ∀ l, w.env.library = some l ∨ w.env.extra = some (some l) → ∀ e ∈ entries l, e.2 ≠ .file →
    nameOf e.1 ≠ b!"package.mo"

/-- `stat` works for all files to be copied. -/
def AllStat (w : PackWinEnv) : Prop := ∀ p, w.fetch p ≠ .noStat ∧ w.fetchExtra p ≠ .noStat

/-- A file of the package as it is made on Windows: the lines of the manifest end with `\r\n`. -/
def winFile (lib : Bytes) (f : List Bytes × Bytes) : List Bytes × Bytes :=
  if f.1 = [lib, b!".library", b!"manifest.xml"] then (f.1, crlf f.2) else f

end Semla.Spec

namespace Semla.Spec

open Semla

/-- What works on the Linux machine works on the Windows machine as well. -/
structure AlsoWindows (w : PackWinEnv) (lin : PackEnv) : Prop where
  isDir : ∀ p, lin.isDir (withSlashes p) = true → w.env.isDir p = true
  fileExists : ∀ p, lin.fileExists p = true → w.env.fileExists p = true
  libraryFiles : ∀ p c, lin.librarySource.copied p = some c → w.fetch p = .data c
  extraFiles : ∀ p c, lin.extraSource.copied p = some c → w.fetchExtra p = .data c
  temp : w.env.tempDir ≠ none
  mkdir : w.env.mkdirOk [] = true
  canRead : ∀ p, w.env.canRead p = true

/-- The extra files can be copied; there is no directory called like a vendor executable where these go. -/
def ExtrasFit (env : PackEnv) : Prop :=
  ∀ l, env.extra = some (some l) → (∃ content, Copyable env.extraSource l content) ∧
    ∀ x ∈ vendorExecutables, ([x.1], Kind.dir) ∉ entries l

/-- Every directory of the library `lib` and of the extra files has a file in the package, disregarding
directories called `.library`, which are not copied. -/
structure NoneEmpty (env : PackEnv) (lib : Bytes) (a : Archive) : Prop where
  library : ∀ l, env.library = some l → ∀ p, (p, Kind.dir) ∈ entries l → Outside p →
    ∃ f ∈ a, (lib :: p) <+: f.1
  extra : ∀ l, env.extra = some (some l) → ∀ p, (p, Kind.dir) ∈ entries l → Outside p →
    ∃ f ∈ a, (lib :: b!".library" :: p) <+: f.1

end Semla.Spec
