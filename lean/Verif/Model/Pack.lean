import Verif.Model.Manifest
import Verif.Model.Crypt

/-!
# The packaging tool

Models `doWork` of `src/packagetool/packagetool.c` and the functions of `src/packagetool/utils.c` and
`arguments.c` it uses, as compiled for Linux.

The staging directory maps paths below it to files and directories; a path is the list of its names.  Everything else of the machine is given by `PackEnv`: what `readdir` delivers in which order,
which system calls fail, what the files of the library contain, random draws.  Not modelled: memory
allocation failures, messages, permissions of the copies, paths too long for the buffers of 2048 and
4096 bytes (`snprintf` cuts them off), the format of the zip file.
-/

namespace Semla

/-- What `opendir` and `readdir` deliver for a directory and, recursively, those below it, in this order.
The entries `.` and `..`, which all loops skip, are left out.  `locked` is a directory that cannot be
opened, `other` anything with a `d_type` other than `DT_DIR` and `DT_REG`, such as a symbolic link. -/
inductive Listing where
  | done
  | file (name : Bytes) (rest : Listing)
  | dir (name : Bytes) (sub rest : Listing)
  | locked (name : Bytes) (rest : Listing)
  | other (name : Bytes) (rest : Listing)
  deriving DecidableEq, Repr

/-- A directory, or a file with its contents. -/
inductive Node where
  | dir
  | file (content : Bytes)
  deriving DecidableEq, Repr

/-- The temporary directory: paths of files and directories, the latest change of a path first. -/
abbrev Staged := List (List Bytes × Node)

namespace Staged

/-- After `mkdtemp`. -/
def empty : Staged := [([], .dir)]

/-- What is found at a path. -/
def get (fs : Staged) (p : List Bytes) : Option Node := (fs.find? (·.1 = p)).map (·.2)

/-- One path changed. -/
def set (fs : Staged) (p : List Bytes) (n : Node) : Staged := (p, n) :: fs

/-- `fopen(path, "wb")`, `fwrite`, `fclose`; `none`: `fopen` fails. -/
def write (fs : Staged) (p : List Bytes) (c : Bytes) : Option Staged :=
  if p ≠ [] ∧ fs.get p.dropLast = some .dir ∧ fs.get p ≠ some .dir then some (fs.set p (.file c)) else none

/-- `mkdir(path)`; `none`: it fails. -/
def mkdir (fs : Staged) (p : List Bytes) : Option Staged :=
  if p ≠ [] ∧ fs.get p.dropLast = some .dir ∧ fs.get p = none then some (fs.set p .dir) else none

end Staged

/-- Where `copyDirectoryLinux` copies from: what `copyFile` writes for a file (`none`: it fails before
opening the copy), and whether there is an error making the copy of a directory.  Paths are relative to
the directory copied. -/
structure Source where
  copied : List Bytes → Option Bytes
  mkdirOk : List Bytes → Bool

/-- What a run of the packaging tool depends on besides its arguments. -/
structure PackEnv where
  /-- `stat` says it is a directory -/
  isDir : Bytes → Bool
  /-- `stat` works -/
  fileExists : Bytes → Bool
  /-- contents of the files to include in the manifest (`none`: `fopen` fails) -/
  readFile : Bytes → Option Bytes
  /-- `readlink("/proc/<pid>/exe")` works -/
  exeDir : Bool
  /-- the directory `LVE` beside the executable has this file -/
  lve : Bytes → Bool
  /-- `copyFile` for it: what is written, and the result -/
  lveCopied : Bytes → Option Bytes × Bool
  /-- the directory `.library` beside the executable (`none`: does not exist; `some none`: `opendir`
  fails) -/
  extra : Option (Option Listing)
  extraSource : Source
  /-- the library (`none`: `opendir` fails) -/
  library : Option Listing
  librarySource : Source
  /-- result of `mkdtemp` (`none`: it fails) -/
  tempDir : Option Bytes
  /-- `mkdir` of the top-level directory and `.library` in it does not fail for other reasons -/
  mkdirOk : List Bytes → Bool
  /-- environment variable `TMPDIR` -/
  tmpVar : Option Bytes
  /-- what `readdir` delivers for the copy of the library when looking for the icon and when encrypting,
  and for the temporary directory when making the archive -/
  iconWalk : Staged → Option Listing
  encryptWalk : Staged → Option Listing
  zipWalk : Staged → Option Listing
  /-- `fopen(path, "rb")` and `fopen(path, "wb")` do not fail for reasons of access -/
  canRead : List Bytes → Bool
  canWrite : List Bytes → Bool
  /-- primitives and vendor key -/
  C : Crypto
  key : Bytes
  keyLen : Nat
  /-- for the encryption of each file: random draws, whether reading ends in an error, which writes
  succeed -/
  iv : List Bytes → Bytes
  mask : List Bytes → Bytes
  readError : List Bytes → Bool
  writeOk : List Bytes → Nat → Bool
  /-- `zip_open`, adding a file, and `zip_close` work -/
  zipOpens : Bool
  zipAdds : List Bytes → Bool
  zipCloses : Bool

/-! ## Copying -/

/-- The loop of `copyDirectoryLinux`, utils.c:1987-2026, over the entries of the directory `src` (relative
to the one copied), which is copied to `dst`.  The results of `mkdir`, `copyFile` and the recursive call
are not used. -/
def copyEntries (s : Source) : Listing → List Bytes → List Bytes → Staged → Staged
  | .done, _, _, fs => fs
  | .file n rest, src, dst, fs =>
    if n = b!".library" then copyEntries s rest src dst fs
    else
      let fs' := match s.copied (src ++ [n]) with
        | some c => (fs.write (dst ++ [n]) c).getD fs
        | none => fs
      copyEntries s rest src dst fs'
  | .dir n sub rest, src, dst, fs =>
    if n = b!".library" then copyEntries s rest src dst fs
    else
      let fs' := if s.mkdirOk (src ++ [n]) then (fs.mkdir (dst ++ [n])).getD fs else fs
      copyEntries s rest src dst (copyEntries s sub (src ++ [n]) (dst ++ [n]) fs')
  | .locked n rest, src, dst, fs =>
    if n = b!".library" then copyEntries s rest src dst fs
    else
      let fs' := if s.mkdirOk (src ++ [n]) then (fs.mkdir (dst ++ [n])).getD fs else fs
      copyEntries s rest src dst fs'
  | .other _ rest, src, dst, fs => copyEntries s rest src dst fs

/-- `copyDirectoryLinux`, utils.c:1964-2035. -/
def copyDirectory (s : Source) (l : Option Listing) (dst : List Bytes) (fs : Staged) : Option Staged :=
  l.map fun l => copyEntries s l [] dst fs

/-- `getLibraryName`, arguments.c:397-433, for a path as `validatePath` leaves it.  The first caller,
`getCopiedSourcePath` (utils.c:202-220), calls it twice; for the path `/` the first call makes it empty,
and the second one reads before its start. -/
def getLibraryName (path : Bytes) : Res Bytes :=
  if path = b!"/" then .ub .oobRead else .ok (afterLastSlash path)

/-- `copyFolderStructure`, utils.c:1818-1848, with `createStagingFolder`, utils.c:1758-1802.  A copy named
`.` or `..`, or with an empty name, exists already. -/
def copyFolderStructure (env : PackEnv) (lib : Bytes) : Option Staged :=
  if lib ∈ [[], b!".", b!".."] ∨ ¬ env.mkdirOk [lib] then none
  else
    match Staged.empty.mkdir [lib] with
    | none => none
    | some fs => copyDirectory env.librarySource env.library [lib] fs

/-- `createLibraryFolder`, utils.c:409-440. -/
def createLibraryFolder (env : PackEnv) (lib : Bytes) (fs : Staged) : Option Staged :=
  if env.mkdirOk [lib, b!".library"] then fs.mkdir [lib, b!".library"] else none

/-! ## The icon -/

/-- The loop of `findFileLinux`, utils.c:1114-1146, in directory `dir` with `pathToIcon` being `cur`: the
new value of `pathToIcon`, and the result.  The results of recursive calls are not used. -/
def findFile (name : Bytes) : Listing → List Bytes → Option (List Bytes) → Option (List Bytes) × Bool
  | .done, _, cur => (cur, false)
  | .file n rest, dir, cur =>
    if n = name then (cur.or (some (dir ++ [n])), true) else findFile name rest dir cur
  | .dir n sub rest, dir, cur => findFile name rest dir (findFile name sub (dir ++ [n]) cur).1
  | .locked _ rest, dir, cur => findFile name rest dir cur
  | .other _ rest, dir, cur => findFile name rest dir cur

/-- `locateIconFile`, utils.c:662-693: the path below the temporary directory. -/
def locateIconFile (env : PackEnv) (lib : Bytes) (fs : Staged) (value : Bytes) : Option (List Bytes) :=
  match env.iconWalk fs with
  | none => none
  | some l =>
    match findFile (afterLastSlash value) l [lib] none with
    | (some p, true) => some p
    | _ => none

/-- Path of a file, with `/` between the names. -/
def joinPath : List Bytes → Bytes
  | [] => []
  | [n] => n
  | n :: m :: ns => n ++ b!"/" ++ joinPath (m :: ns)

/-- `cleanUpIconPath`, utils.c:1587-1650. -/
def cleanUpIconPath (tmpVar : Option Bytes) (path : Bytes) : Res (Option Bytes) :=
  let skip := (tmpVar.getD b!"/tmp").length + 1
  if path.length < skip then .ub .oobRead
  else
    let rest := path.drop skip
    if rest = [] then .ok none
    else if 47 ∉ rest then .ub .nullDeref
    else
      let rest := (rest.dropWhile (· ≠ 47)).drop 1
      .ok (if rest = [] then none else some rest)

/-- `prepareIconFile`, utils.c:638-657: `pathToIcon`, or `none` if it fails. -/
def prepareIconFile (env : PackEnv) (d : ArgData) (tempDir lib : Bytes) (fs : Staged) :
    Res (Option (Option Bytes)) :=
  match getValueOf d b!"icon" with
  | none => .ok (some none)
  | some value =>
    match locateIconFile env lib fs value with
    | none => .ok none
    | some p => do
      let r ← cleanUpIconPath env.tmpVar (tempDir ++ b!"/" ++ joinPath p)
      .ok (r.map some)

/-! ## Vendor executables and extra files -/

/-- `lve`, utils.c:60-61. -/
def lveNames : List Bytes :=
  [b!"lve_win32.exe", b!"lve_win64.exe", b!"lve_linux32", b!"lve_linux64", b!"lve_darwin64"]

/-- `countLVE`, utils.c:379-404. -/
def countLVE (env : PackEnv) : Nat := if env.exeDir then lveNames.countP env.lve else 0

/-- The loop of `copyLVE`, utils.c:527-546: the names in `lveList`. -/
def copyLves (env : PackEnv) (lib : Bytes) : List Bytes → Staged → Option (Staged × List Bytes)
  | [], fs => some (fs, [])
  | n :: ns, fs =>
    if env.lve n then
      match env.lveCopied n with
      | (some c, true) =>
        match fs.write [lib, b!".library", n] c with
        | none => none
        | some fs => (copyLves env lib ns fs).map fun r => (r.1, n :: r.2)
      | _ => none
    else copyLves env lib ns fs

/-- `copyLVE`, utils.c:501-551. -/
def copyLVE (env : PackEnv) (d : ArgData) (lib : Bytes) (fs : Staged) : Option (Staged × List Bytes) :=
  if usingEncryption d then
    if env.exeDir then copyLves env lib lveNames fs else none
  else some (fs, [])

/-- `copyExtraFiles`, utils.c:557-599. -/
def copyExtraFiles (env : PackEnv) (lib : Bytes) (fs : Staged) : Option Staged :=
  if env.exeDir then
    match env.extra with
    | none => some fs
    | some l => copyDirectory env.extraSource l [lib, b!".library"] fs
  else none

/-- `createManifestFile`, manifest.c:181-205.  If the file cannot be opened, `fprintf` gets a null
pointer. -/
def writeManifest (env : PackEnv) (d : ArgData) (lib : Bytes) (lves : List Bytes) (icon : Option Bytes)
    (fs : Staged) : Res Staged :=
  let path := [lib, b!".library", b!"manifest.xml"]
  match (if env.canWrite path then fs.write path [] else none) with
  | none => .ub .nullDeref
  | some fs => do
    let doc ← createManifest d lib lves icon env.readFile
    .ok (fs.set path (.file doc))

/-! ## Encryption -/

/-- `isModelicaFile`, utils.c:1231-1246. -/
def isModelicaFile (n : Bytes) : Bool :=
  n.contains 46 && stringToLower ((46 : UInt8) :: (n.reverse.takeWhile (· ≠ 46)).reverse) == b!".mo"

/-- State of the encryption: the context, the staging directory, and the files handed to `encryptFile` so
far (relative to the library; for the statement of properties). -/
structure EncState where
  table : MaskTable
  fs : Staged
  log : List (List Bytes)

/-- The context of `encryptDirectoryLinux`. -/
def PackEnv.context (env : PackEnv) (tempDir lib : Bytes) : CrEnv :=
  ⟨env.C, env.key, env.keyLen, tempDir ++ b!"/" ++ lib, fun _ => none⟩

/-- `fopen(path, "rb")`: works for directories, too; reading from one fails. -/
def PackEnv.openRead (env : PackEnv) (fs : Staged) (p : List Bytes) : Option (Bytes × Bool) :=
  if env.canRead p then
    match fs.get p with
    | some (.file c) => some (c, env.readError p)
    | some .dir => some ([], true)
    | none => none
  else none

/-- Appends `c` to the name of a file. -/
def encryptedPath (p : List Bytes) : List Bytes := p.dropLast ++ [p.getLastD [] ++ b!"c"]

/-- `encryptFile`, utils.c:1273-1307, for the file `p` of the library.  If one of the files cannot be
opened, `fclose` gets a null pointer, or one that has not been initialised. -/
def encryptOne (env : PackEnv) (e : CrEnv) (lib : Bytes) (p : List Bytes) (s : EncState) :
    Res (EncState × Bool) :=
  match env.openRead s.fs (lib :: p) with
  | none => .ub .nullDeref
  | some (content, bad) =>
    let out := lib :: encryptedPath p
    match (if env.canWrite out then s.fs.write out [] else none) with
    | none => .ub .nullDeref
    | some _ => do
      let (t, bytes, ok) ← crEncrypt e s.table (joinPath p) (env.iv p) (fun _ => env.mask p) content bad
        (env.writeOk p)
      .ok (⟨t, s.fs.set out (.file bytes), s.log ++ [p]⟩, ok)

/-- The first part of `encryptDirectoryLinux`, utils.c:1036-1051: `package.mo` of the directory `dir`. -/
def encryptPackage (env : PackEnv) (e : CrEnv) (lib : Bytes) (dir : List Bytes) (s : EncState) :
    Res (EncState × Bool) :=
  match env.openRead s.fs (lib :: dir ++ [b!"package.mo"]) with
  | none => .ok (s, true)
  | some _ => encryptOne env e lib (dir ++ [b!"package.mo"]) s

/-- The loop of `encryptDirectoryLinux`, utils.c:1054-1083, over the entries of `dir`. -/
def encryptEntries (env : PackEnv) (e : CrEnv) (lib : Bytes) :
    Listing → List Bytes → EncState → Res (EncState × Bool)
  | .done, _, s => .ok (s, true)
  | .file n rest, dir, s =>
    if eqNoCase n b!"package.mo" then encryptEntries env e lib rest dir s
    else if isModelicaFile n then do
      let (s, ok) ← encryptOne env e lib (dir ++ [n]) s
      if ok then encryptEntries env e lib rest dir s else .ok (s, false)
    else encryptEntries env e lib rest dir s
  | .dir n sub rest, dir, s =>
    if eqNoCase n b!"package.mo" then encryptEntries env e lib rest dir s
    else do
      let (s, ok) ← encryptPackage env e lib (dir ++ [n]) s
      if ok then do
        let (s, ok) ← encryptEntries env e lib sub (dir ++ [n]) s
        if ok then encryptEntries env e lib rest dir s else .ok (s, false)
      else .ok (s, false)
  | .locked n rest, dir, s =>
    if eqNoCase n b!"package.mo" then encryptEntries env e lib rest dir s
    else do
      let (s, _) ← encryptPackage env e lib (dir ++ [n]) s
      .ok (s, false)
  | .other _ rest, dir, s => encryptEntries env e lib rest dir s

/-- `encryptDirectoryLinux`, utils.c:1009-1094, for the library. -/
def encryptDirectory (env : PackEnv) (e : CrEnv) (lib : Bytes) (fs : Staged) : Res (EncState × Bool) := do
  let (s, ok) ← encryptPackage env e lib [] ⟨[], fs, []⟩
  if ok then
    match env.encryptWalk fs with
    | some l => encryptEntries env e lib l [] s
    | none => .ok (s, false)
  else .ok (s, false)

/-- `encryptFiles`, utils.c:1312-1325. -/
def encryptFiles (env : PackEnv) (d : ArgData) (tempDir lib : Bytes) (fs : Staged) :
    Res (Option Staged) :=
  if usingEncryption d then do
    let (s, ok) ← encryptDirectory env (env.context tempDir lib) lib fs
    .ok (if ok then some s.fs else none)
  else .ok (some fs)

/-! ## The archive -/

/-- An archive: paths and contents. -/
abbrev Archive := List (List Bytes × Bytes)

/-- The loop of `zipDirectoryLinux`, utils.c:1521-1574, over the entries of `dir`: what is added, and the
result. -/
def zipEntries (env : PackEnv) (encrypted : Bool) (fs : Staged) : Listing → List Bytes → Archive × Bool
  | .done, _ => ([], true)
  | .file n rest, dir =>
    if ¬ encrypted ∨ ¬ isModelicaFile n then
      match fs.get (dir ++ [n]) with
      | some (.file c) =>
        if env.zipAdds (dir ++ [n]) then
          let (a, ok) := zipEntries env encrypted fs rest dir
          ((dir ++ [n], c) :: a, ok)
        else ([], false)
      | _ => ([], false)
    else zipEntries env encrypted fs rest dir
  | .dir n sub rest, dir =>
    let (a, ok) := zipEntries env encrypted fs sub (dir ++ [n])
    if ok then
      let (b, ok) := zipEntries env encrypted fs rest dir
      (a ++ b, ok)
    else (a, false)
  | .locked _ _, _ => ([], false)
  | .other _ rest, dir => zipEntries env encrypted fs rest dir

/-- `createZipArchive`, utils.c:1330-1374: the archive, if there is one (it is written by `zip_close`), and
the result. -/
def createZipArchive (env : PackEnv) (d : ArgData) (fs : Staged) : Option Archive × Bool :=
  if env.zipOpens then
    let (a, ok) := match env.zipWalk fs with
      | some l => zipEntries env (usingEncryption d) fs l []
      | none => ([], false)
    (if env.zipCloses then some a else none, ok)
  else (none, false)

/-! ## All of it -/

/-- Validation in `doWork`, packagetool.c:65-77, with `validateLibraryPath`, `validateEncryption`,
`validateXmlFile` and `validateIcon` (arguments.c:258-391): the arguments, or `none`. -/
def packArguments (env : PackEnv) (args : List Bytes) : Res (Option ArgData) := do
  match ← validateArguments args with
  | none => .ok none
  | some d =>
    if ¬ validateMandatory d then .ok none
    else
      let d := setValue d b!"librarypath" trimPath
      if ¬ env.isDir ((getValueOf d b!"librarypath").getD []) then .ok none
      else
        let d := setValue d b!"encrypt" stringToLower
        if usingEncryption d ∧ countLVE env = 0 then .ok none
        else if [b!"tools", b!"dependencies", b!"icon"].all fun k => match getValueOf d k with
            | some v => env.fileExists v
            | none => true
        then .ok (some d)
        else .ok none

/-- How a run of the packaging tool ends: exit status and the archive, if one is written. -/
structure PackResult where
  code : Nat
  archive : Option Archive
  deriving DecidableEq, Repr

/-- `doWork` from packagetool.c:96 on: everything after the validation. -/
def packLibrary (env : PackEnv) (d : ArgData) : Res PackResult :=
  match env.tempDir with
  | none => .ub .nullDeref
  | some tempDir => do
    let lib ← getLibraryName ((getValueOf d b!"librarypath").getD [])
    match copyFolderStructure env lib with
    | none => .ok ⟨2, none⟩
    | some fs =>
      match createLibraryFolder env lib fs with
      | none => .ok ⟨3, none⟩
      | some fs => do
        match ← prepareIconFile env d tempDir lib fs with
        | none => .ok ⟨4, none⟩
        | some icon =>
          match copyLVE env d lib fs with
          | none => .ok ⟨5, none⟩
          | some (fs, lves) =>
            match copyExtraFiles env lib fs with
            | none => .ok ⟨6, none⟩
            | some fs => do
              let fs ← writeManifest env d lib lves icon fs
              match ← encryptFiles env d tempDir lib fs with
              | none => .ok ⟨8, none⟩
              | some fs =>
                let (archive, ok) := createZipArchive env d fs
                .ok ⟨if ok then 0 else 9, archive⟩

/-- `doWork`, packagetool.c:48-143, and the check for missing arguments of `main` (packagetool.c:153-158).
The result of removing the temporary directory does not matter. -/
def packTool (env : PackEnv) (args : List Bytes) : Res PackResult :=
  if args = [] then .ok ⟨1, none⟩
  else if helpRequested args then .ok ⟨0, none⟩
  else do
    match ← packArguments env args with
    | none => .ok ⟨1, none⟩
    | some d => packLibrary env d

end Semla
