import Verif.Model.FullDisk
import Verif.Model.Pack

/-!
# The packaging tool with a temporary directory on a disk that fills up, on Linux

The manifest and the encrypted files are written through a `FILE *` into the temporary directory.  `createManifest` does not
look at the results of `fprintf` and `fclose` (manifest.c:95-205), `encryptFile` looks at those of `fwrite` but not at that of
`fclose` (utils.c:1293-1304).  In `Model/Pack` the results of `fwrite` are an oracle that is independent of what is in the
files afterwards, and the manifest is always written completely; here both follow from the room on the disk.  The definitions
follow those of the same name, without `Disk`, in `Model/Pack` and `Model/Crypt`.  Copies of files are the subject of
`Model/CopyFile`.
-/

namespace Semla

/-- `mlle_cr_encrypt`, mlle_cr_encrypt.c:199-315, as in `crEncrypt`, writing to such a disk. -/
def crEncryptStaged (d : OutDisk) (e : CrEnv) (t : MaskTable) (p iv : Bytes) (rand : Bytes → Bytes) (inp : Bytes)
    (bad : Bool) : Res (MaskTable × Bytes × Bool) :=
  if ¬ d.takes 0 iv.length then .ok (t, iv, false)
  else do
    let m ← maskKey e rand (p.length + 2) t p e.key
    if m.ret < 0 then .ok (m.table, iv, false)
    else do
      let (ws, complete) ← encBody e m.key iv inp bad m.ret m.stored
      let (o, ok) := diskWrites d 1 iv.length ws
      .ok (m.table, iv ++ o, ok && complete)

/-- The disk below every file of the temporary directory. -/
abbrev StagingDisk := List Bytes → OutDisk

/-- `createManifestFile`, manifest.c:181-205. -/
def writeManifestDisk (disk : StagingDisk) (env : PackEnv) (d : ArgData) (lib : Bytes) (lves : List Bytes)
    (icon : Option Bytes) (fs : Staged) : Res Staged :=
  let path := [lib, b!".library", b!"manifest.xml"]
  match (if env.canWrite path then fs.write path [] else none) with
  | none => .ub .nullDeref
  | some fs => do
    let doc ← createManifest d lib lves icon env.readFile
    .ok (fs.set path (.file ((disk path).closed doc)))

/-- `encryptFile`, utils.c:1273-1307. -/
def encryptOneDisk (disk : StagingDisk) (env : PackEnv) (e : CrEnv) (lib : Bytes) (p : List Bytes) (s : EncState) :
    Res (EncState × Bool) :=
  match env.openRead s.fs (lib :: p) with
  | none => .ub .nullDeref
  | some (content, bad) =>
    let out := lib :: encryptedPath p
    match (if env.canWrite out then s.fs.write out [] else none) with
    | none => .ub .nullDeref
    | some _ => do
      let (t, bytes, ok) ← crEncryptStaged (disk out) e s.table (joinPath p) (env.iv p) (fun _ => env.mask p) content bad
      .ok (⟨t, s.fs.set out (.file ((disk out).closed bytes)), s.log ++ [p]⟩, ok)

/-- The first part of `encryptDirectoryLinux`, utils.c:1036-1051. -/
def encryptPackageDisk (disk : StagingDisk) (env : PackEnv) (e : CrEnv) (lib : Bytes) (dir : List Bytes) (s : EncState) :
    Res (EncState × Bool) :=
  match env.openRead s.fs (lib :: dir ++ [b!"package.mo"]) with
  | none => .ok (s, true)
  | some _ => encryptOneDisk disk env e lib (dir ++ [b!"package.mo"]) s

/-- The loop of `encryptDirectoryLinux`, utils.c:1054-1083. -/
def encryptEntriesDisk (disk : StagingDisk) (env : PackEnv) (e : CrEnv) (lib : Bytes) :
    Listing → List Bytes → EncState → Res (EncState × Bool)
  | .done, _, s => .ok (s, true)
  | .file n rest, dir, s =>
    if eqNoCase n b!"package.mo" then encryptEntriesDisk disk env e lib rest dir s
    else if isModelicaFile n then do
      let (s, ok) ← encryptOneDisk disk env e lib (dir ++ [n]) s
      if ok then encryptEntriesDisk disk env e lib rest dir s else .ok (s, false)
    else encryptEntriesDisk disk env e lib rest dir s
  | .dir n sub rest, dir, s =>
    if eqNoCase n b!"package.mo" then encryptEntriesDisk disk env e lib rest dir s
    else do
      let (s, ok) ← encryptPackageDisk disk env e lib (dir ++ [n]) s
      if ok then do
        let (s, ok) ← encryptEntriesDisk disk env e lib sub (dir ++ [n]) s
        if ok then encryptEntriesDisk disk env e lib rest dir s else .ok (s, false)
      else .ok (s, false)
  | .locked n rest, dir, s =>
    if eqNoCase n b!"package.mo" then encryptEntriesDisk disk env e lib rest dir s
    else do
      let (s, _) ← encryptPackageDisk disk env e lib (dir ++ [n]) s
      .ok (s, false)
  | .other _ rest, dir, s => encryptEntriesDisk disk env e lib rest dir s

/-- `encryptDirectoryLinux`, utils.c:1009-1094, for the library. -/
def encryptDirectoryDisk (disk : StagingDisk) (env : PackEnv) (e : CrEnv) (lib : Bytes) (fs : Staged) :
    Res (EncState × Bool) := do
  let (s, ok) ← encryptPackageDisk disk env e lib [] ⟨[], fs, []⟩
  if ok then
    match env.encryptWalk fs with
    | some l => encryptEntriesDisk disk env e lib l [] s
    | none => .ok (s, false)
  else .ok (s, false)

/-- `encryptFiles`, utils.c:1312-1325. -/
def encryptFilesDisk (disk : StagingDisk) (env : PackEnv) (d : ArgData) (tempDir lib : Bytes) (fs : Staged) :
    Res (Option Staged) :=
  if usingEncryption d then do
    let (s, ok) ← encryptDirectoryDisk disk env (env.context tempDir lib) lib fs
    .ok (if ok then some s.fs else none)
  else .ok (some fs)

/-- `doWork` from packagetool.c:96 on. -/
def packLibraryDisk (disk : StagingDisk) (env : PackEnv) (d : ArgData) : Res PackResult :=
  match env.tempDir with
  | none => .ub .nullDeref
  | some tempDir => do
    let lib ← getLibraryName ((getValueOf d b!"librarypath").getD [])
    match copyFolderStructure env lib with
    | none => .ok ⟨2, none⟩
    | some fs =>
      match createLibraryFolder env lib fs with
      | none => .ok ⟨3, none⟩
      | some fs => do
        match ← prepareIconFile env d tempDir lib fs with
        | none => .ok ⟨4, none⟩
        | some icon =>
          match copyLVE env d lib fs with
          | none => .ok ⟨5, none⟩
          | some (fs, lves) =>
            match copyExtraFiles env lib fs with
            | none => .ok ⟨6, none⟩
            | some fs => do
              let fs ← writeManifestDisk disk env d lib lves icon fs
              match ← encryptFilesDisk disk env d tempDir lib fs with
              | none => .ok ⟨8, none⟩
              | some fs =>
                let (archive, ok) := createZipArchive env d fs
                .ok ⟨if ok then 0 else 9, archive⟩

/-- `doWork`, packagetool.c:48-143, and the check for missing arguments of `main` (packagetool.c:153-158). -/
def packToolDisk (disk : StagingDisk) (env : PackEnv) (args : List Bytes) : Res PackResult :=
  if args = [] then .ok ⟨1, none⟩
  else if helpRequested args then .ok ⟨0, none⟩
  else do
    match ← packArguments env args with
    | none => .ok ⟨1, none⟩
    | some d => packLibraryDisk disk env d

end Semla
