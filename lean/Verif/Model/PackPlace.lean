import Verif.Model.Pack

/-!
# Where the archive goes

Models `createZipArchive`, `src/packagetool/utils.c:1330-1374`, over the files of the disk: which file is removed
beforehand, and which file the archive is written to.  The rest of `doWork` is that of `Model/Pack`.

Left out: directories and links with the name of the archive.  The temporary directory is not part of the disk
here.  `zip_openwitherror` with mode `w` creates the file or makes it empty, and `zip_close` completes it.
-/

namespace Semla

/-- Contents of a file on the disk: something from before, a complete archive, or what a failed attempt to write
one leaves. -/
inductive Kept where
  | old (b : Bytes)
  | archive (a : Archive)
  | broken
  deriving DecidableEq, Repr

/-- Regular files by path. -/
abbrev Disk := Bytes → Option Kept

def Disk.set (disk : Disk) (p : Bytes) (x : Option Kept) : Disk := fun q => if q = p then x else disk q

/-- The current directory, whether `getcwd` works, and which files `remove` can remove. -/
structure HereEnv where
  cwd : Bytes
  getcwdOk : Bool
  removeOk : Bytes → Bool

/-- `MAX_STRING` and `MAX_PATH_LENGTH`, utils.h:26-28. -/
def maxString : Nat := 200
def maxPathLength : Nat := 2048

/-- utils.c:1343. -/
def archiveName (lib : Bytes) : Bytes := snprintf maxString (lib ++ b!".mol")

/-- utils.c:1350-1358. -/
def removePrevious (here : HereEnv) (name : Bytes) (disk : Disk) : Disk :=
  if here.getcwdOk then
    let p := snprintf maxPathLength (here.cwd ++ b!"/" ++ name)
    if (disk p).isSome then
      if here.removeOk p then disk.set p none else disk
    else disk
  else disk

/-- `createZipArchive`, utils.c:1330-1374, with the disk.  The archive is opened by its name, that is, in the
current directory. -/
def createArchiveFile (here : HereEnv) (env : PackEnv) (d : ArgData) (lib : Bytes) (fs : Staged) (disk : Disk) :
    (Option Archive × Bool) × Disk :=
  let name := archiveName lib
  let disk := removePrevious here name disk
  let r := createZipArchive env d fs
  if env.zipOpens then
    (r, disk.set (here.cwd ++ b!"/" ++ name) (some (match r.1 with
      | some a => .archive a
      | none => .broken)))
  else (r, disk)

/-- `doWork` from packagetool.c:96 on, with the disk. -/
def packLibraryHere (here : HereEnv) (env : PackEnv) (d : ArgData) (disk : Disk) : Res (PackResult × Disk) :=
  match env.tempDir with
  | none => .ub .nullDeref
  | some tempDir => do
    let lib ← getLibraryName ((getValueOf d b!"librarypath").getD [])
    match copyFolderStructure env lib with
    | none => .ok (⟨2, none⟩, disk)
    | some fs =>
      match createLibraryFolder env lib fs with
      | none => .ok (⟨3, none⟩, disk)
      | some fs => do
        match ← prepareIconFile env d tempDir lib fs with
        | none => .ok (⟨4, none⟩, disk)
        | some icon =>
          match copyLVE env d lib fs with
          | none => .ok (⟨5, none⟩, disk)
          | some (fs, lves) =>
            match copyExtraFiles env lib fs with
            | none => .ok (⟨6, none⟩, disk)
            | some fs => do
              let fs ← writeManifest env d lib lves icon fs
              match ← encryptFiles env d tempDir lib fs with
              | none => .ok (⟨8, none⟩, disk)
              | some fs =>
                let ((archive, ok), disk) := createArchiveFile here env d lib fs disk
                .ok (⟨if ok then 0 else 9, archive⟩, disk)

/-- `doWork`, packagetool.c:48-143, with the disk. -/
def packToolHere (here : HereEnv) (env : PackEnv) (args : List Bytes) (disk : Disk) : Res (PackResult × Disk) :=
  if args = [] then .ok (⟨1, none⟩, disk)
  else if helpRequested args then .ok (⟨0, none⟩, disk)
  else do
    match ← packArguments env args with
    | none => .ok (⟨1, none⟩, disk)
    | some d => packLibraryHere here env d disk

end Semla
