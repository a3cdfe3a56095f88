import Verif.Model.PackWin
import Verif.Model.Miniz

/-!
# The package file on Windows

`createZipArchive` and `zipDirectoryWin32`, `src/packagetool/utils.c:1330-1497`, with the bytes that
`mz_zip_add_mem_to_archive_file_in_place` (`Verif/Model/Miniz.lean`) leaves in the file `<library>.mol`, and
`doWork` with them; the steps before are those of `Verif/Model/PackWin.lean`.

Left out: what is left out there, but for a previous archive that cannot be removed; the compressor; names of more than
`MAX_STRING` and paths of more than `MAX_PATH_LENGTH` bytes.
-/

namespace Semla

/-- What making the file depends on. -/
structure MolEnv where
  /-- the compressor: pieces it hands over -/
  deflate : Bytes → List Bytes
  /-- what the system does in the call number `k` of `mz_zip_add_mem_to_archive_file_in_place` -/
  io : Nat → ZipIo
  /-- the file with the name of the archive in the current directory, before -/
  previous : Option Bytes
  /-- the current directory is found out and `remove` works, utils.c:1350-1358 -/
  removed : Bool

/-- The number of calls so far, and the file. -/
abbrev MolState := Nat × Option Bytes

/-- `mz_zip_add_mem_to_archive_file_in_place` called by `zipDirectoryWin32`, utils.c:1464-1486; the name in the
archive is the path below the staging directory with `/` for `\`. -/
def MolEnv.add (m : MolEnv) (s : MolState) (path : List Bytes) (data : Bytes) : MolState × Bool :=
  let r := addInPlace m.deflate (m.io s.1) s.2 (joinPath path) data b!"Modelica_archive"
  ((s.1 + 1, r.1), r.2)

/-- The loop of `zipDirectoryWin32`, utils.c:1403-1490, over the entries of `dir`, with `result` being `res`: the
file afterwards, and the return value. -/
def zipFileWin (m : MolEnv) (env : PackEnv) (encrypted : Bool) (fs : Staged) :
    Listing → List Bytes → Bool → MolState → Res (MolState × Bool)
  | .done, _, res, s => .ok (s, res)
  | .file n rest, dir, res, s =>
    if ¬ encrypted ∨ ¬ isModelicaFile n then
      match fs.wget (dir ++ [n]) with
      | none => .ok (s, false)
      | some .dir => .ub .nullDeref
      | some (.file c) =>
        if ¬ env.canRead (dir ++ [n]) then .ub .nullDeref
        else
          match m.add s (dir ++ [n]) c with
          | (s, true) => zipFileWin m env encrypted fs rest dir true s
          | (s, false) => .ok (s, false)
    else zipFileWin m env encrypted fs rest dir res s
  | .dir n sub rest, dir, _, s => do
    let (s, ok) ← zipFileWin m env encrypted fs sub (dir ++ [n]) false s
    if ok then zipFileWin m env encrypted fs rest dir true s else .ok (s, false)
  | .locked _ _, _, _, s => .ok (s, false)
  | .other _ rest, dir, res, s => zipFileWin m env encrypted fs rest dir res s

/-- `createZipArchive`, utils.c:1330-1374: the file afterwards, and the return value.  The value of `remove` is not
looked at. -/
def createMol (m : MolEnv) (env : PackEnv) (d : ArgData) (fs : Staged) : Res (Option Bytes × Bool) :=
  let old := if m.removed then none else m.previous
  match env.zipWalk fs with
  | none => .ok (old, false)
  | some l => do
    let (s, ok) ← zipFileWin m env (usingEncryption d) fs l [] false (0, old)
    .ok (s.2, ok)

/-- `doWork`, packagetool.c:81-118: the staging directory when the archive is to be made, or the exit status. -/
def stageLibraryWin (w : PackWinEnv) (d : ArgData) : Res (Except Nat Staged) :=
  match w.env.tempDir with
  | none => .ok (.error 2)
  | some tempDir => do
    let lib := afterLastSep ((getValueOf d b!"librarypath").getD [])
    match ← copyFolderStructureWin w lib with
    | none => .ok (.error 2)
    | some fs =>
      match createLibraryFolderWin w lib fs with
      | none => .ok (.error 3)
      | some fs => do
        match ← prepareIconFileWin w d tempDir lib fs with
        | none => .ok (.error 4)
        | some icon =>
          match copyLVEWin w.env d lib fs with
          | none => .ok (.error 5)
          | some (fs, lves) => do
            match ← copyExtraFilesWin w lib fs with
            | none => .ok (.error 6)
            | some fs => do
              let fs ← writeManifestWin w.env d lib lves icon fs
              match ← encryptFilesWin w.env d tempDir lib fs with
              | none => .ok (.error 8)
              | some fs => .ok (.ok fs)

/-- Exit status, and the file `<library>.mol` afterwards. -/
structure MolResult where
  code : Nat
  file : Option Bytes
  deriving DecidableEq, Repr

/-- `doWork`, packagetool.c:48-143, and `main`, packagetool.c:153-158. -/
def packMol (m : MolEnv) (w : PackWinEnv) (args : List Bytes) : Res MolResult :=
  if args = [] then .ok ⟨1, m.previous⟩
  else if helpRequested args then .ok ⟨0, m.previous⟩
  else do
    match ← packArguments w.env args with
    | none => .ok ⟨1, m.previous⟩
    | some d => do
      match ← stageLibraryWin w d with
      | .error c => .ok ⟨c, m.previous⟩
      | .ok fs => do
        let (file, ok) ← createMol m w.env d fs
        .ok ⟨if ok then 0 else 9, file⟩

end Semla
