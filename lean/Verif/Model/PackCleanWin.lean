import Verif.Model.PackClean
import Verif.Model.MolFile

/-!
# The packaging tool on Windows: what becomes of the temporary directory

Models `removeFolderWindows` of `src/packagetool/utils.c`, the directories that `findFileWin32` leaves open, and `doWork`
once more with the temporary directory as part of the result (`packMolStaging`).

Left out: what is left out in `Verif/Model/MolFile.lean`.  Names are removed as they are listed.
-/

namespace Semla

/-- What the removal depends on: whether `stat` of the temporary directory works, what `FindFirstFile` and
`FindNextFile` deliver (`none`: the former fails), whether `remove` and `_rmdir` do not fail for other reasons, and
whether a directory that is removed while it is open stays until it is closed. -/
structure RemoveWinEnv where
  found : Bool
  walk : Staged → Option Listing
  removeOk : List Bytes → Bool
  rmdirOk : List Bytes → Bool
  stays : Bool

/-- The loop of `findFileWin32`, utils.c:872-903, over the entries of `dir`: the directories of which `FindClose` is
not called, because `return 1` (utils.c:887) follows on every directory that could be opened. -/
def heldOpen : Listing → List Bytes → List (List Bytes)
  | .done, _ => []
  | .file _ rest, dir => heldOpen rest dir
  | .dir n sub _, dir => dir :: heldOpen sub (dir ++ [n])
  | .locked _ rest, dir => heldOpen rest dir
  | .other _ rest, dir => heldOpen rest dir

/-- The directories left open by `prepareIconFile`, utils.c:638-693. -/
def iconHandles (w : PackWinEnv) (d : ArgData) (lib : Bytes) (fs : Staged) : List (List Bytes) :=
  match getValueOf d b!"icon", w.env.iconWalk fs with
  | some _, some l => heldOpen l [lib]
  | _, _ => []

/-- `_rmdir`, with all reasons to fail.  It works for a directory that is open, which may then stay in its parent
directory; it is shown as still there. -/
def RemoveWinEnv.rmdir (rm : RemoveWinEnv) (held : List (List Bytes)) (fs : Staged) (p : List Bytes) : Staged × Bool :=
  match (if rm.rmdirOk p then fs.rmdir p else none) with
  | some fs' => (if rm.stays ∧ p ∈ held then fs else fs', true)
  | none => (fs, false)

/-- `remove`, with all reasons to fail. -/
def RemoveWinEnv.remove (rm : RemoveWinEnv) (fs : Staged) (p : List Bytes) : Option Staged :=
  if rm.removeOk p then fs.unlink p else none

/-- The loop of `removeFolderWindows`, utils.c:713-739, over the entries of `dir`, and whether `status` is zero behind
it.  A directory that cannot be listed is left with `status` zero (utils.c:708-711), and so is an entry without
attributes. -/
def removeEntriesWin (rm : RemoveWinEnv) (held : List (List Bytes)) : Listing → List Bytes → Staged → Staged × Bool
  | .done, _, fs => (fs, true)
  | .file n rest, dir, fs =>
    match rm.remove fs (dir ++ [n]) with
    | some fs => removeEntriesWin rm held rest dir fs
    | none => (fs, false)
  | .dir n sub rest, dir, fs =>
    let (fs, ok) := removeEntriesWin rm held sub (dir ++ [n]) fs
    if ¬ ok then (fs, false)
    else
      let (fs, ok) := rm.rmdir held fs (dir ++ [n])
      if ok then removeEntriesWin rm held rest dir fs else (fs, false)
  | .locked _ rest, dir, fs => removeEntriesWin rm held rest dir fs
  | .other _ rest, dir, fs => removeEntriesWin rm held rest dir fs

/-- `deleteTemporaryStagingFolder`, utils.c:839-847, with `removeFolderWindows`, utils.c:697-758. -/
def deleteStagingWin (rm : RemoveWinEnv) (held : List (List Bytes)) (fs : Staged) : Staged × Bool :=
  if ¬ rm.found then (fs, true)
  else
    match rm.walk fs with
    | none => (fs, true)
    | some l =>
      let (fs, ok) := removeEntriesWin rm held l [] fs
      if ok then rm.rmdir held fs [] else (fs, false)

/-- `doWork`, packagetool.c:81-118: the directories left open and the temporary directory when the archive is to be
made, or the exit status and the temporary directory as it was before the step that failed (which does not remove
anything). -/
def stageWin (w : PackWinEnv) (d : ArgData) : Res (Except (Nat × Staged) (List (List Bytes) × Staged)) :=
  match w.env.tempDir with
  | none => .ok (.error (2, []))
  | some tempDir => do
    let lib := afterLastSep ((getValueOf d b!"librarypath").getD [])
    match ← copyFolderStructureWin w lib with
    | none => .ok (.error (2, Staged.empty))
    | some fs =>
      match createLibraryFolderWin w lib fs with
      | none => .ok (.error (3, fs))
      | some fs1 => do
        match ← prepareIconFileWin w d tempDir lib fs1 with
        | none => .ok (.error (4, fs1))
        | some icon =>
          match copyLVEWin w.env d lib fs1 with
          | none => .ok (.error (5, fs1))
          | some (fs2, lves) => do
            match ← copyExtraFilesWin w lib fs2 with
            | none => .ok (.error (6, fs2))
            | some fs3 => do
              let fs4 ← writeManifestWin w.env d lib lves icon fs3
              match ← encryptFilesWin w.env d tempDir lib fs4 with
              | none => .ok (.error (8, fs4))
              | some fs5 => .ok (.ok (iconHandles w d lib fs1, fs5))

/-- `doWork`, packagetool.c:48-143, with the temporary directory (`none`: there never was one).  The result of
`deleteTemporaryStagingFolder` does not matter (packagetool.c:131-135). -/
def packMolStaging (m : MolEnv) (w : PackWinEnv) (rm : RemoveWinEnv) (args : List Bytes) :
    Res (MolResult × Option Staged) :=
  if args = [] then .ok (⟨1, m.previous⟩, none)
  else if helpRequested args then .ok (⟨0, m.previous⟩, none)
  else do
    match ← packArguments w.env args with
    | none => .ok (⟨1, m.previous⟩, none)
    | some d => do
      match ← stageWin w d with
      | .error (c, fs) => .ok (⟨c, m.previous⟩, some fs)
      | .ok (held, fs) => do
        let (file, ok) ← createMol m w.env d fs
        .ok (if ok then (⟨0, file⟩, some (deleteStagingWin rm held fs).1) else (⟨9, file⟩, some fs))

end Semla
