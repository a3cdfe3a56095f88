import Verif.Model.Pack

/-!
# The packaging tool: what becomes of the temporary directory

Models `deleteTemporaryStagingFolder` and `removeFolderLinux` of `src/packagetool/utils.c`, and `doWork`
once more with the temporary directory as part of the result (`packStaging`).  The staging directory
contains files and directories only, so that `stat` and `lstat` agree.
-/

namespace Semla

namespace Staged

/-- Without this path. -/
def remove (fs : Staged) (p : List Bytes) : Staged := fs.filter (·.1 ≠ p)

/-- `unlink`; `none`: it fails. -/
def unlink (fs : Staged) (p : List Bytes) : Option Staged :=
  match fs.get p with
  | some (.file _) => some (fs.remove p)
  | _ => none

/-- `rmdir`: for empty directories only; `none`: it fails. -/
def rmdir (fs : Staged) (p : List Bytes) : Option Staged :=
  if fs.get p = some .dir ∧ (fs.map (·.1)).all fun q => !p.isPrefixOf q || q == p then some (fs.remove p) else none

end Staged

/-- What the removal depends on: whether `stat` of the temporary directory works, what `readdir` delivers
(`none`: `opendir` fails), and whether `stat`, `unlink` and `rmdir` do not fail for other reasons. -/
structure RemoveEnv where
  found : Bool
  walk : Staged → Option Listing
  statOk : List Bytes → Bool
  unlinkOk : List Bytes → Bool
  rmdirOk : List Bytes → Bool

/-- `rmdir` with all reasons to fail. -/
def RemoveEnv.rmdir (rm : RemoveEnv) (fs : Staged) (p : List Bytes) : Staged × Bool :=
  match (if rm.rmdirOk p then fs.rmdir p else none) with
  | some fs => (fs, true)
  | none => (fs, false)

/-- The loop of `removeFolderLinux`, utils.c:777-809, over the entries of `dir`, and whether `status` is
zero behind it.  A directory that cannot be opened is left with `status` zero. -/
def removeEntries (rm : RemoveEnv) : Listing → List Bytes → Staged → Staged × Bool
  | .done, _, fs => (fs, true)
  | .file n rest, dir, fs =>
    if ¬ rm.statOk (dir ++ [n]) then (fs, false)
    else
      match (if rm.unlinkOk (dir ++ [n]) then fs.unlink (dir ++ [n]) else none) with
      | some fs => removeEntries rm rest dir fs
      | none => (fs, false)
  | .dir n sub rest, dir, fs =>
    if ¬ rm.statOk (dir ++ [n]) then (fs, false)
    else
      let (fs, ok) := removeEntries rm sub (dir ++ [n]) fs
      if ¬ ok then (fs, false)
      else
        let (fs, ok) := rm.rmdir fs (dir ++ [n])
        if ok then removeEntries rm rest dir fs else (fs, false)
  | .locked n rest, dir, fs =>
    if ¬ rm.statOk (dir ++ [n]) then (fs, false) else removeEntries rm rest dir fs
  | .other n rest, dir, fs =>
    if ¬ rm.statOk (dir ++ [n]) then (fs, false)
    else
      match (if rm.unlinkOk (dir ++ [n]) then fs.unlink (dir ++ [n]) else none) with
      | some fs => removeEntries rm rest dir fs
      | none => (fs, false)

/-- `deleteTemporaryStagingFolder`, utils.c:839-847, with `removeFolderLinux`, utils.c:761-818. -/
def deleteStaging (rm : RemoveEnv) (fs : Staged) : Staged × Bool :=
  if ¬ rm.found then (fs, true)
  else
    match rm.walk fs with
    | none => (fs, true)
    | some l =>
      let (fs, ok) := removeEntries rm l [] fs
      if ok then rm.rmdir fs [] else (fs, false)

/-- `doWork` from packagetool.c:96 on, with the temporary directory.  For exit statuses 2 to 6 it is given as
it was before the step that failed (which does not remove anything). -/
def packStaging (env : PackEnv) (rm : RemoveEnv) (d : ArgData) : Res (PackResult × Staged) :=
  match env.tempDir with
  | none => .ub .nullDeref
  | some tempDir => do
    let lib ← getLibraryName ((getValueOf d b!"librarypath").getD [])
    match copyFolderStructure env lib with
    | none => .ok (⟨2, none⟩, Staged.empty)
    | some fs =>
      match createLibraryFolder env lib fs with
      | none => .ok (⟨3, none⟩, fs)
      | some fs => do
        match ← prepareIconFile env d tempDir lib fs with
        | none => .ok (⟨4, none⟩, fs)
        | some icon =>
          match copyLVE env d lib fs with
          | none => .ok (⟨5, none⟩, fs)
          | some (fs, lves) =>
            match copyExtraFiles env lib fs with
            | none => .ok (⟨6, none⟩, fs)
            | some fs => do
              let fs ← writeManifest env d lib lves icon fs
              if usingEncryption d then do
                let (s, ok) ← encryptDirectory env (env.context tempDir lib) lib fs
                if ¬ ok then .ok (⟨8, none⟩, s.fs)
                else
                  let (archive, ok) := createZipArchive env d s.fs
                  if ok then .ok (⟨0, archive⟩, (deleteStaging rm s.fs).1) else .ok (⟨9, archive⟩, s.fs)
              else
                let (archive, ok) := createZipArchive env d fs
                if ok then .ok (⟨0, archive⟩, (deleteStaging rm fs).1) else .ok (⟨9, archive⟩, fs)

/-- `doWork`, packagetool.c:48-143, with the temporary directory (`none`: there never was one). -/
def packToolStaging (env : PackEnv) (rm : RemoveEnv) (args : List Bytes) : Res (PackResult × Option Staged) :=
  if args = [] then .ok (⟨1, none⟩, none)
  else if helpRequested args then .ok (⟨0, none⟩, none)
  else do
    match ← packArguments env args with
    | none => .ok (⟨1, none⟩, none)
    | some d => do
      let (r, fs) ← packStaging env rm d
      .ok (r, some fs)

end Semla
