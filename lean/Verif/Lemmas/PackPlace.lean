import Verif.Model.PackPlace
import Verif.Lemmas.PackClean

/-! # Lemmas: where the archive goes -/

namespace Semla

open Spec

theorem createArchiveFile_result (here : HereEnv) (env : PackEnv) (d : ArgData) (lib : Bytes) (fs : Staged)
    (disk : Disk) : (createArchiveFile here env d lib fs disk).1 = createZipArchive env d fs := by
  unfold createArchiveFile
  dsimp only
  split <;> rfl

theorem packLibraryHere_result (here : HereEnv) (env : PackEnv) (d : ArgData) (disk : Disk) :
    (do let x ← packLibraryHere here env d disk; .ok x.1) = packLibrary env d := by
  unfold packLibraryHere packLibrary
  cases env.tempDir with
  | none => rfl
  | some tempDir =>
    dsimp only
    rw [Res.bind_bind]
    congr 1
    funext lib
    cases copyFolderStructure env lib with
    | none => rfl
    | some fs =>
      dsimp only
      cases createLibraryFolder env lib fs with
      | none => rfl
      | some fs =>
        dsimp only
        rw [Res.bind_bind]
        congr 1
        funext icon
        cases icon with
        | none => rfl
        | some icon =>
          dsimp only
          cases copyLVE env d lib fs with
          | none => rfl
          | some x =>
            obtain ⟨fs, lves⟩ := x
            dsimp only
            cases copyExtraFiles env lib fs with
            | none => rfl
            | some fs =>
              dsimp only
              rw [Res.bind_bind]
              congr 1
              funext fs
              rw [Res.bind_bind]
              congr 1
              funext fs
              cases fs with
              | none => rfl
              | some fs =>
                dsimp only
                rw [← createArchiveFile_result here env d lib fs disk]
                rfl

theorem packToolHere_result (here : HereEnv) (env : PackEnv) (args : List Bytes) (disk : Disk) :
    (do let x ← packToolHere here env args disk; .ok x.1) = packTool env args := by
  unfold packToolHere packTool
  split
  · rfl
  · split
    · rfl
    · rw [Res.bind_bind]
      congr 1
      funext d
      cases d with
      | none => rfl
      | some d => exact packLibraryHere_result here env d disk

/-- How the disk looks afterwards: as before if no archive was attempted, else as `createArchiveFile` leaves it. -/
theorem packLibraryHere_disk {here : HereEnv} {env : PackEnv} {d : ArgData} {disk disk' : Disk} {r : PackResult}
    (h : packLibraryHere here env d disk = .ok (r, disk')) :
    (disk' = disk ∧ r.archive = none ∧ r.code ∉ [0, 9]) ∨
    ∃ lib fs ok, getLibraryName ((getValueOf d b!"librarypath").getD []) = .ok lib ∧ r.code = (if ok then 0 else 9) ∧
      createArchiveFile here env d lib fs disk = ((r.archive, ok), disk') := by
  unfold packLibraryHere at h
  split at h
  · cases h
  rw [Res.bind_eq_ok] at h
  obtain ⟨lib, hlib, h⟩ := h
  split at h
  · cases h; left; simp
  split at h
  · cases h; left; simp
  rw [Res.bind_eq_ok] at h
  obtain ⟨icon, -, h⟩ := h
  split at h
  · cases h; left; simp
  split at h
  · cases h; left; simp
  split at h
  · cases h; left; simp
  rw [Res.bind_eq_ok] at h
  obtain ⟨fs, -, h⟩ := h
  rw [Res.bind_eq_ok] at h
  obtain ⟨fs, -, h⟩ := h
  split at h
  · cases h; left; simp
  rename_i fs
  right
  cases hx : createArchiveFile here env d lib fs disk with
  | mk x disk2 =>
    obtain ⟨archive, ok⟩ := x
    rw [hx] at h
    cases h
    exact ⟨lib, fs, ok, hlib, rfl, hx⟩

theorem snprintf_fits' {cap : Nat} {b : Bytes} (h : b.length + 1 ≤ cap) : snprintf cap b = b := by
  unfold snprintf
  rw [List.take_of_length_le (by omega)]

theorem archiveName_fits {lib : Bytes} (h : lib.length ≤ 195) : archiveName lib = lib ++ b!".mol" :=
  snprintf_fits' (by simp [maxString]; omega)

end Semla
