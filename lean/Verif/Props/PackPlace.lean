import Verif.Lemmas.PackPlace
import Verif.Props.PackClean

/-!
# Name and place of the archive (C72)
-/

namespace Semla.Props

open Semla Semla.Spec

/-- Path of the archive: in the directory where the tool was started, named after the library. -/
def archivePath (here : HereEnv) (lib : Bytes) : Bytes := here.cwd ++ b!"/" ++ lib ++ b!".mol"

/-- **C72, model.** Running with the disk is running as in C40 to C46, and looking at the disk as well. -/
theorem c72_same (here : HereEnv) (env : PackEnv) (args : List Bytes) (disk : Disk) (r : PackResult) :
    packTool env args = .ok r ↔ ∃ disk', packToolHere here env args disk = .ok (r, disk') := by
  rw [← packToolHere_result here env args disk, Res.bind_eq_ok]
  constructor
  · rintro ⟨⟨r', disk'⟩, h1, h2⟩
    cases h2
    exact ⟨disk', h1⟩
  · rintro ⟨disk', h⟩
    exact ⟨_, h, rfl⟩

/-- **C72, partial.** Whatever happens, no file other than `<library>.mol` in the current directory is changed; if
an archive was made, it is there; a run that ends before archiving (with an exit status other than 0 and 9) leaves
that file as well.

Missing: library names of 196 bytes and more (`c72_long_name_not`), current directories with paths that leave less
than 2048 bytes (`c72_other_file_not`); a run that fails while archiving does not keep the previous archive
(`c72_previous_not`). -/
theorem c72_partial {here : HereEnv} {env : PackEnv} {args : List Bytes} {disk disk' : Disk} {r : PackResult}
    (h : packToolHere here env args disk = .ok (r, disk')) {ps : List (Bytes × Bytes)} (hp : ArgPairs args ps)
    {path lib : Bytes} (hpath : (b!"librarypath", path) ∈ ps) (hlib : LibraryName path lib)
    (hname : lib.length ≤ 195) (hcwd : (archivePath here lib).length < 2048) :
    (∀ p, p ≠ archivePath here lib → disk' p = disk p) ∧
    (∀ a, r.archive = some a → disk' (archivePath here lib) = some (.archive a)) ∧
    (r.code ∉ [0, 9] → disk' = disk) := by
  unfold packToolHere at h
  split at h
  · cases h; simp
  split at h
  · cases h; simp
  rw [Res.bind_eq_ok] at h
  obtain ⟨d, hd, h⟩ := h
  split at h
  · cases h; simp
  rcases packLibraryHere_disk h with ⟨h1, h2, -⟩ | ⟨lib', fs, ok, h1, h2, h3⟩
  · simp [h1, h2]
  rw [packArguments_get hd hp (by decide) hpath, if_pos rfl, Option.getD_some, getLibraryName_of hlib] at h1
  cases h1
  have hnm : here.cwd ++ b!"/" ++ archiveName lib = archivePath here lib := by
    rw [archiveName_fits hname]; simp [archivePath]
  have hprev : ∀ p, p ≠ archivePath here lib → removePrevious here (archiveName lib) disk p = disk p := by
    intro p hp
    unfold removePrevious
    rw [hnm, snprintf_fits' (by simp only [maxPathLength]; omega)]
    dsimp only
    split
    · split
      · split
        · simp [Disk.set, hp]
        · rfl
      · rfl
    · rfl
  refine ⟨?_, ?_, fun hc => absurd (by rw [h2]; cases ok <;> simp) hc⟩
  · intro p hpp
    unfold createArchiveFile at h3
    dsimp only at h3
    split at h3
    · simp only [Prod.mk.injEq] at h3
      rw [← h3.2, hnm]
      simp only [Disk.set, hpp, if_false]
      exact hprev p hpp
    · simp only [Prod.mk.injEq] at h3
      rw [← h3.2]
      exact hprev p hpp
  · intro a ha
    unfold createArchiveFile at h3
    dsimp only at h3
    split at h3
    · simp only [Prod.mk.injEq] at h3
      obtain ⟨h4, h5⟩ := h3
      rw [← h5, hnm]
      simp [Disk.set, h4, ha]
    · rename_i hz
      simp only [Prod.mk.injEq] at h3
      have := congrArg Prod.fst h3.1
      simp only [createZipArchive, hz] at this
      rw [ha] at this
      simp at this

/-- A directory with an older archive and a file that happens to have the name of the library. -/
def somewhere (cwd : Bytes) : HereEnv := ⟨cwd, true, fun _ => true⟩
def someDisk (cwd : Bytes) : Disk := fun p =>
  if p = cwd ++ b!"/Lib.mol" then some (.old b!"older archive")
  else if p = cwd ++ b!"/Lib" then some (.old b!"notes") else none

/-- The disk after a run. -/
def diskOf : Res (PackResult × Disk) → Bytes → Option (Nat × Option Kept)
  | .ok (r, disk), p => some (r.code, disk p)
  | .ub _, _ => none

-- the older archive is replaced
example : ∃ a disk', packToolHere (somewhere b!"/w") (sampleMachine sampleLib) (sampleCommand b!"True")
      (someDisk b!"/w") = .ok (⟨0, some a⟩, disk') ∧
    disk' b!"/w/Lib.mol" = some (.archive a) ∧ disk' b!"/w/Lib" = some (.old b!"notes") := by
  have hx : ∃ a disk', packToolHere (somewhere b!"/w") (sampleMachine sampleLib) (sampleCommand b!"True")
      (someDisk b!"/w") = .ok (⟨0, some a⟩, disk') := ⟨_, _, by rfl⟩
  obtain ⟨a, disk', hx⟩ := hx
  have := c72_partial hx (sample_pairs b!"True" (by decide)) (path := b!"/l/Lib/") (lib := b!"Lib")
    (by simp [samplePairs]) sample_name (by decide) (by decide)
  refine ⟨a, disk', hx, this.2.1 a rfl, ?_⟩
  rw [this.1 _ (by decide)]
  decide

/-- **C72, negation for failing runs.** If the archive cannot be created, the tool reports it (status 9), but the
archive of an earlier run is gone. -/
theorem c72_previous_not :
    diskOf (packToolHere (somewhere b!"/w") { sampleMachine sampleLib with zipOpens := false }
      (sampleCommand b!"True") (someDisk b!"/w")) b!"/w/Lib.mol" = some (9, none) ∧
    someDisk b!"/w" b!"/w/Lib.mol" = some (.old b!"older archive") := by decide +kernel

/-- A library with a long name. -/
def longName : Bytes := List.replicate 196 97
def longMachine : PackEnv := { sampleMachine sampleLib with
  isDir := fun p => p == b!"/l/" ++ longName
  encryptWalk := honestWalk [longName]
  iconWalk := honestWalk [longName] }
def longCommand : List Bytes := [b!"-librarypath", b!"/l/" ++ longName, b!"-version", b!"1.0", b!"-language", b!"3.2"]

/-- **C72, negation for long names.** The archive of a library with a name of 196 characters is not called `.mol`,
it lacks the last letter; with status 0. -/
theorem c72_long_name_not :
    diskOf (packToolHere (somewhere b!"/w") longMachine longCommand (fun _ => none))
      (b!"/w/" ++ longName ++ b!".mol") = some (0, none) ∧
    ((diskOf (packToolHere (somewhere b!"/w") longMachine longCommand (fun _ => none))
      (b!"/w/" ++ longName ++ b!".mo")).bind (·.2)).isSome = true := by decide +kernel

/-- A current directory with a path of 2043 bytes. -/
def deepDir : Bytes := (List.replicate 8 (b!"/" ++ List.replicate 254 100)).flatten ++ b!"/dd"

/-- **C72, negation for long paths.** The path of the file to remove is cut off behind 2047 bytes: the file `Lib`
is deleted. -/
theorem c72_other_file_not :
    diskOf (packToolHere (somewhere deepDir) (sampleMachine sampleLib) (sampleCommand b!"True") (someDisk deepDir))
      (deepDir ++ b!"/Lib") = some (0, none) ∧
    someDisk deepDir (deepDir ++ b!"/Lib") = some (.old b!"notes") := by decide +kernel

end Semla.Props
