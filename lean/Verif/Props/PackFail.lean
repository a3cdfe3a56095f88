import Verif.Lemmas.PackFail
import Verif.Props.PackManifest
import Verif.Props.PackWalk

/-!
# Properties of failing packaging runs: C46

`Acceptable`, `Trouble` and `StagingTrouble` are defined in `Verif/Spec/PackTree.lean`.
-/

namespace Semla.Props

open Semla Spec

/-- The exit statuses; an archive is left behind only by a run that gets to the last step. -/
theorem c46_codes (env : PackEnv) (args : List Bytes) (r : PackResult) (h : packTool env args = .ok r) :
    r.code ∈ [0, 1, 2, 3, 4, 5, 6, 8, 9] ∧ (r.archive ≠ none → r.code = 0 ∨ r.code = 9) := by
  rcases packTool_steps h with ⟨d, tempDir, lib, icon, lves, fs1, fs2, fs3, fs4, fs5, fs6, -, -, -, rfl⟩ |
    ⟨h1, h2⟩ | ⟨-, rfl⟩
  · dsimp only
    split <;> simp
  · refine ⟨?_, fun hn => absurd h1 hn⟩
    simp only [List.mem_cons, List.not_mem_nil, or_false] at h2 ⊢
    omega
  · simp

example : shown (packTool (sampleMachine sampleLib) (sampleCommand b!"True")) ≠ none := by decide +kernel

/-- The exit status is 1 if and only if the command line cannot be worked with (an empty one, for
instance). -/
theorem c46_arguments (env : PackEnv) (args : List Bytes) (hh : helpRequested args = false)
    (r : PackResult) (h : packTool env args = .ok r) : r.code = 1 ↔ ¬ Acceptable env args := by
  unfold packTool at h
  by_cases hne : args = []
  · rw [if_pos hne] at h
    simp only [Res.ok.injEq] at h
    subst h hne
    refine ⟨fun _ => ?_, fun _ => rfl⟩
    rintro ⟨ps, h1, -, h2, -⟩
    cases h1
    obtain ⟨v, hv⟩ := h2 _ List.mem_cons_self
    simp at hv
  rw [← packArguments_iff]
  rw [if_neg hne, hh, if_neg (by simp), Res.bind_eq_ok] at h
  obtain ⟨o, h1, h⟩ := h
  cases o with
  | none =>
    simp only [Res.ok.injEq] at h
    subst h
    simp [h1]
  | some d =>
    have hr : r.code ≠ 1 := by
      obtain ⟨tempDir, lib, -, -, ho⟩ := packLibrary_outcome h
      cases ho with
      | all hs =>
        dsimp only
        split <;> simp
      | _ => simp
    simp [h1, hr]

/-- The library is not a directory. -/
example : shown (packTool { sampleMachine sampleLib with isDir := fun _ => false } (sampleCommand b!"True")) =
    some (1, none) := by decide +kernel

/-- No arguments. -/
example : shown (packTool (sampleMachine sampleLib) []) = some (1, none) := by decide +kernel

/-- An argument is given twice. -/
example : shown (packTool (sampleMachine sampleLib) (sampleCommand b!"True" ++ [b!"-version", b!"2"])) =
    some (1, none) := by decide +kernel

/-- There is no vendor executable. -/
example : shown (packTool { sampleMachine sampleLib with lve := fun _ => false } (sampleCommand b!"True")) =
    some (1, none) := by decide +kernel

/-- **C46, partial.** For an acceptable command line: if anything in the list `Trouble` is wrong, the exit
status is not 0, and it is the number of the step that has the trouble or of an earlier one.  Whenever the
exit status is not 0, the step with this number has trouble: one of `Trouble`, or one of `StagingTrouble`:
the staging directory (a tree, as on a disk) could not be listed, a file not written or not added to the archive, or the library is
not `Encryptable`.  If it is 0 and the archive could be finished (`zip_close`), there is one.

Missing for the full claim: failures of copying single files and directories (`c40_copy_not`) and of
finishing the archive (`c46_close_not`) are ignored; files that cannot be opened for encryption are left out
or lead to undefined behaviour (`c46_open_not`), as does a failure of `mkdtemp` (`c46_mkdtemp_not`);
libraries with misleading names of packages (C41) or clashing names (C40). -/
theorem c46_partial (env : PackEnv) (args : List Bytes) (hacc : Acceptable env args)
    (hh : helpRequested args = false) (r : PackResult) (h : packTool env args = .ok r)
    (ps : List (Bytes × Bytes)) (hp : ArgPairs args ps) (path lib : Bytes)
    (hpath : (b!"librarypath", path) ∈ ps) (hlib : LibraryName path lib) (l : Listing)
    (hl : env.library = none ∨ env.library = some l) (content : List Bytes → Bytes)
    (hc : Copyable env.librarySource l content) (ht : Truthful env lib)
    (htemp : ∀ t, env.tempDir = some t → TempName t)
    (h4 : 4 ≤ (env.tmpVar.getD b!"/tmp").length) (h25 : (env.tmpVar.getD b!"/tmp").length ≤ 25)
    (hpk : PlainPackages l) (hcl : NoClash l) (hr : ∀ p, env.canRead (lib :: p) = true)
    (hg : AsksEncryption ps → GoodCrypto env) :
    (∀ k, Trouble env ps lib l k → r.code ≠ 0 ∧ r.code ≤ k) ∧
    (r.code ≠ 0 → Trouble env ps lib l r.code ∨ StagingTrouble env ps lib l r.code) ∧
    (r.code = 0 → env.zipCloses = true → r.archive ≠ none) := by
  obtain ⟨d, hd⟩ := (packArguments_iff env args).2 hacc
  have hne : args ≠ [] := by
    rintro rfl
    cases hp
    simp at hpath
  unfold packTool at h
  rw [if_neg hne, hh, if_neg (by simp), hd] at h
  simp only [Res.bind_ok] at h
  obtain ⟨tempDir, lib', htd, hname, ho⟩ := packLibrary_outcome h
  have hlib' : lib' = lib := by
    rw [packArguments_get hd hp (by decide) hpath, if_pos rfl, Option.getD_some, getLibraryName_of hlib] at hname
    simpa using hname.symm
  subst hlib'
  have hl0 : lib' ≠ [] := by
    obtain ⟨_, _, -, -, h0, -⟩ := hlib
    exact h0
  refine ⟨fun k hk => trouble_stops hd hp hl0 hl hc ht hpk hcl hr ho hk,
    outcome_reason hd hp hl0 hl hc ht (htemp _ htd) h4 h25 hpk hr hg ho, fun hcode hz => ?_⟩
  cases ho with
  | all hs =>
    dsimp only at hcode ⊢
    split at hcode
    · rename_i hok
      unfold createZipArchive
      rw [if_pos (createZip_ok hok).1]
      simp [hz]
    · simp at hcode
  | _ => simp at hcode

/-! ### Cases -/

theorem sample_acceptable (l : Listing) : Acceptable (sampleMachine l) (sampleCommand b!"True") := by
  rw [← packArguments_iff]
  exact ⟨_, rfl⟩

theorem sample_temp (l : Listing) : ∀ t, (sampleMachine l).tempDir = some t → TempName t := by
  intro t h
  simp only [sampleMachine, Option.some.injEq] at h
  exact ⟨b!"abcdef", rfl, by decide, h.symm⟩

theorem sample_encryptable : Encryptable (sampleMachine sampleLib) sampleLib := by
  have h : ∀ e ∈ entries sampleLib, (∀ n ∈ e.1, IsName n) ∧ (relPath e.1.dropLast).length < 4096 := by
    unfold IsName
    decide +kernel
  exact ⟨fun l hl => by simp [sampleMachine] at hl, fun p hp => (h _ hp.1).1, fun p hp => (h _ hp.1).2⟩

/-- On the sample machine nothing is wrong with the staging directory: if the exit status is not 0, it is for
a reason in `Trouble`. -/
theorem sample_no_staging (ps : List (Bytes × Bytes)) (k : Nat) :
    ¬ StagingTrouble (sampleMachine sampleLib) ps b!"Lib" sampleLib k := by
  intro h
  cases h with
  | icon _ ht hw => exact honestWalk_total ht _ hw
  | encryptWalk _ ht hw => exact honestWalk_total ht _ hw
  | encryptWrite _ _ hw => simp [sampleMachine] at hw
  | encryptNames _ hn => exact hn sample_encryptable
  | zip ht hw => exact honestWalk_total ht _ hw
  | add hw => simp [sampleMachine] at hw

/-- Reading a file for encryption goes wrong. -/
def badRead : PackEnv := { sampleMachine sampleLib with readError := fun p => p == [b!"Lib", b!"A", b!"y.MO"] }

example : Trouble badRead (samplePairs b!"True") b!"Lib" sampleLib 8 :=
  .encrypt (p := [b!"A", b!"y.MO"]) ⟨b!"True", by decide, by decide⟩
    ⟨by decide, by decide, (isModelicaFile_iff _).1 (by decide)⟩ (by decide)

example : shown (packTool badRead (sampleCommand b!"True")) = some (8, none) := by decide +kernel

/-- Writing an encrypted file goes wrong, at the first or at a later write. -/
def badWrite (n : Nat) : PackEnv :=
  { sampleMachine sampleLib with writeOk := fun p m => !(p == [b!"A", b!"package.mo"] && m == n) }

example : Trouble (badWrite 0) (samplePairs b!"True") b!"Lib" sampleLib 8 :=
  .write (p := [b!"A", b!"package.mo"]) ⟨b!"True", by decide, by decide⟩
    ⟨by decide, by decide, (isModelicaFile_iff _).1 (by decide)⟩ (by decide)

example : shown (packTool (badWrite 0) (sampleCommand b!"True")) = some (8, none) := by decide +kernel

example : shown (packTool (badWrite 2) (sampleCommand b!"True")) = some (8, none) := by decide +kernel

/-- The hypotheses of `c46_partial` hold for it. -/
example (n : Nat) (r : PackResult) (h : packTool (badWrite n) (sampleCommand b!"True") = .ok r) :
    r.code ≠ 0 → Trouble (badWrite n) (samplePairs b!"True") b!"Lib" sampleLib r.code ∨
      StagingTrouble (badWrite n) (samplePairs b!"True") b!"Lib" sampleLib r.code :=
  (c46_partial (badWrite n) (sampleCommand b!"True") ((packArguments_iff _ _).1 ⟨_, rfl⟩) (by decide) r h
    (samplePairs b!"True") (sample_pairs _ (by decide)) b!"/l/Lib/" b!"Lib" (by decide) sample_name sampleLib
    (Or.inr rfl) _ (sample_copyable _ (by decide +kernel) (by decide +kernel))
    ⟨(sample_truthful sampleLib).1, (sample_truthful sampleLib).2, (sample_truthful sampleLib).3⟩
    (sample_temp sampleLib) (by simp [badWrite, sampleMachine]) (by simp [badWrite, sampleMachine])
    (by unfold PlainPackages; decide +kernel) sample_noClash (fun _ => rfl)
    (fun _ => have h := sample_crypto sampleLib; ⟨h.1, h.2, h.3, h.4, h.5⟩)).2.1

/-- A name with a backslash: `A\\package.mo` and the package file of `A` are taken for the same file.  The
library is not `Encryptable`, and the exit status is 8. -/
def backslashLib : Listing :=
  .file b!"A\\package.mo" (.dir b!"A" (.file b!"package.mo" .done) .done)

theorem c46_backslash_not : ¬ Encryptable (sampleMachine backslashLib) backslashLib ∧
    shown (packTool (sampleMachine backslashLib) (sampleCommand b!"True")) = some (8, none) := by
  refine ⟨fun h => ?_, by decide +kernel⟩
  have := h.names [b!"A\\package.mo"] ⟨by decide, by decide, (isModelicaFile_iff _).1 (by decide)⟩ _
    List.mem_cons_self
  exact absurd this (by unfold IsName; decide)

/-- Adding a file to the archive goes wrong: the exit status is 9, although an archive is left behind. -/
def badAdd : PackEnv := { sampleMachine sampleLib with zipAdds := fun p => p != [b!"Lib", b!"A", b!"i.png"] }

example : Trouble badAdd (samplePairs b!"True") b!"Lib" sampleLib 9 :=
  .add (p := [b!"A", b!"i.png"]) (by decide) (by decide)
    (fun h => absurd ((isModelicaFile_iff _).2 h.2) (by decide)) (by decide)

example : shown (packTool badAdd (sampleCommand b!"True")) = some (9, some [b!"Lib/x.moc",
    b!"Lib/package.moc", b!"Lib/.library/manifest.xml", b!"Lib/.library/lve_linux64", b!"Lib/A/y.MOc",
    b!"Lib/A/package.moc"]) := by decide +kernel

/-- A vendor executable cannot be copied, and there are extra files that cannot be listed: the first one
counts. -/
def badVendor : PackEnv :=
  { sampleMachine sampleLib with lveCopied := fun _ => (some b!"EL", false), extra := some none }

example : Trouble badVendor (samplePairs b!"True") b!"Lib" sampleLib 5 :=
  .vendor (x := (b!"lve_linux64", b!"linux64")) ⟨b!"True", by decide, by decide⟩ (by decide) (by decide)
    (fun c h => by simp [badVendor] at h)

example : Trouble badVendor (samplePairs b!"True") b!"Lib" sampleLib 6 := .extra rfl

example : shown (packTool badVendor (sampleCommand b!"True")) = some (5, none) := by decide +kernel

/-- The icon is not in the library. -/
example : shown (packTool (sampleMachine sampleLib) (sampleCommand b!"True" ++ [b!"-icon", b!"/x/j.png"])) =
    some (4, none) := by decide +kernel

/-! ### What is missing -/

/-- A failure of `zip_close` is ignored: the exit status is 0, but there is no archive. -/
theorem c46_close_not : ¬ ∀ (env : PackEnv) (args : List Bytes) (r : PackResult), helpRequested args = false →
    packTool env args = .ok r → r.code = 0 → r.archive ≠ none := by
  intro h
  have := h { sampleMachine sampleLib with zipCloses := false } (sampleCommand b!"True") ⟨0, none⟩ (by decide)
    (by decide +kernel) rfl
  exact this rfl

/-- If a file of the library cannot be opened for encryption, there is no exit status: `encryptFile` closes a
stream that it does not have. -/
theorem c46_open_not : ¬ ∀ (env : PackEnv) (args : List Bytes), Acceptable env args →
    ∃ r, packTool env args = .ok r := by
  intro h
  obtain ⟨r, hr⟩ := h { sampleMachine sampleLib with canRead := fun p => p != [b!"Lib", b!"x.mo"] }
    (sampleCommand b!"True") ((packArguments_iff _ _).1 ⟨_, rfl⟩)
  have hu : packTool { sampleMachine sampleLib with canRead := fun p => p != [b!"Lib", b!"x.mo"] }
    (sampleCommand b!"True") = .ub .nullDeref := by decide +kernel
  rw [hu] at hr
  simp at hr

/-- The same if `mkdtemp` fails: its result is used unchecked. -/
theorem c46_mkdtemp_not : ¬ ∀ (env : PackEnv) (args : List Bytes), Acceptable env args →
    (∀ p, env.canRead p = true ∧ env.canWrite p = true) → ∃ r, packTool env args = .ok r := by
  intro h
  obtain ⟨r, hr⟩ := h { sampleMachine sampleLib with tempDir := none }
    (sampleCommand b!"False") ((packArguments_iff _ _).1 ⟨_, rfl⟩) (fun _ => ⟨rfl, rfl⟩)
  have hu : packTool { sampleMachine sampleLib with tempDir := none }
    (sampleCommand b!"False") = .ub .nullDeref := by decide +kernel
  rw [hu] at hr
  simp at hr

end Semla.Props
