import Verif.Lemmas.PackClean
import Verif.Props.PackFail

/-!
# Property C66: what the packaging tool leaves behind

`Truthful`, `Copyable`, `IsSource` are defined in `Verif/Spec/PackTree.lean`.
-/

namespace Semla.Spec

open Semla

/-- Removing works: listings of the temporary directory show what is there, and the calls do not fail. -/
structure Removable (rm : RemoveEnv) : Prop where
  found : rm.found = true
  walk : ∀ fs l, rm.walk fs = some l → Shows l [] fs
  stat : ∀ p, rm.statOk p = true
  unlink : ∀ p, rm.unlinkOk p = true
  rmdir : ∀ p, rm.rmdirOk p = true

end Semla.Spec

namespace Semla.Props

open Semla Spec

/-- The run with the temporary directory in view is the run of the other properties. -/
theorem c66_same (env : PackEnv) (rm : RemoveEnv) (args : List Bytes) (r : PackResult) :
    packTool env args = .ok r ↔ ∃ left, packToolStaging env rm args = .ok (r, left) := by
  rw [← packToolStaging_result env rm args, Res.bind_eq_ok]
  constructor
  · rintro ⟨⟨r', left⟩, h1, h2⟩
    cases h2
    exact ⟨left, h1⟩
  · rintro ⟨left, h⟩
    exact ⟨_, h, rfl⟩

/-- **C66**, for runs that succeed.  If the temporary directory (a tree, as on a disk) can be listed and
nothing in it resists removal, nothing is left of it.  Missing: runs that fail (`c66_failure_not`), failures of the removal, which
are not reported (`c66_ignored_not`). -/
theorem c66_partial {env : PackEnv} {rm : RemoveEnv} {args : List Bytes} {r : PackResult} {left : Option Staged}
    (h : packToolStaging env rm args = .ok (r, left)) (hcode : r.code = 0) (hrm : Removable rm) :
    ∀ fs, left = some fs → fs = [] ∨ ∃ lib, StagingTree lib fs ∧ rm.walk fs = none := by
  intro fs hl
  subst hl
  unfold packToolStaging at h
  split at h
  · cases h
  · split at h
    · cases h
    · rw [Res.bind_eq_ok] at h
      obtain ⟨d, hd, h⟩ := h
      split at h
      · cases h
      · rw [Res.bind_eq_ok] at h
        obtain ⟨⟨r', fs'⟩, hx, h⟩ := h
        cases h
        obtain ⟨lib, -, ho⟩ := packStaging_outcome hx
        cases ho with
        | copy => simp at hcode
        | failed _ h0 => exact absurd hcode h0
        | done hc htree hk =>
          rename_i fs1 fs a
          cases hw : rm.walk fs with
          | none =>
            right
            unfold deleteStaging
            rw [hrm.found, hw]
            exact ⟨lib, htree, hw⟩
          | some l =>
            left
            rw [deleteStaging_all hrm.found hrm.stat hrm.unlink hrm.rmdir hw (hrm.walk fs l hw)
              ((hk [] (by simp) (.inr rfl)).trans (copyFolder_root hc))]

/-- Removal without trouble. -/
def removal : RemoveEnv := ⟨true, honestWalk [], fun _ => true, fun _ => true, fun _ => true⟩

theorem removal_works : Removable removal := by
  refine ⟨rfl, ?_, fun _ => rfl, fun _ => rfl, fun _ => rfl⟩
  intro fs l h
  exact (sample_truthful .done).zip fs l h

/-- It can list every temporary directory, so nothing is left. -/
example {env : PackEnv} {args : List Bytes} {r : PackResult} {fs : Staged}
    (h : packToolStaging env removal args = .ok (r, some fs)) (hcode : r.code = 0) : fs = [] := by
  rcases c66_partial h hcode removal_works fs rfl with h0 | ⟨lib, ht, hw⟩
  · exact h0
  · exact absurd hw (honestWalk_total ht _)

example : (match packToolStaging (sampleMachine sampleLib) removal (sampleCommand b!"True") with
    | .ok (r, some fs) => some (r.code, fs.length)
    | _ => none) = some (0, 0) := by decide +kernel

/-- **C66 is false for runs that fail**: whatever the reason, as soon as the library has been copied, the
copies of its Modelica files stay in the temporary directory, not encrypted. -/
theorem c66_failure_not {env : PackEnv} {rm : RemoveEnv} {args : List Bytes} {r : PackResult} {left : Option Staged}
    (h : packToolStaging env rm args = .ok (r, left)) (hcode : r.code ∉ [0, 1, 2])
    {ps : List (Bytes × Bytes)} (hp : ArgPairs args ps) {path lib : Bytes}
    (hpath : (b!"librarypath", path) ∈ ps) (hlib : LibraryName path lib) {l : Listing}
    (hl : env.library = some l) {content : List Bytes → Bytes} (hc : Copyable env.librarySource l content) :
    ∃ fs, left = some fs ∧ ∀ p, IsSource l p → fs.get (lib :: p) = some (.file (content p)) := by
  simp only [List.mem_cons, List.not_mem_nil, or_false, not_or] at hcode
  unfold packToolStaging at h
  split at h
  · cases h
    exact absurd rfl hcode.2.1
  · split at h
    · cases h
      exact absurd rfl hcode.1
    · rw [Res.bind_eq_ok] at h
      obtain ⟨d, hd, h⟩ := h
      split at h
      · cases h
        exact absurd rfl hcode.2.1
      · rename_i d
        rw [Res.bind_eq_ok] at h
        obtain ⟨⟨r', fs'⟩, hx, h⟩ := h
        cases h
        refine ⟨fs', rfl, ?_⟩
        obtain ⟨lib', hname, ho⟩ := packStaging_outcome hx
        have hlib' : lib' = lib := by
          rw [packArguments_get hd hp (by decide) hpath, if_pos rfl, Option.getD_some, getLibraryName_of hlib] at hname
          simpa using hname.symm
        subst hlib'
        intro p hs
        cases ho with
        | copy => simp at hcode
        | failed hcp _ _ _ hk =>
          have hne : p ≠ [] := entries_ne_nil l _ hs.1
          rw [hk _ (outside_cons _ hs.2.1) (.inl (by rw [nameOf_cons _ hne]; exact hs.2.2))]
          exact (copyFolderStructure_spec hcp hl hc).2.1 p hs.1 hs.2.1
        | done => simp at hcode

/-- The archive cannot be written. -/
example : (match packToolStaging { sampleMachine sampleLib with zipOpens := false } removal (sampleCommand b!"True") with
    | .ok (r, some fs) => some (r.code, fs.get [b!"Lib", b!"x.mo"])
    | _ => none) = some (9, some (.file b!"text of x.mo")) := by decide +kernel

/-- **C66 is false if the removal fails**: the exit status is 0 nevertheless. -/
theorem c66_ignored_not : ∃ (rm : RemoveEnv) (a : Archive) (fs : Staged),
    packToolStaging (sampleMachine sampleLib) rm (sampleCommand b!"True") = .ok (⟨0, some a⟩, some fs) ∧
    fs.get [b!"Lib", b!"A", b!"y.MO"] = some (.file b!"text of A/y.MO") := by
  refine ⟨{ removal with unlinkOk := fun p => p != [b!"Lib", b!"A", b!"y.MO"] }, _, _, by rfl, by decide +kernel⟩

end Semla.Props
