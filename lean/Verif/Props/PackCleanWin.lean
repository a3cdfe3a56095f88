import Verif.Lemmas.PackCleanWin
import Verif.Spec.PackCleanWin
import Verif.Props.MolFile

/-!
# Property C91: what the packaging tool leaves behind on Windows
-/

namespace Semla.Props

open Semla Spec

/-- The run with the temporary directory in view is the run of C89. -/
theorem c91_same (m : MolEnv) (w : PackWinEnv) (rm : RemoveWinEnv) (args : List Bytes) (r : MolResult) :
    packMol m w args = .ok r ↔ ∃ left, packMolStaging m w rm args = .ok (r, left) := by
  rw [← packMolStaging_result m w rm args]
  constructor
  · intro h
    obtain ⟨⟨r', left⟩, h1, h2⟩ := Res.bind_eq_ok.1 h
    cases h2
    exact ⟨left, h1⟩
  · rintro ⟨left, h⟩
    rw [h]
    rfl

/-- A run that succeeds, and its temporary directory. -/
theorem packMolStaging_done {m : MolEnv} {w : PackWinEnv} {rm : RemoveWinEnv} {args : List Bytes} {r : MolResult}
    {fs : Staged} (h : packMolStaging m w rm args = .ok (r, some fs)) (hcode : r.code = 0) :
    ∃ d lib staged fs1, packArguments w.env args = .ok (some d) ∧ OneTop lib staged ∧
      fs = (deleteStagingWin rm (iconHandles w d lib fs1) staged).1 := by
  unfold packMolStaging at h
  split at h
  · cases h
  split at h
  · cases h
  rw [Res.bind_eq_ok] at h
  obtain ⟨d, hd, h⟩ := h
  cases d with
  | none => cases h
  | some d =>
    dsimp only at h
    rw [Res.bind_eq_ok] at h
    obtain ⟨x, hx, h⟩ := h
    cases x with
    | error e =>
      obtain ⟨c, fs'⟩ := e
      simp only [Res.ok.injEq, Prod.mk.injEq] at h
      rw [← h.1] at hcode
      exact absurd hcode (stageWin_error hx)
    | ok y =>
      obtain ⟨held, staged⟩ := y
      dsimp only at h
      rw [Res.bind_eq_ok] at h
      obtain ⟨⟨file, ok⟩, -, h⟩ := h
      obtain ⟨lib, fs1, h1, rfl⟩ := stageWin_ok hx
      dsimp only at h
      split at h
      · simp only [Res.ok.injEq, Prod.mk.injEq, Option.some.injEq] at h
        exact ⟨d, lib, staged, fs1, hd, h1, h.2.symm⟩
      · simp only [Res.ok.injEq, Prod.mk.injEq] at h
        rw [← h.1] at hcode
        simp at hcode

theorem heldOpen_flat : ∀ (l : Listing) (dir : List Bytes), (∀ e ∈ entries l, e.2 ≠ .dir) → heldOpen l dir = []
  | .done, _, _ => rfl
  | .file _ rest, dir, h => heldOpen_flat rest dir fun e he => h e (by simp [entries, he])
  | .dir n _ _, _, h => absurd rfl (h ([n], .dir) (by simp [entries]))
  | .locked _ rest, dir, h => heldOpen_flat rest dir fun e he => h e (by simp [entries, he])
  | .other _ rest, dir, h => heldOpen_flat rest dir fun e he => h e (by simp [entries, he])

theorem heldOpen_first : ∀ (l : Listing) (dir : List Bytes), FlatFirst l → ∀ p ∈ heldOpen l dir, p = dir
  | .done, _, _, _, hp => by simp [heldOpen] at hp
  | .file _ rest, dir, h, p, hp => heldOpen_first rest dir h p hp
  | .dir n sub _, dir, h, p, hp => by
    simp only [heldOpen, heldOpen_flat sub _ h, List.mem_singleton] at hp
    exact hp
  | .locked _ rest, dir, h, p, hp => heldOpen_first rest dir h p hp
  | .other _ rest, dir, h, p, hp => heldOpen_first rest dir h p hp

/-- **C91**, in full: however a run ends, no file is left of the temporary directory.  This is false
(`c91_full_not`). -/
def c91_full : Prop :=
  ∀ (m : MolEnv) (w : PackWinEnv) (rm : RemoveWinEnv) (args : List Bytes) (r : MolResult) (fs : Staged),
    packMolStaging m w rm args = .ok (r, some fs) → NoFileIn fs

/-- **C91, partial.** If a run succeeds and nothing resists removal, no file is left, even if the directory of the
library, which the search for the icon leaves open, stays.  The exception is a temporary directory that cannot be
listed.  Missing: runs that fail (`c91_failure_not`), failures of the removal, which are not reported
(`c91_ignored_not`), and icons if the directory that is listed first has directories in it (`c91_open_not`). -/
theorem c91_partial {m : MolEnv} {w : PackWinEnv} {rm : RemoveWinEnv} {args : List Bytes} {r : MolResult}
    {fs : Staged} (h : packMolStaging m w rm args = .ok (r, some fs)) (hcode : r.code = 0) (hrm : RemovableWin rm)
    (hflat : ∀ fs l, w.env.iconWalk fs = some l → FlatFirst l) : NoFileIn fs ∨ rm.walk fs = none := by
  obtain ⟨d, lib, staged, fs1, -, ht, rfl⟩ := packMolStaging_done h hcode
  cases hw : rm.walk staged with
  | none =>
    right
    unfold deleteStagingWin
    rw [hrm.found, hw]
    exact hw
  | some l =>
    left
    refine deleteStagingWin_files hrm.found hrm.remove hrm.rmdir hw (hrm.walk _ _ hw) ht ?_
    intro p hp
    unfold iconHandles at hp
    split at hp
    · rename_i hl
      rw [heldOpen_first _ _ (hflat _ _ hl) p hp]
      simp
    · simp at hp

/-- **C91, partial.** Without an icon, or if Windows removes open directories from their parent at once, nothing at all
is left. -/
theorem c91_gone_partial {m : MolEnv} {w : PackWinEnv} {rm : RemoveWinEnv} {args : List Bytes} {r : MolResult}
    {fs : Staged} (h : packMolStaging m w rm args = .ok (r, some fs)) (hcode : r.code = 0) (hrm : RemovableWin rm)
    {ps : List (Bytes × Bytes)} (hp : ArgPairs args ps) (hi : rm.stays = false ∨ ∀ v, (b!"icon", v) ∉ ps) :
    fs = [] ∨ rm.walk fs = none := by
  obtain ⟨d, lib, staged, fs1, hd, ht, rfl⟩ := packMolStaging_done h hcode
  cases hw : rm.walk staged with
  | none =>
    right
    unfold deleteStagingWin
    rw [hrm.found, hw]
    exact hw
  | some l =>
    left
    refine deleteStagingWin_all hrm.found hrm.remove hrm.rmdir hw (hrm.walk _ _ hw) ht.top ?_
    rintro p ⟨hs, hm⟩
    rcases hi with hi | hi
    · rw [hi] at hs
      simp at hs
    · unfold iconHandles at hm
      rw [packArguments_none hd hp (by decide) hi] at hm
      simp at hm

/-! ## Examples -/

/-- The temporary directory behind a run that succeeds, without the archive. -/
def leftBehind (w : PackWinEnv) (rm : RemoveWinEnv) (args : List Bytes) : Option Staged :=
  match packArguments w.env args with
  | .ok (some d) =>
    match stageWin w d with
    | .ok (.ok (held, fs)) => some (deleteStagingWin rm held fs).1
    | _ => none
  | _ => none

theorem leftBehind_eq {m : MolEnv} {w : PackWinEnv} {rm : RemoveWinEnv} {args : List Bytes} {file : Option Bytes}
    (hh : NoHelp args) (h : packMol m w args = .ok ⟨0, file⟩) :
    ∃ fs, packMolStaging m w rm args = .ok (⟨0, file⟩, some fs) ∧ leftBehind w rm args = some fs := by
  obtain ⟨left, hl⟩ := (c91_same m w rm args _).1 h
  rw [hl]
  unfold packMolStaging at hl
  unfold leftBehind
  split at hl
  · simp at hl
  rw [noHelp hh, if_neg (by decide)] at hl
  rw [Res.bind_eq_ok] at hl
  obtain ⟨d, hd, hl⟩ := hl
  rw [hd]
  cases d with
  | none => simp at hl
  | some d =>
    dsimp only at hl ⊢
    rw [Res.bind_eq_ok] at hl
    obtain ⟨x, hx, hl⟩ := hl
    rw [hx]
    cases x with
    | error e =>
      simp only [Res.ok.injEq, Prod.mk.injEq, MolResult.mk.injEq] at hl
      exact absurd hl.1.1 (stageWin_error hx)
    | ok y =>
      obtain ⟨held, staged⟩ := y
      dsimp only at hl ⊢
      rw [Res.bind_eq_ok] at hl
      obtain ⟨⟨f, ok⟩, -, hl⟩ := hl
      dsimp only at hl
      split at hl
      · simp only [Res.ok.injEq, Prod.mk.injEq] at hl
        exact ⟨_, by rw [← hl.2], rfl⟩
      · simp at hl

/-- Removal without trouble; directories that are open stay. -/
def winRemoval : RemoveWinEnv := ⟨true, honestWalk [], fun _ => true, fun _ => true, true⟩

theorem winRemoval_works : RemovableWin winRemoval := ⟨rfl, fun _ _ h => honestWalk_shows h, fun _ => rfl, fun _ => rfl⟩

/-- Without an icon, nothing is left. -/
example : ∃ file, packMolStaging (toyMol none true) (winMachine molLib) winRemoval (winCommand b!"True") =
    .ok (⟨0, file⟩, some []) := by
  obtain ⟨file, h⟩ := mol_made b!"True" (Or.inl rfl) none
  obtain ⟨fs, h1, h2⟩ := leftBehind_eq (rm := winRemoval) (by unfold NoHelp; decide) h
  have : leftBehind (winMachine molLib) winRemoval (winCommand b!"True") = some [] := by decide +kernel
  rw [this] at h2
  simp only [Option.some.injEq] at h2
  subst h2
  exact ⟨file, h1⟩

example (file : Option Bytes) (fs : Staged)
    (h : packMolStaging (toyMol none true) (winMachine molLib) winRemoval (winCommand b!"True") =
      .ok (⟨0, file⟩, some fs)) : fs = [] ∨ winRemoval.walk fs = none :=
  c91_gone_partial h rfl winRemoval_works (win_pairs b!"True" (by decide))
    (Or.inr (by intro v hv; simp [winPairs] at hv))

/-- With an icon, the directory of the library is left open, and stays with the temporary directory. -/
example : (leftBehind iconWin winRemoval (iconArgs b!"True")).map (·.map (·.1)) = some [[b!"Lib"], []] := by
  decide +kernel

instance decFlatFirst : ∀ l, Decidable (FlatFirst l)
  | .done => isTrue trivial
  | .file _ rest => decFlatFirst rest
  | .dir _ sub _ => inferInstanceAs (Decidable (∀ e ∈ entries sub, e.2 ≠ .dir))
  | .locked _ rest => decFlatFirst rest
  | .other _ rest => decFlatFirst rest

/-- The machine with the icon, for libraries in which the directory listed first is flat. -/
def flatWin : PackWinEnv :=
  { iconWin with env := { iconWin.env with iconWalk := fun fs => (filesFirst fs).filter fun l => decide (FlatFirst l) } }

/-- The icon is found on it, and no file is left of the temporary directory. -/
theorem flat_package : packToolWin flatWin (iconArgs b!"True") = .ok ⟨0, some iconPackage⟩ := rfl

theorem flat_walk (fs : Staged) (l : Listing) (h : flatWin.env.iconWalk fs = some l) : FlatFirst l := by
  have := Option.eq_some_of_filter_eq_some h
  have h2 : ((filesFirst fs).filter fun l => decide (FlatFirst l)) = some l := h
  rw [this] at h2
  simp only [Option.filter_some] at h2
  split at h2
  · rename_i hd
    simpa using hd
  · simp at h2

example (file : Option Bytes) (h : packMol (toyMol none true) flatWin (iconArgs b!"True") = .ok ⟨0, file⟩) :
    ∃ fs, packMolStaging (toyMol none true) flatWin winRemoval (iconArgs b!"True") = .ok (⟨0, file⟩, some fs) ∧
      NoFileIn fs := by
  obtain ⟨fs, h1, h2⟩ := leftBehind_eq (rm := winRemoval) (by unfold NoHelp; decide) h
  refine ⟨fs, h1, ?_⟩
  rcases c91_partial h1 rfl winRemoval_works flat_walk with h3 | h3
  · exact h3
  · have h4 : (leftBehind flatWin winRemoval (iconArgs b!"True")).map winRemoval.walk ≠ some none := by decide +kernel
    rw [h2] at h4
    exact absurd (congrArg some h3) h4

/-! ## Where the property fails -/

/-- A library with directories in directories. -/
def deepLib : Listing := .file b!"a.mo" (.file b!"i.png" (.dir b!"D" (.dir b!"E" (.dir b!"F" (.file b!"z.mo" .done)
  .done) .done) (.file b!"x.mo" .done)))

def deepWin : PackWinEnv :=
  { winMachine deepLib with env := { (winMachine deepLib).env with iconWalk := filesFirst } }

/-- Its package. -/
def deepPackage : Archive :=
  match packToolWin deepWin (iconArgs b!"True") with
  | .ok ⟨_, some a⟩ => a
  | _ => []

theorem deep_package : packToolWin deepWin (iconArgs b!"True") = .ok ⟨0, some deepPackage⟩ := rfl

theorem deep_made : ∃ file, packMol (toyMol none true) deepWin (iconArgs b!"True") = .ok ⟨0, file⟩ := by
  have : (∀ e ∈ deepPackage, ((relPath e.1).length ≤ 65535 ∧ 92 ∉ relPath e.1 ∧ 58 ∉ relPath e.1 ∧
      (relPath e.1).head? ≠ some 47 ∧ (relPath e.1).getLast? ≠ some 47) ∧ e.2.length < 2 ^ 32 - 1) ∧
      deepPackage.length < 100 ∧ packageRoom toyDeflate deepPackage < 10000 := by decide +kernel
  exact c89_made_partial toyInflate _ _ _ toy_restores rfl (fun _ => wellIo_well.symm) (Or.inl rfl) _ deep_package
    (fun e he => ⟨archiveName_of (this.1 e he).1, (this.1 e he).2⟩) (Nat.lt_trans this.2.1 (by decide))
    (Nat.lt_trans this.2.2 (by decide))

/-- Nothing fails, and the tool reports success.  But `D\E`, left open by the search for the icon, stays, so that `D`
cannot be removed, which ends the removal; a source is left. -/
theorem c91_open_not : ∃ (rm : RemoveWinEnv) (file : Option Bytes) (fs : Staged), RemovableWin rm ∧
    packMolStaging (toyMol none true) deepWin rm (iconArgs b!"True") = .ok (⟨0, file⟩, some fs) ∧
    fs.get [b!"Lib", b!"a.mo"] = some (.file b!"text of a.mo") := by
  obtain ⟨file, h⟩ := deep_made
  obtain ⟨fs, h1, h2⟩ := leftBehind_eq (rm := winRemoval) (by unfold NoHelp; decide) h
  refine ⟨winRemoval, file, fs, winRemoval_works, h1, ?_⟩
  have h3 : (leftBehind deepWin winRemoval (iconArgs b!"True")).map (·.get [b!"Lib", b!"a.mo"]) =
      some (some (.file b!"text of a.mo")) := by decide +kernel
  rw [h2] at h3
  simpa using h3

/-- A failure of the removal is not reported. -/
theorem c91_ignored_not : ∃ (rm : RemoveWinEnv) (file : Option Bytes) (fs : Staged),
    packMolStaging (toyMol none true) (winMachine molLib) rm (winCommand b!"True") = .ok (⟨0, file⟩, some fs) ∧
    fs.get [b!"Lib", b!"x.mo"] = some (.file b!"text of x.mo") := by
  obtain ⟨file, h⟩ := mol_made b!"True" (Or.inl rfl) none
  obtain ⟨fs, h1, h2⟩ := leftBehind_eq (rm := { winRemoval with removeOk := fun p => p != [b!"Lib", b!"x.mo"] })
    (by unfold NoHelp; decide) h
  refine ⟨_, file, fs, h1, ?_⟩
  have h3 : (leftBehind (winMachine molLib) { winRemoval with removeOk := fun p => p != [b!"Lib", b!"x.mo"] }
      (winCommand b!"True")).map (·.get [b!"Lib", b!"x.mo"]) = some (some (.file b!"text of x.mo")) := by
    decide +kernel
  rw [h2] at h3
  simpa using h3

/-- A run that fails, here because the icon is not found, leaves the sources. -/
theorem c91_failure_not : ∃ (r : MolResult) (fs : Staged),
    packMolStaging (toyMol none true) (ntfsMachine winIconLib) winRemoval (iconArgs b!"True") = .ok (r, some fs) ∧
    r.code = 4 ∧ fs.get [b!"Lib", b!"x.mo"] = some (.file b!"text of x.mo") :=
  ⟨_, _, rfl, rfl, by decide +kernel⟩

theorem c91_full_not : ¬ c91_full := by
  intro h
  obtain ⟨r, fs, h1, -, h2⟩ := c91_failure_not
  exact h _ _ _ _ _ _ h1 _ _ h2

end Semla.Props
