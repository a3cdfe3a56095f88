import Verif.Lemmas.PackClean
import Verif.Lemmas.PackWin
import Verif.Lemmas.MolFile
import Verif.Model.PackCleanWin
import Verif.Spec.PackTree

/-!
# Lemmas about the temporary directory on Windows
-/

namespace Semla

open Spec

/-! ## The run -/

theorem stageWin_same (w : PackWinEnv) (d : ArgData) :
    stageLibraryWin w d = (stageWin w d).bind fun x =>
      match x with
      | .error e => .ok (.error e.1)
      | .ok y => .ok (.ok y.2) := by
  unfold stageLibraryWin stageWin
  cases w.env.tempDir with
  | none => rfl
  | some t =>
    dsimp only
    simp only [bind]
    cases h1 : copyFolderStructureWin w (afterLastSep ((getValueOf d b!"librarypath").getD [])) with
    | ub u => rfl
    | ok o1 =>
      cases o1 with
      | none => rfl
      | some fs1 =>
        simp only [Res.bind]
        cases h2 : createLibraryFolderWin w (afterLastSep ((getValueOf d b!"librarypath").getD [])) fs1 with
        | none => rfl
        | some fs2 =>
          dsimp only
          cases h3 : prepareIconFileWin w d t (afterLastSep ((getValueOf d b!"librarypath").getD [])) fs2 with
          | ub u => rfl
          | ok o3 =>
            cases o3 with
            | none => rfl
            | some icon =>
              dsimp only
              cases h4 : copyLVEWin w.env d (afterLastSep ((getValueOf d b!"librarypath").getD [])) fs2 with
              | none => rfl
              | some x =>
                obtain ⟨fs4, lves⟩ := x
                dsimp only
                cases h5 : copyExtraFilesWin w (afterLastSep ((getValueOf d b!"librarypath").getD [])) fs4 with
                | ub u => rfl
                | ok o5 =>
                  cases o5 with
                  | none => rfl
                  | some fs5 =>
                    dsimp only
                    cases h6 : writeManifestWin w.env d (afterLastSep ((getValueOf d b!"librarypath").getD []))
                        lves icon fs5 with
                    | ub u => rfl
                    | ok fs6 =>
                      dsimp only
                      cases h7 : encryptFilesWin w.env d t
                          (afterLastSep ((getValueOf d b!"librarypath").getD [])) fs6 with
                      | ub u => rfl
                      | ok o7 => cases o7 <;> rfl

theorem packMolStaging_result (m : MolEnv) (w : PackWinEnv) (rm : RemoveWinEnv) (args : List Bytes) :
    (packMolStaging m w rm args).bind (fun x => .ok x.1) = packMol m w args := by
  unfold packMolStaging packMol
  split
  · rfl
  split
  · rfl
  simp only [bind]
  cases packArguments w.env args with
  | ub u => rfl
  | ok o =>
    cases o with
    | none => rfl
    | some d =>
      simp only [Res.bind]
      rw [stageWin_same w d]
      cases stageWin w d with
      | ub u => rfl
      | ok x =>
        cases x with
        | error e => rfl
        | ok y =>
          obtain ⟨held, fs⟩ := y
          simp only [Res.bind]
          cases createMol m w.env d fs with
          | ub u => rfl
          | ok r =>
            obtain ⟨file, ok⟩ := r
            cases ok <;> rfl

/-! ## The temporary directory -/

/-- It is there, with the directory of the library and nothing beside it. -/
structure OneTop (lib : Bytes) (fs : Staged) : Prop where
  top : fs.get [] = some .dir
  library : fs.get [lib] = some .dir
  only : ∀ p ∈ fs.map (·.1), p = [] ∨ [lib] <+: p

theorem OneTop.set {lib : Bytes} {fs : Staged} (h : OneTop lib fs) {q : List Bytes} (hq : [lib] <+: q)
    (hl : 2 ≤ q.length) (n : Node) : OneTop lib (fs.set q n) where
  top := by
    rw [Staged.get_set, if_neg]
    · exact h.top
    · rintro rfl
      simp at hl
  library := by
    rw [Staged.get_set, if_neg]
    · exact h.library
    · rintro rfl
      simp at hl
  only := by
    intro p hp
    simp only [Staged.set, List.map_cons, List.mem_cons] at hp
    rcases hp with rfl | hp
    · exact Or.inr hq
    · exact h.only p hp

theorem samePath_length : ∀ {p q : List Bytes}, samePath p q = true → p.length = q.length
  | [], [], _ => rfl
  | [], _ :: _, h => by simp [samePath] at h
  | _ :: _, [], h => by simp [samePath] at h
  | a :: p, b :: q, h => by
    simp only [samePath, Bool.and_eq_true] at h
    simp [samePath_length h.2]

theorem OneTop.spelled {lib : Bytes} {fs : Staged} (h : OneTop lib fs) {p : List Bytes} (hp : [lib] <+: p)
    (hl : 2 ≤ p.length) : [lib] <+: fs.spelled p ∧ 2 ≤ (fs.spelled p).length := by
  unfold Staged.spelled
  cases hf : fs.find? (samePath ·.1 p) with
  | none => exact ⟨hp, hl⟩
  | some e =>
    have h1 := samePath_length (p := e.1) (q := p) (by simpa using List.find?_some hf)
    have h2 := h.only e.1 (List.mem_map.2 ⟨e, List.mem_of_find?_eq_some hf, rfl⟩)
    simp only [Option.map_some, Option.getD_some]
    rcases h2 with h2 | h2
    · rw [h2] at h1
      simp only [List.length_nil] at h1
      omega
    · exact ⟨h2, by omega⟩

theorem OneTop.write {lib : Bytes} {fs fs' : Staged} (h : OneTop lib fs) {p : List Bytes} (hp : [lib] <+: p)
    (hl : 2 ≤ p.length) {c : Bytes} (hw : fs.wwrite p c = some fs') : OneTop lib fs' := by
  unfold Staged.wwrite at hw
  split at hw
  · simp only [Option.some.injEq] at hw
    subst hw
    obtain ⟨h1, h2⟩ := h.spelled hp hl
    exact h.set h1 h2 _
  · simp at hw

theorem OneTop.mkdir {lib : Bytes} {fs fs' : Staged} (h : OneTop lib fs) {p : List Bytes} (hp : [lib] <+: p)
    (hl : 2 ≤ p.length) (hw : fs.wmkdir p = some fs') : OneTop lib fs' := by
  unfold Staged.wmkdir at hw
  split at hw
  · simp only [Option.some.injEq] at hw
    subst hw
    exact h.set hp hl _
  · simp at hw

theorem below_append {lib : Bytes} {dst : List Bytes} (hd : [lib] <+: dst) (n : Bytes) :
    [lib] <+: dst ++ [n] ∧ 2 ≤ (dst ++ [n]).length := by
  obtain ⟨t, rfl⟩ := hd
  exact ⟨⟨t ++ [n], by simp⟩, by simp⟩

theorem OneTop.copy {lib : Bytes} {fetch : List Bytes → Fetched} {mkdirOk : List Bytes → Bool} (l : Listing) :
    ∀ (src dst : List Bytes) (fs : Staged) (r : Staged × Bool), [lib] <+: dst → OneTop lib fs →
      copyEntriesWin fetch mkdirOk l src dst fs = .ok r → OneTop lib r.1 := by
  have hmk : ∀ (b : Bool) (dst : List Bytes) (n : Bytes) (fs : Staged), [lib] <+: dst → OneTop lib fs →
      OneTop lib (if b = true then (fs.wmkdir (dst ++ [n])).getD fs else fs) := by
    intro b dst n fs hd h
    split
    · cases hm : fs.wmkdir (dst ++ [n]) with
      | none => exact h
      | some fs' => exact h.mkdir (below_append hd n).1 (below_append hd n).2 hm
    · exact h
  induction l with
  | done =>
    intro src dst fs r _ h hr
    simp only [copyEntriesWin, Res.ok.injEq] at hr
    subst hr
    exact h
  | file n rest ih =>
    intro src dst fs r hd h hr
    unfold copyEntriesWin at hr
    split at hr
    · exact ih _ _ _ _ hd h hr
    split at hr
    · simp only [Res.ok.injEq] at hr
      subst hr
      exact h
    · cases hr
    · split at hr
      · cases hr
      · rename_i hw
        exact ih _ _ _ _ hd (h.write (below_append hd n).1 (below_append hd n).2 hw) hr
  | dir n sub rest ihs ih =>
    intro src dst fs r hd h hr
    unfold copyEntriesWin at hr
    split at hr
    · exact ih _ _ _ _ hd h hr
    · rw [Res.bind_eq_ok] at hr
      obtain ⟨⟨fs1, ok1⟩, h1, hr⟩ := hr
      exact ih _ _ _ _ hd (ihs _ _ _ _ (below_append hd n).1 (hmk _ _ _ _ hd h) h1) hr
  | locked n rest ih =>
    intro src dst fs r hd h hr
    unfold copyEntriesWin at hr
    split at hr
    · exact ih _ _ _ _ hd h hr
    · exact ih _ _ _ _ hd (hmk _ _ _ _ hd h) hr
  | other n rest ih =>
    intro src dst fs r hd h hr
    unfold copyEntriesWin at hr
    exact ih _ _ _ _ hd h hr

theorem OneTop.copyDirectory {lib : Bytes} {fetch : List Bytes → Fetched} {mkdirOk : List Bytes → Bool}
    {l : Option Listing} {dst : List Bytes} {fs fs' : Staged} (hd : [lib] <+: dst) (h : OneTop lib fs)
    (hr : copyDirectoryWin fetch mkdirOk l dst fs = .ok (some fs')) : OneTop lib fs' := by
  unfold copyDirectoryWin at hr
  cases l with
  | none => simp at hr
  | some l =>
    dsimp only at hr
    rw [Res.bind_eq_ok] at hr
    obtain ⟨⟨fs1, ok1⟩, h1, hr⟩ := hr
    have := OneTop.copy l _ _ _ _ hd h h1
    cases ok1 with
    | false => simp at hr
    | true =>
      simp only [if_true, Res.ok.injEq, Option.some.injEq] at hr
      subst hr
      exact this

theorem OneTop.copyFolder {lib : Bytes} {w : PackWinEnv} {fs : Staged}
    (hr : copyFolderStructureWin w lib = .ok (some fs)) : OneTop lib fs := by
  unfold copyFolderStructureWin at hr
  split at hr
  · simp at hr
  split at hr
  · simp at hr
  · rename_i fs0 h0
    refine OneTop.copyDirectory (List.prefix_refl _) ?_ hr
    unfold Staged.wmkdir at h0
    split at h0
    · simp only [Option.some.injEq] at h0
      subst h0
      refine ⟨?_, ?_, ?_⟩
      · rw [Staged.get_set, if_neg (by simp)]
        rfl
      · rw [Staged.get_set, if_pos rfl]
      · intro p hp
        simp only [Staged.set, Staged.empty, List.map_cons, List.map_nil, List.mem_cons, List.not_mem_nil,
          or_false] at hp
        rcases hp with rfl | rfl
        · exact Or.inr (List.prefix_refl _)
        · exact Or.inl rfl
    · simp at h0

theorem OneTop.lves {lib : Bytes} {env : PackEnv} (ns : List Bytes) : ∀ (fs fs' : Staged) (ls : List Bytes),
    OneTop lib fs → copyLvesWin env lib ns fs = some (fs', ls) → OneTop lib fs' := by
  induction ns with
  | nil =>
    intro fs fs' ls h hr
    simp only [copyLvesWin, Option.some.injEq, Prod.mk.injEq] at hr
    rw [← hr.1]
    exact h
  | cons n ns ih =>
    intro fs fs' ls h hr
    unfold copyLvesWin at hr
    split at hr
    · split at hr
      · split at hr
        · simp at hr
        · rename_i fs1 hw
          rw [Option.map_eq_some_iff] at hr
          obtain ⟨⟨a, b⟩, h1, h2⟩ := hr
          simp only [Prod.mk.injEq] at h2
          rw [← h2.1]
          exact ih _ _ _ (h.write ⟨_, rfl⟩ (by simp) hw) h1
      · simp at hr
    · exact ih _ _ _ h hr

theorem OneTop.encryptOne {lib : Bytes} {env : PackEnv} {e : CrEnv} {p : List Bytes} {s : EncState}
    {r : EncState × Bool} (hp : p ≠ []) (h : OneTop lib s.fs) (hr : encryptOneWin env e lib p s = .ok r) :
    OneTop lib r.1.fs := by
  unfold encryptOneWin at hr
  split at hr
  · cases hr
  · dsimp only at hr
    split at hr
    · cases hr
    · rw [Res.bind_eq_ok] at hr
      obtain ⟨⟨t, bytes, ok⟩, -, hr⟩ := hr
      simp only [Res.ok.injEq] at hr
      subst hr
      have hl : 2 ≤ (lib :: encryptedPath p).length := by
        cases p with
        | nil => exact absurd rfl hp
        | cons n p => 
          have : (encryptedPath (n :: p)) ≠ [] := by
            unfold encryptedPath
            simp
          cases hx : encryptedPath (n :: p) with
          | nil => exact absurd hx this
          | cons a b => simp
      obtain ⟨h1, h2⟩ := h.spelled (p := lib :: encryptedPath p) ⟨_, rfl⟩ hl
      exact h.set h1 h2 _

theorem OneTop.encryptPackage {lib : Bytes} {env : PackEnv} {e : CrEnv} {dir : List Bytes} {s : EncState}
    {r : EncState × Bool} (h : OneTop lib s.fs) (hr : encryptPackageWin env e lib dir s = .ok r) :
    OneTop lib r.1.fs := by
  unfold encryptPackageWin at hr
  split at hr
  · simp only [Res.ok.injEq] at hr
    subst hr
    exact h
  · exact h.encryptOne (by simp) hr

theorem OneTop.encryptEntries {lib : Bytes} {env : PackEnv} {e : CrEnv} (l : Listing) :
    ∀ (dir : List Bytes) (s : EncState) (r : EncState × Bool), OneTop lib s.fs →
      encryptEntriesWin env e lib l dir s = .ok r → OneTop lib r.1.fs := by
  induction l with
  | done =>
    intro dir s r h hr
    simp only [encryptEntriesWin, Res.ok.injEq] at hr
    subst hr
    exact h
  | file n rest ih =>
    intro dir s r h hr
    unfold encryptEntriesWin at hr
    split at hr
    · exact ih _ _ _ h hr
    split at hr
    · rw [Res.bind_eq_ok] at hr
      obtain ⟨⟨s1, ok⟩, h1, hr⟩ := hr
      have h2 := h.encryptOne (by simp) h1
      dsimp only at hr
      split at hr
      · exact ih _ _ _ h2 hr
      · simp only [Res.ok.injEq] at hr
        subst hr
        exact h2
    · exact ih _ _ _ h hr
  | dir n sub rest ihs ih =>
    intro dir s r h hr
    unfold encryptEntriesWin at hr
    split at hr
    · exact ih _ _ _ h hr
    · rw [Res.bind_eq_ok] at hr
      obtain ⟨⟨s1, ok⟩, h1, hr⟩ := hr
      have h2 := h.encryptPackage h1
      dsimp only at hr
      split at hr
      · rw [Res.bind_eq_ok] at hr
        obtain ⟨⟨s3, ok3⟩, h3, hr⟩ := hr
        have h4 := ihs _ _ _ h2 h3
        dsimp only at hr
        split at hr
        · exact ih _ _ _ h4 hr
        · simp only [Res.ok.injEq] at hr
          subst hr
          exact h4
      · simp only [Res.ok.injEq] at hr
        subst hr
        exact h2
  | locked n rest ih =>
    intro dir s r h hr
    unfold encryptEntriesWin at hr
    split at hr
    · exact ih _ _ _ h hr
    · simp only [Res.ok.injEq] at hr
      subst hr
      exact h
  | other n rest ih =>
    intro dir s r h hr
    unfold encryptEntriesWin at hr
    exact ih _ _ _ h hr

theorem OneTop.encryptFiles {lib tempDir : Bytes} {env : PackEnv} {d : ArgData} {fs fs' : Staged} (h : OneTop lib fs)
    (hr : encryptFilesWin env d tempDir lib fs = .ok (some fs')) : OneTop lib fs' := by
  unfold encryptFilesWin at hr
  split at hr
  · rw [Res.bind_eq_ok] at hr
    obtain ⟨⟨s, ok⟩, h1, hr⟩ := hr
    have h2 : OneTop lib s.fs := by
      unfold encryptDirectoryWin at h1
      split at h1
      · simp only [Res.ok.injEq, Prod.mk.injEq] at h1
        rw [← h1.1]
        exact h
      · rw [Res.bind_eq_ok] at h1
        obtain ⟨⟨s1, ok1⟩, h2, h1⟩ := h1
        have h3 := OneTop.encryptPackage (s := ⟨[], fs, []⟩) h h2
        dsimp only at h1
        split at h1
        · exact OneTop.encryptEntries _ _ _ _ h3 h1
        · simp only [Res.ok.injEq, Prod.mk.injEq] at h1
          rw [← h1.1]
          exact h3
    dsimp only at hr
    split at hr
    · simp only [Res.ok.injEq, Option.some.injEq] at hr
      subst hr
      exact h2
    · simp at hr
  · simp only [Res.ok.injEq, Option.some.injEq] at hr
    subst hr
    exact h

/-- What is staged when the archive is to be made. -/
theorem stageWin_ok {w : PackWinEnv} {d : ArgData} {held : List (List Bytes)} {fs : Staged}
    (h : stageWin w d = .ok (.ok (held, fs))) :
    ∃ lib fs1, OneTop lib fs ∧ held = iconHandles w d lib fs1 := by
  unfold stageWin at h
  split at h
  · cases h
  dsimp only at h
  generalize afterLastSep ((getValueOf d b!"librarypath").getD []) = lib at h
  rw [Res.bind_eq_ok] at h
  obtain ⟨r1, h1, h⟩ := h
  cases r1 with
  | none => cases h
  | some fs1 =>
    have t1 := OneTop.copyFolder h1
    dsimp only at h
    split at h
    · cases h
    rename_i fs2 h2
    have t2 : OneTop lib fs2 := by
      unfold createLibraryFolderWin at h2
      split at h2
      · exact t1.mkdir ⟨_, rfl⟩ (by simp) h2
      · simp at h2
    rw [Res.bind_eq_ok] at h
    obtain ⟨r2, -, h⟩ := h
    cases r2 with
    | none => cases h
    | some icon =>
      dsimp only at h
      split at h
      · cases h
      rename_i fs3 lves h3
      have t3 : OneTop lib fs3 := by
        unfold copyLVEWin at h3
        split at h3
        · split at h3
          · exact OneTop.lves _ _ _ _ t2 h3
          · simp at h3
        · simp only [Option.some.injEq, Prod.mk.injEq] at h3
          rw [← h3.1]
          exact t2
      rw [Res.bind_eq_ok] at h
      obtain ⟨r4, h4, h⟩ := h
      cases r4 with
      | none => cases h
      | some fs4 =>
        have t4 : OneTop lib fs4 := by
          unfold copyExtraFilesWin at h4
          split at h4
          · split at h4
            · simp only [Res.ok.injEq, Option.some.injEq] at h4
              rw [← h4]
              exact t3
            · exact OneTop.copyDirectory ⟨_, rfl⟩ t3 h4
          · simp at h4
        dsimp only at h
        rw [Res.bind_eq_ok] at h
        obtain ⟨fs5, h5, h⟩ := h
        have t5 : OneTop lib fs5 := by
          unfold writeManifestWin at h5
          dsimp only at h5
          split at h5
          · cases h5
          · rename_i fsw hw
            split at hw
            · have tw := t4.write ⟨_, rfl⟩ (by simp) hw
              rw [Res.bind_eq_ok] at h5
              obtain ⟨doc, -, h5⟩ := h5
              simp only [Res.ok.injEq] at h5
              subst h5
              obtain ⟨h6, h7⟩ := tw.spelled (p := [lib, b!".library", b!"manifest.xml"]) ⟨_, rfl⟩ (by simp)
              exact tw.set h6 h7 _
            · simp at hw
        rw [Res.bind_eq_ok] at h
        obtain ⟨r6, h6, h⟩ := h
        cases r6 with
        | none => cases h
        | some fs6 =>
          simp only [Res.ok.injEq, Except.ok.injEq, Prod.mk.injEq] at h
          obtain ⟨rfl, rfl⟩ := h
          exact ⟨lib, fs2, t5.encryptFiles h6, rfl⟩

theorem stageWin_error {w : PackWinEnv} {d : ArgData} {c : Nat} {fs : Staged}
    (h : stageWin w d = .ok (.error (c, fs))) : c ≠ 0 := by
  have := stageWin_same w d
  rw [h] at this
  exact stageLibraryWin_error this

/-! ## The removal -/

/-- Removal on Linux without trouble. -/
def smoothRemoval (walk : Staged → Option Listing) : RemoveEnv := ⟨true, walk, fun _ => true, fun _ => true, fun _ => true⟩

/-- Where no directory stays because it is open, the removal is that on Linux. -/
theorem removeEntriesWin_eq {rm : RemoveWinEnv} {held : List (List Bytes)} (walk : Staged → Option Listing) (hu : ∀ p, rm.removeOk p = true)
    (hr : ∀ p, rm.rmdirOk p = true) (l : Listing) : ∀ (dir : List Bytes) (fs : Staged),
    (∀ e ∈ entries l, e.2 = .file ∨ e.2 = .dir) →
    (∀ p, dir.length < p.length → ¬ (rm.stays = true ∧ p ∈ held)) →
    removeEntriesWin rm held l dir fs = removeEntries (smoothRemoval walk) l dir fs := by
  induction l with
  | done => intros; rfl
  | file n rest ih =>
    intro dir fs hk hh
    unfold removeEntriesWin removeEntries RemoveWinEnv.remove
    rw [hu]
    simp only [smoothRemoval, not_true_eq_false, if_false, if_true]
    cases fs.unlink (dir ++ [n]) with
    | none => rfl
    | some fs => exact ih _ _ (fun e he => hk e (by simp [entries, he])) hh
  | dir n sub rest ihs ih =>
    intro dir fs hk hh
    unfold removeEntriesWin removeEntries
    rw [ihs (dir ++ [n]) fs (fun e he => hk (n :: e.1, e.2) (by
      simp only [entries, List.cons_append, List.mem_cons, List.mem_append, List.mem_map]
      exact Or.inr (Or.inl ⟨e, he, rfl⟩))) (fun p hp => hh p (by simp at hp; omega))]
    have hs : (smoothRemoval walk).statOk (dir ++ [n]) = true := rfl
    simp only [hs, not_true_eq_false, if_false]
    rcases removeEntries (smoothRemoval walk) sub (dir ++ [n]) fs with ⟨fs1, ok1⟩
    dsimp only
    cases ok1 with
    | false => rfl
    | true =>
      simp only [not_true_eq_false, if_false]
      have : rm.rmdir held fs1 (dir ++ [n]) = (smoothRemoval walk).rmdir fs1 (dir ++ [n]) := by
        unfold RemoveWinEnv.rmdir RemoveEnv.rmdir
        rw [hr]
        have hs : (smoothRemoval walk).rmdirOk (dir ++ [n]) = true := rfl
        rw [hs]
        simp only [if_true]
        cases fs1.rmdir (dir ++ [n]) with
        | none => rfl
        | some fs2 => simp only [if_neg (hh (dir ++ [n]) (by simp))]
      rw [this]
      rcases (smoothRemoval walk).rmdir fs1 (dir ++ [n]) with ⟨fs2, ok2⟩
      dsimp only
      cases ok2 with
      | false => rfl
      | true =>
        simp only [if_true]
        exact ih _ _ (fun e he => hk e (by simp [entries, he])) hh
  | locked n rest ih =>
    intro dir fs hk hh
    have := hk ([n], .locked) (by simp [entries])
    simp at this
  | other n rest ih =>
    intro dir fs hk hh
    have := hk ([n], .other) (by simp [entries])
    simp at this

theorem shows_kinds {l : Listing} {base : List Bytes} {fs : Staged} (h : Shows l base fs) :
    ∀ e ∈ entries l, e.2 = .file ∨ e.2 = .dir := by
  intro e he
  have := h.2.1 e he
  cases hg : fs.get (base ++ e.1) with
  | none => simp [hg] at this
  | some x =>
    rw [hg] at this
    simp only [Option.map_some, Option.some.injEq] at this
    rw [← this]
    cases x <;> simp [kindOf]

theorem get_key {fs : Staged} {p : List Bytes} {n : Node} (h : fs.get p = some n) : p ∈ fs.map (·.1) := by
  unfold Staged.get at h
  rw [Option.map_eq_some_iff] at h
  obtain ⟨e, he, -⟩ := h
  have h1 := List.find?_some he
  simp only [decide_eq_true_eq] at h1
  exact List.mem_map.2 ⟨e, List.mem_of_find?_eq_some he, h1⟩

/-- The listing of the temporary directory has one entry. -/
theorem OneTop.listing {lib : Bytes} {fs : Staged} (h : OneTop lib fs) {l : Listing} (hl : Shows l [] fs) :
    ∃ sub, l = .dir lib sub .done := by
  obtain ⟨h1, h2, h3⟩ := hl
  have key : ∀ n k, ([n], k) ∈ entries l → n = lib ∧ k = .dir := by
    intro n k hn
    have hk := h2 _ hn
    simp only [List.nil_append] at hk
    cases hg : fs.get [n] with
    | none => simp [hg] at hk
    | some x =>
      have : n = lib := by
        rcases h.only [n] (get_key hg) with h4 | ⟨t, h4⟩
        · simp at h4
        · simp only [List.singleton_append, List.cons.injEq] at h4
          exact h4.1.symm
      subst this
      rw [h.library] at hk
      simp only [Option.map_some, kindOf, Option.some.injEq] at hk
      exact ⟨rfl, hk.symm⟩
  cases l with
  | done =>
    have := h3 [lib] (get_key h.library) (by simp) (by simp)
    simp [entries] at this
  | file n rest => exact absurd (key n .file (by simp [entries])).2 (by simp)
  | locked n rest => exact absurd (key n .locked (by simp [entries])).2 (by simp)
  | other n rest => exact absurd (key n .other (by simp [entries])).2 (by simp)
  | dir n sub rest =>
    obtain ⟨rfl, -⟩ := key n .dir (by simp [entries])
    have hone : ∀ m k, ([m], k) ∈ entries rest → False := by
      intro m k hm
      obtain ⟨rfl, -⟩ := key m k (by simp [entries, hm])
      unfold NoRepeats at h1
      simp only [entries, List.map_cons, List.cons_append, List.nodup_cons, List.map_append, List.mem_append] at h1
      exact h1.1 (Or.inr (List.mem_map.2 ⟨_, hm, rfl⟩))
    cases rest with
    | done => exact ⟨sub, rfl⟩
    | file m r => exact (hone m .file (by simp [entries])).elim
    | locked m r => exact (hone m .locked (by simp [entries])).elim
    | other m r => exact (hone m .other (by simp [entries])).elim
    | dir m s r => exact (hone m .dir (by simp [entries])).elim

/-- There is no file. -/
theorem noFile_rmdir {fs : Staged} (h : ∀ p c, fs.get p ≠ some (.file c)) (rm : RemoveWinEnv)
    (held : List (List Bytes)) (q : List Bytes) : ∀ p c, (rm.rmdir held fs q).1.get p ≠ some (.file c) := by
  intro p c
  unfold RemoveWinEnv.rmdir
  split
  · rename_i fs' hf
    dsimp only
    split
    · exact h p c
    · split at hf
      · unfold Staged.rmdir at hf
        split at hf
        · simp only [Option.some.injEq] at hf
          subst hf
          unfold Staged.remove
          have := Staged.get_filter fs (fun x => decide (x ≠ q)) p
          rw [this]
          split
          · exact h p c
          · simp
        · simp at hf
      · simp at hf
  · exact h p c

/-- Nothing is left. -/
theorem deleteStagingWin_all {rm : RemoveWinEnv} {held : List (List Bytes)} (hf : rm.found = true)
    (hu : ∀ p, rm.removeOk p = true) (hr : ∀ p, rm.rmdirOk p = true) {fs : Staged} {l : Listing}
    (hw : rm.walk fs = some l) (hl : Shows l [] fs) (hroot : fs.get [] = some .dir)
    (hh : ∀ p, ¬ (rm.stays = true ∧ p ∈ held)) : (deleteStagingWin rm held fs).1 = [] := by
  have hall := deleteStaging_all (rm := smoothRemoval rm.walk) rfl (fun _ => rfl) (fun _ => rfl) (fun _ => rfl) hw hl
    hroot
  have hfd : (smoothRemoval rm.walk).found = true := rfl
  have hwd : (smoothRemoval rm.walk).walk fs = some l := hw
  unfold deleteStaging at hall
  unfold deleteStagingWin
  rw [hf, hw]
  simp only [hwd, hfd, not_true_eq_false, if_false] at hall ⊢
  rw [removeEntriesWin_eq rm.walk hu hr l [] fs (shows_kinds hl) (fun p _ => hh p)]
  generalize removeEntries (smoothRemoval rm.walk) l [] fs = x at hall
  obtain ⟨fs1, ok1⟩ := x
  dsimp only at hall ⊢
  cases ok1 with
  | false => simp at hall
  | true =>
    simp only [if_true] at hall ⊢
    unfold RemoveEnv.rmdir at hall
    unfold RemoveWinEnv.rmdir
    rw [hr]
    have hs : (smoothRemoval rm.walk).rmdirOk [] = true := rfl
    rw [hs] at hall
    simp only [if_true] at hall ⊢
    cases hy : fs1.rmdir [] with
    | none => simp [hy] at hall
    | some fs2 =>
      simp only [hy, Prod.mk.injEq, and_true] at hall
      simp only [if_neg (hh [])]
      exact hall

/-- No file is left. -/
theorem deleteStagingWin_files {rm : RemoveWinEnv} {held : List (List Bytes)} {lib : Bytes} (hf : rm.found = true)
    (hu : ∀ p, rm.removeOk p = true) (hr : ∀ p, rm.rmdirOk p = true) {fs : Staged} {l : Listing}
    (hw : rm.walk fs = some l) (hl : Shows l [] fs) (ht : OneTop lib fs) (hh : ∀ p ∈ held, p.length ≤ 1) :
    ∀ p c, (deleteStagingWin rm held fs).1.get p ≠ some (.file c) := by
  obtain ⟨sub, rfl⟩ := ht.listing hl
  obtain ⟨h1, h2, h3⟩ := hl
  have hentry : ∀ e ∈ entries sub, (lib :: e.1, e.2) ∈ entries (.dir lib sub .done) := by
    intro e he
    simp only [entries, List.cons_append, List.mem_cons, List.mem_append, List.mem_map]
    exact Or.inr (Or.inl ⟨e, he, rfl⟩)
  have hsub := removeEntries_all (rm := smoothRemoval rm.walk) (fun _ => rfl) (fun _ => rfl) (fun _ => rfl) sub [lib] fs
    (by
      unfold NoRepeats at h1 ⊢
      simp only [entries, List.map_cons, List.append_nil, List.nodup_cons, List.map_map] at h1
      have h4 := h1.2
      have : (List.map ((fun e : List Bytes × Kind => e.1) ∘ fun e => (lib :: e.1, e.2)) (entries sub)) =
          ((entries sub).map (·.1)).map (lib :: ·) := by simp [List.map_map, Function.comp_def]
      rw [this] at h4
      exact List.Nodup.of_map _ h4)
    (fun e he => h2 _ (hentry e he))
    (by
      intro q hq e he hp
      have hne : q ≠ [] := by
        rintro rfl
        simp at hp
      have h4 := h3 q hq (by simp) hne
      simp only [List.length_nil, List.drop_zero, entries, List.append_nil, List.map_cons, List.mem_cons,
        List.map_map] at h4
      rcases h4 with rfl | h4
      · obtain ⟨t, ht⟩ := hp
        simp only [List.cons_append, List.nil_append, List.cons.injEq, List.append_eq_nil_iff, true_and] at ht
        exact absurd ht.1 (entries_ne_nil sub e he)
      · obtain ⟨x, hx, rfl⟩ := List.mem_map.1 h4
        exact List.mem_map.2 ⟨x, hx, rfl⟩)
  have hno : ∀ p c, Staged.get (fs.filter fun x => decide (x.1 ∉ (entries sub).map ([lib] ++ ·.1))) p ≠
      some (.file c) := by
    intro p c
    rw [Staged.get_filter fs (fun q => decide (q ∉ (entries sub).map ([lib] ++ ·.1))) p]
    split
    · rename_i hp
      simp only [decide_eq_true_eq] at hp
      intro hg
      have hne : p ≠ [] := by
        rintro rfl
        rw [ht.top] at hg
        simp at hg
      have h4 := h3 p (get_key hg) (by simp) hne
      simp only [List.length_nil, List.drop_zero, entries, List.append_nil, List.map_cons, List.mem_cons,
        List.map_map] at h4
      rcases h4 with rfl | h4
      · rw [ht.library] at hg
        simp at hg
      · obtain ⟨x, hx, rfl⟩ := List.mem_map.1 h4
        exact hp (List.mem_map.2 ⟨x, hx, rfl⟩)
    · simp
  have hrun : removeEntriesWin rm held sub [lib] fs =
      (fs.filter fun x => decide (x.1 ∉ (entries sub).map ([lib] ++ ·.1)), true) := by
    rw [removeEntriesWin_eq rm.walk hu hr sub [lib] fs (fun e he => shows_kinds (l := .dir lib sub .done) ⟨h1, h2, h3⟩ (lib :: e.1, e.2) (hentry e he)), hsub]
    rintro p hp ⟨-, hm⟩
    have := hh p hm
    simp only [List.length_cons, List.length_nil] at hp
    omega
  unfold deleteStagingWin
  rw [hf, hw]
  simp only [not_true_eq_false, if_false]
  unfold removeEntriesWin
  simp only [List.nil_append, hrun, not_true_eq_false, if_false]
  generalize fs.filter (fun x => decide (x.1 ∉ (entries sub).map ([lib] ++ ·.1))) = fs1 at hno
  have hno2 := noFile_rmdir hno rm held [lib]
  rcases hx : rm.rmdir held fs1 [lib] with ⟨fs2, ok2⟩
  rw [hx] at hno2
  dsimp only at hno2 ⊢
  cases ok2 with
  | false => exact hno2
  | true =>
    simp only [if_true, removeEntriesWin]
    exact noFile_rmdir hno2 rm held []

end Semla
