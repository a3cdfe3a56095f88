import Verif.Model.PackClean
import Verif.Lemmas.PackFail

/-! # Lemmas: removing the temporary directory -/

namespace Semla

open Spec

theorem Res.bind_bind {α β γ : Type} (x : Res α) (f : α → Res β) (g : β → Res γ) :
    ((x >>= f) >>= g) = (x >>= fun a => f a >>= g) := by
  cases x <;> rfl

theorem packStaging_result (env : PackEnv) (rm : RemoveEnv) (d : ArgData) :
    (do let x ← packStaging env rm d; .ok x.1) = packLibrary env d := by
  unfold packStaging packLibrary
  cases env.tempDir with
  | none => rfl
  | some tempDir =>
    dsimp only
    rw [Res.bind_bind]
    congr 1
    funext lib
    cases copyFolderStructure env lib with
    | none => rfl
    | some fs =>
      dsimp only
      cases createLibraryFolder env lib fs with
      | none => rfl
      | some fs =>
        dsimp only
        rw [Res.bind_bind]
        congr 1
        funext icon
        cases icon with
        | none => rfl
        | some icon =>
          dsimp only
          cases copyLVE env d lib fs with
          | none => rfl
          | some x =>
            obtain ⟨fs, lves⟩ := x
            dsimp only
            cases copyExtraFiles env lib fs with
            | none => rfl
            | some fs =>
              dsimp only
              rw [Res.bind_bind]
              congr 1
              funext fs
              unfold encryptFiles
              split
              · rw [Res.bind_bind, Res.bind_bind]
                congr 1
                funext x
                obtain ⟨s, ok⟩ := x
                cases ok with
                | false => rfl
                | true =>
                  dsimp only
                  simp only [not_true_eq_false, if_false, if_true, Res.bind_ok]
                  cases (createZipArchive env d s.fs).2 <;> rfl
              · simp only [Res.bind_ok]
                cases (createZipArchive env d fs).2 <;> rfl

theorem Staged.get_filter (fs : Staged) (f : List Bytes → Bool) (p : List Bytes) :
    Staged.get (fs.filter fun x => f x.1) p = if f p then fs.get p else none := by
  unfold Staged.get
  rw [List.find?_filter]
  split
  · rename_i h
    congr 2
    funext x
    by_cases hx : x.1 = p
    · simp [hx, h]
    · simp [hx]
  · rename_i h
    rw [List.find?_eq_none.2]
    · rfl
    · intro x _
      by_cases hx : x.1 = p
      · simp [hx, h]
      · simp [hx]

theorem mem_filter_paths {fs : Staged} {f : List Bytes → Bool} {q : List Bytes}
    (h : q ∈ (fs.filter fun x => f x.1).map (·.1)) : q ∈ fs.map (·.1) ∧ f q = true := by
  obtain ⟨x, hx, rfl⟩ := List.mem_map.1 h
  rw [List.mem_filter] at hx
  exact ⟨List.mem_map.2 ⟨x, hx.1, rfl⟩, hx.2⟩

theorem under_prefix {dir a q : List Bytes} (h : dir ++ a <+: q) :
    q = dir ++ q.drop dir.length ∧ a <+: q.drop dir.length := by
  obtain ⟨t, rfl⟩ := h
  rw [List.append_assoc, List.drop_left]
  exact ⟨rfl, List.prefix_append _ _⟩

/-- Paths below entries of the rest of a listing do not start with a name outside of it. -/
theorem head_in_rest {rest : Listing} {n : Bytes} (h : [n] ∉ (entries rest).map (·.1)) {e : List Bytes × Kind}
    (he : e ∈ entries rest) {q : List Bytes} : ¬ e.1 <+: n :: q := by
  intro hp
  have h1 := entries_ne_nil rest e he
  cases hx : e.1 with
  | nil => exact h1 hx
  | cons m t =>
    rw [hx] at hp
    obtain ⟨u, hu⟩ := hp
    simp only [List.cons_append, List.cons.injEq] at hu
    obtain ⟨rfl, -⟩ := hu
    exact h (entries_head rest e.1 (List.mem_map.2 ⟨e, he, rfl⟩) m t hx)

/-- The removal works for everything in a complete listing without trouble, and removes nothing else. -/
theorem removeEntries_all {rm : RemoveEnv} (hs : ∀ p, rm.statOk p = true) (hu : ∀ p, rm.unlinkOk p = true)
    (hr : ∀ p, rm.rmdirOk p = true) (l : Listing) (dir : List Bytes) (fs : Staged) (hn : NoRepeats l)
    (hk : ∀ e ∈ entries l, (fs.get (dir ++ e.1)).map kindOf = some e.2)
    (hc : ∀ q ∈ fs.map (·.1), ∀ e ∈ entries l, dir ++ e.1 <+: q → q.drop dir.length ∈ (entries l).map (·.1)) :
    removeEntries rm l dir fs =
      (fs.filter fun x => decide (x.1 ∉ (entries l).map (dir ++ ·.1)), true) := by
  induction l generalizing dir fs with
  | done => simp [removeEntries, entries]
  | file n rest ih =>
    obtain ⟨hn1, hn2⟩ := noRepeats_file hn
    have hkn := hk ([n], .file) (by simp [entries])
    obtain ⟨c, hget⟩ : ∃ c, fs.get (dir ++ [n]) = some (.file c) := by
      cases h : fs.get (dir ++ [n]) with
      | none => simp [h] at hkn
      | some x =>
        cases x with
        | dir => simp [h, kindOf] at hkn
        | file c => exact ⟨c, rfl⟩
    have hne : ∀ e ∈ entries rest, dir ++ e.1 ≠ dir ++ [n] := by
      intro e he h
      exact hn1 (List.mem_map.2 ⟨e, he, List.append_cancel_left h⟩)
    have := ih dir (fs.remove (dir ++ [n])) hn2 (by
      intro e he
      unfold Staged.remove
      rw [Staged.get_filter fs (fun q => decide (q ≠ dir ++ [n])), if_pos (by simpa using hne e he)]
      exact hk e (by simp [entries, he])) (by
      intro q hq e he hp
      obtain ⟨hq1, -⟩ := mem_filter_paths (f := fun q => decide (q ≠ dir ++ [n])) hq
      have h1 := hc q hq1 e (by simp [entries, he]) hp
      simp only [entries, List.map_cons, List.mem_cons] at h1
      rcases h1 with h1 | h1
      · have := (under_prefix hp).2
        rw [h1] at this
        exact absurd this (head_in_rest hn1 he)
      · exact h1)
    simp only [removeEntries, hs, hu, Staged.unlink, hget]
    simp only [not_true_eq_false, if_false, if_true]
    rw [this]
    unfold Staged.remove
    rw [List.filter_filter]
    simp only [entries, List.map_cons, List.mem_cons, not_or, Bool.decide_and, ne_eq]
    congr 2
    funext x
    rw [Bool.and_comm]
  | dir n sub rest ih1 ih2 =>
    obtain ⟨hn1, hn2, hn3, hn4⟩ := noRepeats_dir hn
    have hkn := hk ([n], .dir) (by simp [entries])
    have hget : fs.get (dir ++ [n]) = some .dir := by
      cases h : fs.get (dir ++ [n]) with
      | none => simp [h] at hkn
      | some x =>
        cases x with
        | dir => rfl
        | file c => simp [h, kindOf] at hkn
    have whole : ∀ e, e ∈ entries (.dir n sub rest) ↔ e = ([n], Kind.dir) ∨
        (∃ e' ∈ entries sub, e = (n :: e'.1, e'.2)) ∨ e ∈ entries rest := by
      intro e
      simp only [entries, List.cons_append, List.mem_cons, List.mem_append, List.mem_map]
      constructor
      · rintro (h | ⟨a, h1, h2⟩ | h)
        · exact .inl h
        · exact .inr (.inl ⟨a, h1, h2.symm⟩)
        · exact .inr (.inr h)
      · rintro (h | ⟨a, h1, h2⟩ | h)
        · exact .inl h
        · exact .inr (.inl ⟨a, h1, h2.symm⟩)
        · exact .inr (.inr h)
    have hsub := ih1 (dir ++ [n]) fs hn1 (by
      intro e he
      have := hk (n :: e.1, e.2) ((whole _).2 (.inr (.inl ⟨e, he, rfl⟩)))
      simpa using this) (by
      intro q hq e he hp
      rw [List.append_assoc] at hp
      have h1 := hc q hq (n :: e.1, e.2) ((whole _).2 (.inr (.inl ⟨e, he, rfl⟩))) (by simpa using hp)
      obtain ⟨h2, h3⟩ := under_prefix hp
      have hd : q.drop (dir ++ [n]).length = (q.drop dir.length).drop 1 := by
        rw [List.drop_drop]
        simp
      rw [hd]
      obtain ⟨x, hx, hxe⟩ := List.mem_map.1 h1
      rw [whole] at hx
      rcases hx with rfl | ⟨a, ha, rfl⟩ | hx
      · dsimp only at hxe
        rw [← hxe] at h3
        obtain ⟨t, ht⟩ := h3
        have h5 := congrArg List.length ht
        have h6 := List.length_pos_iff.2 (entries_ne_nil sub e he)
        simp only [List.length_append, List.length_cons, List.length_nil] at h5
        omega
      · rw [← hxe]
        exact List.mem_map.2 ⟨a, ha, rfl⟩
      · obtain ⟨t, ht⟩ := h3
        have := head_in_rest hn3 hx (q := e.1 ++ t)
        exact absurd (by rw [hxe, ← ht]; simp) this)
    have hrest := ih2 dir (fs.filter fun x => decide (x.1 ∉ (entries sub).map (dir ++ [n] ++ ·.1) ∧
        x.1 ≠ dir ++ [n])) hn2 (by
      intro e he
      rw [Staged.get_filter fs (fun q => decide (q ∉ (entries sub).map (dir ++ [n] ++ ·.1) ∧ q ≠ dir ++ [n])),
        if_pos]
      · exact hk e ((whole _).2 (.inr (.inr he)))
      · simp only [decide_eq_true_eq]
        constructor
        · intro h
          obtain ⟨a, ha, hae⟩ := List.mem_map.1 h
          rw [List.append_assoc] at hae
          have h5 := List.append_cancel_left hae
          exact head_in_rest hn3 he (q := a.1) (by rw [← h5]; exact List.prefix_refl _)
        · intro h
          have h5 := List.append_cancel_left h
          exact head_in_rest hn3 he (q := []) (by rw [h5]; exact List.prefix_refl _)) (by
      intro q hq e he hp
      obtain ⟨hq1, -⟩ := mem_filter_paths
        (f := fun q => decide (q ∉ (entries sub).map (dir ++ [n] ++ ·.1) ∧ q ≠ dir ++ [n])) hq
      have h1 := hc q hq1 e ((whole _).2 (.inr (.inr he))) hp
      obtain ⟨-, h3⟩ := under_prefix hp
      obtain ⟨x, hx, hxe⟩ := List.mem_map.1 h1
      rw [whole] at hx
      rcases hx with rfl | ⟨a, ha, rfl⟩ | hx
      · rw [← hxe] at h3
        exact absurd h3 (head_in_rest hn3 he)
      · rw [← hxe] at h3
        exact absurd h3 (head_in_rest hn3 he)
      · rw [← hxe]
        exact List.mem_map.2 ⟨x, hx, rfl⟩)
    simp only [removeEntries, hs, hsub]
    simp only [not_true_eq_false, if_false, if_true]
    have hrm : rm.rmdir (fs.filter fun x => decide (x.1 ∉ (entries sub).map (dir ++ [n] ++ ·.1))) (dir ++ [n]) =
        (fs.filter fun x => decide (x.1 ∉ (entries sub).map (dir ++ [n] ++ ·.1) ∧ x.1 ≠ dir ++ [n]), true) := by
      unfold RemoveEnv.rmdir Staged.rmdir
      rw [if_pos (hr _), if_pos]
      · simp only [Staged.remove, List.filter_filter, Bool.decide_and]
        congr 2
        funext x
        rw [Bool.and_comm]
      · constructor
        · rw [Staged.get_filter fs (fun q => decide (q ∉ (entries sub).map (dir ++ [n] ++ ·.1))), if_pos]
          · exact hget
          · simp only [decide_eq_true_eq]
            intro h
            obtain ⟨a, ha, hae⟩ := List.mem_map.1 h
            have h5 := congrArg List.length hae
            have h6 := List.length_pos_iff.2 (entries_ne_nil sub a ha)
            simp only [List.length_append, List.length_cons, List.length_nil] at h5
            omega
        · rw [List.all_eq_true]
          intro q hq
          obtain ⟨hq1, hq2⟩ := mem_filter_paths
            (f := fun q => decide (q ∉ (entries sub).map (dir ++ [n] ++ ·.1))) hq
          rw [Bool.or_eq_true, Bool.not_eq_true', beq_iff_eq]
          by_cases hp : dir ++ [n] <+: q
          · right
            have h1 := hc q hq1 ([n], .dir) ((whole _).2 (.inl rfl)) hp
            obtain ⟨h2, h3⟩ := under_prefix hp
            obtain ⟨x, hx, hxe⟩ := List.mem_map.1 h1
            rw [whole] at hx
            rcases hx with rfl | ⟨a, ha, rfl⟩ | hx
            · rw [h2, ← hxe]
            · exfalso
              simp only [decide_eq_true_eq] at hq2
              apply hq2
              refine List.mem_map.2 ⟨a, ha, ?_⟩
              rw [h2, ← hxe]
              simp
            · obtain ⟨t, ht⟩ := h3
              exact absurd (by rw [hxe, ← ht]; exact List.prefix_refl _) (head_in_rest hn3 hx (q := t))
          · left
            rw [← Bool.not_eq_true, List.isPrefixOf_iff_prefix]
            exact hp
    rw [hrm]
    dsimp only
    rw [if_pos rfl, hrest, List.filter_filter]
    congr 2
    funext x
    rw [← Bool.decide_and]
    congr 1
    simp only [List.mem_map, whole, eq_iff_iff]
    constructor
    · rintro ⟨h1, h2, h3⟩ ⟨a, rfl | ⟨b, hb, rfl⟩ | ha, hx⟩
      · exact h3 hx.symm
      · exact h2 ⟨b, hb, by rw [← hx]; simp⟩
      · exact h1 ⟨a, ha, hx⟩
    · intro h
      refine ⟨?_, ?_, ?_⟩
      · rintro ⟨a, ha, hx⟩
        exact h ⟨a, .inr (.inr ha), hx⟩
      · rintro ⟨a, ha, hx⟩
        exact h ⟨_, .inr (.inl ⟨a, ha, rfl⟩), by rw [← hx]; simp⟩
      · intro hx
        exact h ⟨_, .inl rfl, hx.symm⟩
  | locked n rest ih =>
    have := hk ([n], .locked) (by simp [entries])
    cases h : fs.get (dir ++ [n]) with
    | none => simp [h] at this
    | some x => cases x <;> simp [h, kindOf] at this
  | other n rest ih =>
    have := hk ([n], .other) (by simp [entries])
    cases h : fs.get (dir ++ [n]) with
    | none => simp [h] at this
    | some x => cases x <;> simp [h, kindOf] at this

theorem encSeq_frame {env : PackEnv} {e : CrEnv} {lib : Bytes} {ps : List (List Bytes)} {s s' : EncState}
    {ok : Bool} (h : encSeq env e lib ps s = .ok (s', ok)) (q : List Bytes)
    (hq : ∀ p, q ≠ lib :: encryptedPath p) : s'.fs.get q = s.fs.get q := by
  induction ps generalizing s with
  | nil =>
    simp only [encSeq, Res.ok.injEq, Prod.mk.injEq] at h
    rw [← h.1]
  | cons p ps ih =>
    unfold encSeq at h
    rw [Res.bind_eq_ok] at h
    obtain ⟨⟨s1, ok1⟩, h1, h⟩ := h
    have h2 : s1.fs.get q = s.fs.get q := by
      obtain ⟨content, bad, t, out, -, -, rfl⟩ := encryptOne_ok h1
      rw [Staged.get_set, if_neg (hq p)]
    dsimp only at h
    split at h
    · rw [ih h, h2]
    · simp only [Res.ok.injEq, Prod.mk.injEq] at h
      rw [← h.1, h2]

/-- The encryption leaves sources alone, and the temporary directory is there. -/
theorem encryptDirectory_keeps {env : PackEnv} {e : CrEnv} {lib : Bytes} {fs : Staged} {s : EncState} {ok : Bool}
    (h : encryptDirectory env e lib fs = .ok (s, ok)) :
    KeepsSources fs s.fs ∧ s.fs.get [] = fs.get [] := by
  rw [encryptDirectory_eq, Res.bind_eq_ok] at h
  obtain ⟨⟨s1, ok1⟩, h1, h⟩ := h
  simp only [Res.ok.injEq, Prod.mk.injEq] at h
  rw [← h.1]
  have h0 : KeepsSources fs (⟨[], fs, []⟩ : EncState).fs := fun _ _ => rfl
  exact ⟨h0.seq h1, encSeq_frame h1 [] (by simp)⟩

theorem copyFolder_root {env : PackEnv} {lib : Bytes} {fs : Staged} (h : copyFolderStructure env lib = some fs) :
    fs.get [] = some .dir := by
  unfold copyFolderStructure at h
  split at h
  · simp at h
  · split at h
    · simp at h
    · rename_i fs0 h0
      unfold copyDirectory at h
      rw [Option.map_eq_some_iff] at h
      obtain ⟨l, -, h⟩ := h
      rw [← h, copyEntries_frame _ _ _ _ _ _ fun p _ => by simp, Staged.get_mkdir h0, if_neg (by simp)]
      rfl

/-- How the steps end, with the temporary directory. -/
inductive StagingOutcome (env : PackEnv) (rm : RemoveEnv) (d : ArgData) (lib : Bytes) : PackResult × Staged → Prop where
  | copy : StagingOutcome env rm d lib (⟨2, none⟩, Staged.empty)
  | failed {fs1 fs : Staged} {r : PackResult} : copyFolderStructure env lib = some fs1 → r.code ≠ 0 → r.code ≠ 1 →
      r.code ≠ 2 →
      (∀ q, (∀ x, q ≠ lib :: b!".library" :: x) → ModelicaName (nameOf q) ∨ q = [] → fs.get q = fs1.get q) →
      StagingOutcome env rm d lib (r, fs)
  | done {fs1 fs : Staged} {a : Option Archive} : copyFolderStructure env lib = some fs1 → StagingTree lib fs →
      (∀ q, (∀ x, q ≠ lib :: b!".library" :: x) → ModelicaName (nameOf q) ∨ q = [] → fs.get q = fs1.get q) →
      StagingOutcome env rm d lib (⟨0, a⟩, (deleteStaging rm fs).1)

theorem packStaging_outcome {env : PackEnv} {rm : RemoveEnv} {d : ArgData} {x : PackResult × Staged}
    (h : packStaging env rm d = .ok x) :
    ∃ lib, getLibraryName ((getValueOf d b!"librarypath").getD []) = .ok lib ∧ StagingOutcome env rm d lib x := by
  unfold packStaging at h
  split at h
  · cases h
  rename_i tempDir htd
  rw [Res.bind_eq_ok] at h
  obtain ⟨lib, hlib, h⟩ := h
  refine ⟨lib, hlib, ?_⟩
  split at h
  · cases h
    exact .copy
  rename_i fs1 hc
  split at h
  · cases h
    exact .failed hc (by simp) (by simp) (by simp) fun _ _ _ => rfl
  rename_i fs2 hf
  have k2 : ∀ q, (∀ x, q ≠ lib :: b!".library" :: x) → fs2.get q = fs1.get q := fun q hq =>
    createLibraryFolder_frame hf q (hq [])
  rw [Res.bind_eq_ok] at h
  obtain ⟨icon, hi, h⟩ := h
  split at h
  · cases h
    exact .failed hc (by simp) (by simp) (by simp) fun q hq _ => k2 q hq
  rename_i icon
  split at h
  · cases h
    exact .failed hc (by simp) (by simp) (by simp) fun q hq _ => k2 q hq
  rename_i fs3 lves hl
  have k3 : ∀ q, (∀ x, q ≠ lib :: b!".library" :: x) → fs3.get q = fs1.get q := fun q hq =>
    (copyLVE_frame hl q hq).trans (k2 q hq)
  split at h
  · cases h
    exact .failed hc (by simp) (by simp) (by simp) fun q hq _ => k3 q hq
  rename_i fs4 he
  rw [Res.bind_eq_ok] at h
  obtain ⟨fs5, hm, h⟩ := h
  have k5 : ∀ q, (∀ x, q ≠ lib :: b!".library" :: x) → fs5.get q = fs1.get q := fun q hq =>
    (writeManifest_frame hm q hq).trans ((copyExtra_frame he q hq).trans (k3 q hq))
  have t5 : StagingTree lib fs5 := PackPrep.tree ⟨hc, hf, hi, hl, he, hm⟩
  split at h
  · rw [Res.bind_eq_ok] at h
    obtain ⟨⟨s, ok⟩, hd, h⟩ := h
    have t6 : StagingTree lib s.fs := encryptDirectory_tree t5 hd
    obtain ⟨k6, k7⟩ := encryptDirectory_keeps hd
    have k8 : ∀ q, (∀ x, q ≠ lib :: b!".library" :: x) → ModelicaName (nameOf q) ∨ q = [] →
        s.fs.get q = fs1.get q := by
      intro q hq hm
      rcases hm with hm | rfl
      · rw [k6 q hm, k5 q hq]
      · rw [k7, k5 [] hq]
    dsimp only at h
    split at h
    · cases h
      exact .failed hc (by simp) (by simp) (by simp) k8
    · split at h
      · cases h
        exact .done hc t6 k8
      · cases h
        exact .failed hc (by simp) (by simp) (by simp) k8
  · dsimp only at h
    split at h
    · cases h
      exact .done hc t5 fun q hq _ => k5 q hq
    · cases h
      exact .failed hc (by simp) (by simp) (by simp) fun q hq _ => k5 q hq

theorem packToolStaging_result (env : PackEnv) (rm : RemoveEnv) (args : List Bytes) :
    (do let x ← packToolStaging env rm args; .ok x.1) = packTool env args := by
  unfold packToolStaging packTool
  split
  · rfl
  · split
    · rfl
    · rw [Res.bind_bind]
      congr 1
      funext d
      cases d with
      | none => rfl
      | some d =>
        dsimp only
        rw [← packStaging_result env rm d]
        rw [Res.bind_bind]
        rfl

/-- The removal leaves nothing. -/
theorem deleteStaging_all {rm : RemoveEnv} (hf : rm.found = true) (hs : ∀ p, rm.statOk p = true)
    (hu : ∀ p, rm.unlinkOk p = true) (hr : ∀ p, rm.rmdirOk p = true) {fs : Staged} {l : Listing}
    (hw : rm.walk fs = some l) (hl : Shows l [] fs) (hroot : fs.get [] = some .dir) :
    (deleteStaging rm fs) = ([], true) := by
  obtain ⟨h1, h2, h3⟩ := hl
  have hall := removeEntries_all hs hu hr l [] fs h1 h2 (by
    intro q hq e he hp
    have hne : q ≠ [] := by
      rintro rfl
      have := entries_ne_nil l e he
      simp at hp
      exact this hp
    exact h3 q hq (by simp) hne)
  have hleft : ∀ q ∈ (fs.filter fun x => decide (x.1 ∉ (entries l).map ([] ++ ·.1))).map (·.1), q = [] := by
    intro q hq
    obtain ⟨hq1, hq2⟩ := mem_filter_paths (f := fun q => decide (q ∉ (entries l).map ([] ++ ·.1))) hq
    refine Decidable.byContradiction fun hne => ?_
    have := h3 q hq1 (by simp) hne
    simp only [decide_eq_true_eq, List.nil_append] at hq2
    simp only [List.length_nil, List.drop_zero] at this
    exact hq2 this
  unfold deleteStaging
  rw [hf, hw]
  simp only [not_true_eq_false, if_false, hall, if_true]
  unfold RemoveEnv.rmdir Staged.rmdir
  rw [if_pos (hr []), if_pos]
  · simp only [Staged.remove, Prod.mk.injEq, and_true]
    rw [List.filter_eq_nil_iff]
    intro x hx
    have := hleft x.1 (List.mem_map.2 ⟨x, hx, rfl⟩)
    simp [this]
  · constructor
    · rw [Staged.get_filter fs (fun q => decide (q ∉ (entries l).map ([] ++ ·.1))), if_pos]
      · exact hroot
      · simp only [decide_eq_true_eq]
        intro h
        obtain ⟨e, he, h⟩ := List.mem_map.1 h
        exact entries_ne_nil l e he (by simpa using h)
    · rw [List.all_eq_true]
      intro q hq
      rw [hleft q hq]
      rfl

end Semla
