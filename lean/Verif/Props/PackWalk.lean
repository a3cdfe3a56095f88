import Verif.Props.Pack

/-!
# The walk of the sample machine

`honestWalk`, which the machine of the examples uses, fails for no staging directory that can exist, so the
reasons in `StagingTrouble` are not there for this machine.
-/

namespace Semla.Props

open Semla Spec

theorem nodup_eraseDups : ∀ (k : Nat) (l : List Bytes), l.length ≤ k → l.eraseDups.Nodup := by
  intro k
  induction k with
  | zero =>
    intro l h
    cases l with
    | nil => simp
    | cons => simp at h
  | succ k ih =>
    intro l h
    cases l with
    | nil => simp
    | cons a l =>
      rw [List.eraseDups_cons, List.nodup_cons]
      refine ⟨?_, ih _ ?_⟩
      · rw [List.mem_eraseDups]
        simp
      · exact Nat.le_trans (List.length_filter_le _ _) (by simpa using h)

/-- Paths above an entry lead to directories. -/
theorem tree_above {lib : Bytes} {fs : Staged} (h : StagingTree lib fs) (r : List Bytes) :
    ∀ p, r ≠ [] → p ++ r ∈ fs.map (·.1) → fs.get p = some .dir := by
  induction r with
  | nil => simp
  | cons n r ih =>
    intro p _ hp
    by_cases hr : r = []
    · subst hr
      exact h.above p n hp
    · have := ih (p ++ [n]) hr (by simpa using hp)
      exact h.above p n (Staged.mem_of_get this)

/-- One step of `listDir`. -/
def listStep (fs : Staged) (sub : List Bytes → Listing) (base : List Bytes) (n : Bytes) (rest : Listing) :
    Listing :=
  match fs.get (base ++ [n]) with
  | some .dir => .dir n (sub (base ++ [n])) rest
  | some (.file _) => .file n rest
  | none => rest

theorem listStep_spec (fs : Staged) (sub : List Bytes → Listing) (base : List Bytes) (ns : List Bytes)
    (hn : ns.Nodup) (hs : ∀ n ∈ ns, NoRepeats (sub (base ++ [n])))
    (hk : ∀ n ∈ ns, ∀ e ∈ entries (sub (base ++ [n])), (fs.get (base ++ [n] ++ e.1)).map kindOf = some e.2) :
    NoRepeats (ns.foldr (listStep fs sub base) .done) ∧
    (∀ e ∈ entries (ns.foldr (listStep fs sub base) .done),
      (fs.get (base ++ e.1)).map kindOf = some e.2 ∧ ∃ n ∈ ns, ∃ p, e.1 = n :: p) ∧
    ∀ n ∈ ns, fs.get (base ++ [n]) ≠ none →
      [n] ∈ (entries (ns.foldr (listStep fs sub base) .done)).map (·.1) ∧
      (fs.get (base ++ [n]) = some .dir → ∀ p ∈ (entries (sub (base ++ [n]))).map (·.1),
        n :: p ∈ (entries (ns.foldr (listStep fs sub base) .done)).map (·.1)) := by
  induction ns with
  | nil => exact ⟨by simp [NoRepeats, entries], by simp [entries], by simp⟩
  | cons n ns ih =>
    obtain ⟨hn1, hn2⟩ := List.nodup_cons.1 hn
    obtain ⟨i1, i2, i3⟩ := ih hn2 (fun m hm => hs m (List.mem_cons_of_mem _ hm))
      (fun m hm => hk m (List.mem_cons_of_mem _ hm))
    have hhead : ∀ p, n :: p ∉ (entries (ns.foldr (listStep fs sub base) .done)).map (·.1) := by
      intro p hp
      obtain ⟨e, he, hep⟩ := List.mem_map.1 hp
      obtain ⟨-, m, hm, q, hq⟩ := i2 e he
      rw [hep] at hq
      simp only [List.cons.injEq] at hq
      exact hn1 (hq.1 ▸ hm)
    rw [List.foldr_cons]
    generalize ns.foldr (listStep fs sub base) .done = rest at *
    unfold listStep
    cases hg : fs.get (base ++ [n]) with
    | none =>
      refine ⟨i1, fun e he => ?_, fun m hm hgm => ?_⟩
      · obtain ⟨h1, m, hm, h2⟩ := i2 e he
        exact ⟨h1, m, List.mem_cons_of_mem _ hm, h2⟩
      · rcases List.mem_cons.1 hm with rfl | hm
        · exact absurd hg hgm
        · exact i3 m hm hgm
    | some x =>
      cases x with
      | file c =>
        dsimp only
        refine ⟨?_, fun e he => ?_, fun m hm hgm => ?_⟩
        · unfold NoRepeats
          simp only [entries, List.map_cons, List.nodup_cons]
          exact ⟨hhead [], i1⟩
        · rcases List.mem_cons.1 he with rfl | he
          · exact ⟨by rw [hg]; rfl, n, List.mem_cons_self, [], rfl⟩
          · obtain ⟨h1, m, hm, h2⟩ := i2 e he
            exact ⟨h1, m, List.mem_cons_of_mem _ hm, h2⟩
        · rcases List.mem_cons.1 hm with rfl | hm
          · exact ⟨by simp [entries], fun hd => by rw [hg] at hd; simp at hd⟩
          · obtain ⟨j1, j2⟩ := i3 m hm hgm
            exact ⟨List.mem_cons_of_mem _ j1, fun hd p hp => List.mem_cons_of_mem _ (j2 hd p hp)⟩
      | dir =>
        dsimp only
        have hsub := hs n List.mem_cons_self
        have hentries : (entries (.dir n (sub (base ++ [n])) rest)).map (·.1) =
            [n] :: ((entries (sub (base ++ [n]))).map (·.1)).map (n :: ·) ++ (entries rest).map (·.1) := by
          simp [entries, Function.comp_def]
        refine ⟨?_, fun e he => ?_, fun m hm hgm => ?_⟩
        · unfold NoRepeats
          rw [hentries, List.cons_append, List.nodup_cons, List.nodup_append]
          refine ⟨?_, ?_, i1, ?_⟩
          · intro hm
            rcases List.mem_append.1 hm with hm | hm
            · obtain ⟨p, hp, hpe⟩ := List.mem_map.1 hm
              obtain ⟨e, he, rfl⟩ := List.mem_map.1 hp
              simp only [List.cons.injEq, true_and] at hpe
              exact entries_ne_nil _ e he hpe
            · exact hhead [] hm
          · unfold NoRepeats at hsub
            revert hsub
            generalize (entries (sub (base ++ [n]))).map (·.1) = ps
            intro hsub
            induction ps with
            | nil => simp
            | cons p ps ihp =>
              obtain ⟨h1, h2⟩ := List.nodup_cons.1 hsub
              rw [List.map_cons, List.nodup_cons]
              refine ⟨fun hm => ?_, ihp h2⟩
              obtain ⟨q, hq, hqe⟩ := List.mem_map.1 hm
              simp only [List.cons.injEq, true_and] at hqe
              exact h1 (hqe ▸ hq)
          · intro a ha b hb hab
            subst hab
            obtain ⟨p, hp, rfl⟩ := List.mem_map.1 ha
            exact hhead p hb
        · simp only [entries, List.cons_append, List.mem_cons, List.mem_append, List.mem_map] at he
          rcases he with rfl | ⟨e', he', rfl⟩ | he
          · exact ⟨by rw [hg]; rfl, n, List.mem_cons_self, [], rfl⟩
          · have := hk n List.mem_cons_self e' he'
            exact ⟨by simpa using this, n, List.mem_cons_self, e'.1, rfl⟩
          · obtain ⟨h1, m, hm, h2⟩ := i2 e he
            exact ⟨h1, m, List.mem_cons_of_mem _ hm, h2⟩
        · rw [hentries]
          rcases List.mem_cons.1 hm with rfl | hm
          · refine ⟨by simp, fun _ p hp => ?_⟩
            exact List.mem_append_left _ (List.mem_cons_of_mem _ (List.mem_map.2 ⟨p, hp, rfl⟩))
          · obtain ⟨j1, j2⟩ := i3 m hm hgm
            exact ⟨List.mem_append_right _ j1, fun hd p hp => List.mem_append_right _ (j2 hd p hp)⟩

theorem depth_le {fs : Staged} {q : List Bytes} (h : q ∈ fs.map (·.1)) : q.length ≤ depth fs := by
  unfold depth
  induction fs with
  | nil => simp at h
  | cons x fs ih =>
    rw [List.map_cons, List.foldr_cons]
    rcases List.mem_cons.1 h with rfl | h
    · exact Nat.le_max_left _ _
    · exact Nat.le_trans (ih h) (Nat.le_max_right _ _)

/-- A tree can be listed. -/
theorem listDir_shows {lib : Bytes} {fs : Staged} (h : StagingTree lib fs) (fuel : Nat) :
    ∀ base, (∀ q ∈ fs.map (·.1), base <+: q → q.length ≤ base.length + fuel) →
      Shows (listDir fs fuel base) base fs := by
  induction fuel with
  | zero =>
    intro base hb
    refine ⟨by unfold listDir; decide, by simp [listDir, entries], fun q hq hp hne => ?_⟩
    obtain ⟨r, rfl⟩ := hp
    have := hb _ hq ⟨r, rfl⟩
    simp only [List.length_append] at this
    cases r with
    | nil => simp at hne
    | cons => simp at this
  | succ fuel ih =>
    intro base hb
    have hl : listDir fs (fuel + 1) base =
        (((fs.map (·.1)).filter fun q => base.isPrefixOf q && q.length == base.length + 1).map
          nameOf).eraseDups.foldr (listStep fs (listDir fs fuel) base) .done := rfl
    rw [hl]
    have hsub : ∀ n, Shows (listDir fs fuel (base ++ [n])) (base ++ [n]) fs := by
      intro n
      refine ih _ fun q hq hp => ?_
      have := hb q hq (List.IsPrefix.trans ⟨[n], rfl⟩ hp)
      simp only [List.length_append, List.length_cons, List.length_nil]
      omega
    obtain ⟨j1, j2, j3⟩ := listStep_spec fs (listDir fs fuel) base _ (nodup_eraseDups _ _ (Nat.le_refl _))
      (fun n _ => (hsub n).1) (fun n _ => (hsub n).2.1)
    refine ⟨j1, fun e he => (j2 e he).1, fun q hq hp hne => ?_⟩
    obtain ⟨r, rfl⟩ := hp
    cases r with
    | nil => simp at hne
    | cons n r =>
      have hmem : base ++ [n] ∈ fs.map (·.1) := by
        cases r with
        | nil => exact hq
        | cons m r =>
          exact Staged.mem_of_get (tree_above h (m :: r) (base ++ [n]) (by simp) (by simpa using hq))
      obtain ⟨k1, k2⟩ := j3 n (by
        rw [List.mem_eraseDups]
        refine List.mem_map.2 ⟨_, List.mem_filter.2 ⟨hmem, ?_⟩, nameOf_append _ _⟩
        simp) (by rw [Ne, Staged.get_none_iff]; exact fun hx => hx hmem)
      rw [List.drop_left]
      cases r with
      | nil => exact k1
      | cons m r =>
        refine k2 (tree_above h (m :: r) (base ++ [n]) (by simp) (by simpa using hq)) _ ?_
        have := (hsub n).2.2 _ hq ⟨m :: r, by simp⟩ (by simp)
        rwa [show base ++ n :: m :: r = (base ++ [n]) ++ m :: r by simp, List.drop_left] at this

theorem honestWalk_total {lib : Bytes} {fs : Staged} (h : StagingTree lib fs) (base : List Bytes) :
    honestWalk base fs ≠ none := by
  unfold honestWalk
  rw [if_pos (listDir_shows h _ _ fun q hq _ => Nat.le_trans (depth_le hq) (Nat.le_add_left _ _))]
  simp

end Semla.Props
