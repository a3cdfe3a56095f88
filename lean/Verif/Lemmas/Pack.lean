import Verif.Spec.PackTree

/-! # Lemmas: the staging directory -/

namespace Semla

open Spec

/-! ## Names -/

theorem toLower_eq_46 (c : UInt8) : toLower c = 46 ↔ c = 46 := by
  have h : ∀ n : Fin 256, toLower (UInt8.ofNat n.val) = 46 ↔ UInt8.ofNat n.val = 46 := by decide +kernel
  have := h ⟨c.toNat, c.toNat_lt⟩
  simpa using this

theorem isModelicaFile_iff (n : Bytes) : isModelicaFile n = true ↔ ModelicaName n := by
  unfold isModelicaFile ModelicaName eqNoCase stringToLower
  have e : (b!".mo").map toLower = b!".mo" := by decide
  rw [e]
  simp only [Bool.and_eq_true, List.contains_iff_mem, beq_iff_eq]
  constructor
  · rintro ⟨hm, h⟩
    refine ⟨((n.reverse.dropWhile (· ≠ 46)).drop 1).reverse, 46 :: (n.reverse.takeWhile (· ≠ 46)).reverse,
      ?_, h⟩
    have h1 := List.takeWhile_append_dropWhile (p := fun x : UInt8 => decide (x ≠ 46)) (l := n.reverse)
    cases hd : n.reverse.dropWhile (· ≠ 46) with
    | nil =>
      rw [hd, List.append_nil] at h1
      have : (46 : UInt8) ∈ n.reverse.takeWhile (· ≠ 46) := by rw [h1]; simpa using hm
      have := List.all_eq_true.1 List.all_takeWhile _ this
      simp at this
    | cons c r =>
      have hc : c = 46 := by
        have := List.head?_dropWhile_not (fun x : UInt8 => decide (x ≠ 46)) n.reverse
        rw [hd] at this
        simpa using this
      rw [hd, hc] at h1
      have := congrArg List.reverse h1
      rw [List.reverse_reverse] at this
      simpa using this.symm
  · rintro ⟨a, b, rfl, h⟩
    match b, h with
    | [x, y, z], h =>
      simp only [List.map_cons, List.map_nil, List.cons.injEq, and_true] at h
      obtain ⟨hx, hy, hz⟩ := h
      rw [toLower_eq_46] at hx
      subst hx
      have hy' : y ≠ 46 := fun h' => by subst h'; revert hy; decide
      have hz' : z ≠ 46 := fun h' => by subst h'; revert hz; decide
      refine ⟨by simp, ?_⟩
      have e2 : (a ++ [46, y, z]).reverse = z :: y :: 46 :: a.reverse := by simp
      rw [e2]
      simp only [List.takeWhile_cons, ne_eq, hz', hy', not_false_eq_true, decide_true, if_true,
        not_true_eq_false, decide_false, Bool.false_eq_true, if_false]
      simp [hy, hz]
      decide
    | [], h => simp at h
    | [_], h => simp at h
    | [_, _], h => simp at h
    | _ :: _ :: _ :: _ :: _, h => simp at h

theorem not_modelica_append_c (n : Bytes) : ¬ ModelicaName (n ++ b!"c") := by
  rintro ⟨a, b, h, hb⟩
  match b, hb with
  | [x, y, z], hb =>
    have : (n ++ b!"c").getLast? = (a ++ [x, y, z]).getLast? := by rw [h]
    simp at this
    subst this
    simp only [eqNoCase, beq_iff_eq, List.map_cons, List.cons.injEq] at hb
    exact absurd hb.2.2.1 (by decide)
  | [], h => simp [eqNoCase] at h
  | [_], h => simp [eqNoCase] at h
  | [_, _], h => simp [eqNoCase] at h
  | _ :: _ :: _ :: _ :: _, h => simp [eqNoCase] at h

/-! ## The staging directory -/

theorem Staged.get_set (fs : Staged) (p q : List Bytes) (n : Node) :
    (fs.set p n).get q = if q = p then some n else fs.get q := by
  unfold Staged.get Staged.set
  rw [List.find?_cons]
  by_cases h : q = p
  · simp [h]
  · have h' : p ≠ q := fun e => h e.symm
    simp [h, h']

theorem Staged.get_write {fs fs' : Staged} {p : List Bytes} {c : Bytes} (h : fs.write p c = some fs')
    (q : List Bytes) : fs'.get q = if q = p then some (.file c) else fs.get q := by
  unfold Staged.write at h
  split at h
  · injection h with h
    rw [← h, Staged.get_set]
  · simp at h

theorem Staged.get_mkdir {fs fs' : Staged} {p : List Bytes} (h : fs.mkdir p = some fs')
    (q : List Bytes) : fs'.get q = if q = p then some .dir else fs.get q := by
  unfold Staged.mkdir at h
  split at h
  · injection h with h
    rw [← h, Staged.get_set]
  · simp at h

theorem Staged.get_none_iff (fs : Staged) (p : List Bytes) : fs.get p = none ↔ p ∉ fs.map (·.1) := by
  unfold Staged.get
  simp only [Option.map_eq_none_iff, List.find?_eq_none, decide_eq_true_eq, List.mem_map, not_exists,
    not_and]

theorem Staged.mem_of_get {fs : Staged} {p : List Bytes} {n : Node} (h : fs.get p = some n) :
    p ∈ fs.map (·.1) := by
  apply Decidable.byContradiction
  intro hn
  rw [(fs.get_none_iff p).2 hn] at h
  simp at h

/-- Below a directory nothing is found by looking at the wrong place. -/
theorem entries_ne_nil (l : Listing) : ∀ e ∈ entries l, e.1 ≠ [] := by
  induction l with
  | done => simp [entries]
  | file n rest ih => simpa [entries] using ih
  | locked n rest ih => simpa [entries] using ih
  | other n rest ih => simpa [entries] using ih
  | dir n sub rest ih1 ih2 =>
    intro e he
    simp only [entries, List.cons_append, List.mem_cons, List.mem_append, List.mem_map] at he
    rcases he with rfl | ⟨e', -, rfl⟩ | he
    · simp
    · simp
    · exact ih2 e he

/-! ## Copying -/

theorem write_frame (fs : Staged) (p q : List Bytes) (c : Bytes) (h : q ≠ p) :
    ((fs.write p c).getD fs).get q = fs.get q := by
  cases hw : fs.write p c with
  | none => rfl
  | some fs' => rw [Option.getD_some, Staged.get_write hw, if_neg h]

theorem mkdir_frame (fs : Staged) (p q : List Bytes) (h : q ≠ p) :
    ((fs.mkdir p).getD fs).get q = fs.get q := by
  cases hw : fs.mkdir p with
  | none => rfl
  | some fs' => rw [Option.getD_some, Staged.get_mkdir hw, if_neg h]

/-- Copying changes only what is in the listing. -/
theorem copyEntries_frame (s : Source) (l : Listing) (src dst : List Bytes) (fs : Staged)
    (q : List Bytes) (h : ∀ p ∈ (entries l).map (·.1), q ≠ dst ++ p) :
    (copyEntries s l src dst fs).get q = fs.get q := by
  induction l generalizing src dst fs with
  | done => rfl
  | file n rest ih =>
    have hr : ∀ p ∈ (entries rest).map (·.1), q ≠ dst ++ p := fun p hp => h p (List.mem_cons_of_mem _ hp)
    simp only [copyEntries]
    split
    · exact ih _ _ _ hr
    · rw [ih _ _ _ hr]
      split
      · exact write_frame _ _ _ _ (h [n] List.mem_cons_self)
      · rfl
  | dir n sub rest ih1 ih2 =>
    have hr : ∀ p ∈ (entries rest).map (·.1), q ≠ dst ++ p := fun p hp => h p (by
      unfold entries
      rw [List.map_append]
      exact List.mem_append_right _ hp)
    simp only [copyEntries]
    split
    · exact ih2 _ _ _ hr
    · rw [ih2 _ _ _ hr, ih1]
      · split
        · exact mkdir_frame _ _ _ (h [n] List.mem_cons_self)
        · rfl
      · intro p hp
        obtain ⟨e, he, rfl⟩ := List.mem_map.1 hp
        have := h (n :: e.1) (List.mem_map.2 ⟨(n :: e.1, e.2), List.mem_append_left _
          (List.mem_cons_of_mem _ (List.mem_map.2 ⟨e, he, rfl⟩)), rfl⟩)
        simpa using this
  | locked n rest ih =>
    have hr : ∀ p ∈ (entries rest).map (·.1), q ≠ dst ++ p := fun p hp => h p (List.mem_cons_of_mem _ hp)
    simp only [copyEntries]
    split
    · exact ih _ _ _ hr
    · rw [ih _ _ _ hr]
      split
      · exact mkdir_frame _ _ _ (h [n] List.mem_cons_self)
      · rfl
  | other n rest ih =>
    have hr : ∀ p ∈ (entries rest).map (·.1), q ≠ dst ++ p := fun p hp => h p (List.mem_cons_of_mem _ hp)
    simp only [copyEntries]
    exact ih _ _ _ hr

theorem noRepeats_file {n : Bytes} {rest : Listing} (h : NoRepeats (.file n rest)) :
    [n] ∉ (entries rest).map (·.1) ∧ NoRepeats rest := by
  simpa [NoRepeats, entries] using h

theorem nodup_of_map {α β : Type} (f : α → β) (l : List α) (h : (l.map f).Nodup) : l.Nodup := by
  induction l with
  | nil => simp
  | cons a r ih =>
    rw [List.map_cons, List.nodup_cons] at h
    rw [List.nodup_cons]
    exact ⟨fun hm => h.1 (List.mem_map.2 ⟨a, hm, rfl⟩), ih h.2⟩

theorem noRepeats_dir {n : Bytes} {sub rest : Listing} (h : NoRepeats (.dir n sub rest)) :
    NoRepeats sub ∧ NoRepeats rest ∧ [n] ∉ (entries rest).map (·.1) ∧
    ∀ p ∈ (entries sub).map (·.1), n :: p ∉ (entries rest).map (·.1) := by
  unfold NoRepeats entries at h
  rw [List.cons_append, List.map_cons, List.nodup_cons, List.map_append, List.map_map,
    List.nodup_append] at h
  obtain ⟨h1, h2, h3, h4⟩ := h
  refine ⟨?_, h3, ?_, ?_⟩
  · have : ((fun x : List Bytes × Kind => x.1) ∘ fun e : List Bytes × Kind => (n :: e.1, e.2)) =
        (n :: ·) ∘ (·.1) := rfl
    rw [this, ← List.map_map] at h2
    exact nodup_of_map _ _ h2
  · intro hm
    exact h1 (List.mem_append_right _ hm)
  · intro p hp hm
    obtain ⟨e, he, rfl⟩ := List.mem_map.1 hp
    exact h4 (n :: e.1) (List.mem_map.2 ⟨e, he, rfl⟩) _ hm rfl

/-- What copying a tree gives, if nothing fails. -/
theorem copyEntries_spec (s : Source) (content : List Bytes → Bytes) (l : Listing) (src dst : List Bytes)
    (fs : Staged) (hn : NoRepeats l) (hk : ∀ e ∈ entries l, e.2 = .file ∨ e.2 = .dir)
    (hc : ∀ p, (p, Kind.file) ∈ entries l → Outside p → s.copied (src ++ p) = some (content (src ++ p)))
    (hm : ∀ p, (p, Kind.dir) ∈ entries l → Outside p → s.mkdirOk (src ++ p) = true)
    (hdir : fs.get dst = some .dir) (hfresh : ∀ p ∈ (entries l).map (·.1), fs.get (dst ++ p) = none) :
    (∀ q, (∀ p ∈ (entries l).map (·.1), q ≠ dst ++ p) →
      (copyEntries s l src dst fs).get q = fs.get q) ∧
    (∀ p, (p, Kind.file) ∈ entries l → Outside p →
      (copyEntries s l src dst fs).get (dst ++ p) = some (.file (content (src ++ p)))) ∧
    (∀ p, (p, Kind.dir) ∈ entries l → Outside p →
      (copyEntries s l src dst fs).get (dst ++ p) = some .dir) ∧
    (∀ p ∈ (entries l).map (·.1), ¬ Outside p → (copyEntries s l src dst fs).get (dst ++ p) = none) := by
  induction l generalizing src dst fs with
  | done => simp [entries, copyEntries]
  | locked n rest ih => exact absurd (hk _ List.mem_cons_self) (by simp)
  | other n rest ih => exact absurd (hk _ List.mem_cons_self) (by simp)
  | file n rest ih =>
    obtain ⟨hn1, hn2⟩ := noRepeats_file hn
    have ne : ∀ p ∈ (entries rest).map (·.1), dst ++ p ≠ dst ++ [n] := by
      intro p hp he
      rw [List.append_cancel_left he] at hp
      exact hn1 hp
    by_cases hl : n = b!".library"
    · have key := ih src dst fs hn2 (fun e he => hk e (List.mem_cons_of_mem _ he))
        (fun p hp => hc p (List.mem_cons_of_mem _ hp)) (fun p hp => hm p (List.mem_cons_of_mem _ hp)) hdir
        (fun p hp => hfresh p (List.mem_cons_of_mem _ hp))
      have e : copyEntries s (.file n rest) src dst fs = copyEntries s rest src dst fs := by
        simp [copyEntries, hl]
      rw [e]
      obtain ⟨k1, k2, k3, k4⟩ := key
      refine ⟨fun q hq => k1 q fun p hp => hq p (List.mem_cons_of_mem _ hp), ?_, ?_, ?_⟩
      · intro p hp ho
        simp only [entries, List.mem_cons, Prod.mk.injEq, and_true] at hp
        rcases hp with rfl | hp
        · exact absurd ho (by simp [Outside, hl])
        · exact k2 p hp ho
      · intro p hp ho
        simp only [entries, List.mem_cons, Prod.mk.injEq, reduceCtorEq, and_false, false_or] at hp
        exact k3 p hp ho
      · intro p hp ho
        simp only [entries, List.map_cons, List.mem_cons] at hp
        rcases hp with rfl | hp
        · rw [k1 _ fun p hp => (ne p hp).symm]
          exact hfresh _ (by simp [entries])
        · exact k4 p hp ho
    · have ho : Outside [n] := by simpa [Outside] using fun h => hl h.symm
      have hcn := hc [n] (by simp [entries]) ho
      have hw : fs.write (dst ++ [n]) (content (src ++ [n])) =
          some (fs.set (dst ++ [n]) (.file (content (src ++ [n])))) := by
        unfold Staged.write
        rw [if_pos]
        refine ⟨by simp, by simpa using hdir, ?_⟩
        rw [hfresh [n] (by simp [entries])]
        simp
      have e : copyEntries s (.file n rest) src dst fs =
          copyEntries s rest src dst (fs.set (dst ++ [n]) (.file (content (src ++ [n])))) := by
        simp [copyEntries, hl, hcn, hw]
      rw [e]
      have hdn : dst ≠ dst ++ [n] := by simp
      have key := ih src dst (fs.set (dst ++ [n]) (.file (content (src ++ [n])))) hn2
        (fun e he => hk e (List.mem_cons_of_mem _ he)) (fun p hp => hc p (List.mem_cons_of_mem _ hp))
        (fun p hp => hm p (List.mem_cons_of_mem _ hp)) (by rw [Staged.get_set, if_neg hdn]; exact hdir)
        (fun p hp => by
          rw [Staged.get_set, if_neg (ne p hp)]
          exact hfresh p (List.mem_cons_of_mem _ hp))
      obtain ⟨k1, k2, k3, k4⟩ := key
      refine ⟨?_, ?_, ?_, ?_⟩
      · intro q hq
        rw [k1 q fun p hp => hq p (List.mem_cons_of_mem _ hp), Staged.get_set,
          if_neg (hq [n] (by simp [entries]))]
      · intro p hp ho
        simp only [entries, List.mem_cons, Prod.mk.injEq, and_true] at hp
        rcases hp with rfl | hp
        · rw [k1 _ fun p hp => (ne p hp).symm, Staged.get_set, if_pos rfl]
        · exact k2 p hp ho
      · intro p hp ho
        simp only [entries, List.mem_cons, Prod.mk.injEq, reduceCtorEq, and_false, false_or] at hp
        exact k3 p hp ho
      · intro p hp ho'
        simp only [entries, List.map_cons, List.mem_cons] at hp
        rcases hp with rfl | hp
        · exact absurd ho ho'
        · exact k4 p hp ho'
  | dir n sub rest ih1 ih2 =>
    obtain ⟨hns, hnr, hn1, hn2⟩ := noRepeats_dir hn
    have mem : ∀ {p}, p ∈ (entries (.dir n sub rest)).map (·.1) ↔
        p = [n] ∨ (∃ q ∈ (entries sub).map (·.1), p = n :: q) ∨ p ∈ (entries rest).map (·.1) := by
      intro p
      simp only [entries, List.cons_append, List.map_cons, List.map_append, List.map_map, List.mem_cons,
        List.mem_append, List.mem_map, Function.comp_apply]
      constructor
      · rintro (h | ⟨a, h1, h2⟩ | h)
        · exact Or.inl h
        · exact Or.inr (Or.inl ⟨a.1, ⟨a, h1, rfl⟩, h2.symm⟩)
        · exact Or.inr (Or.inr h)
      · rintro (h | ⟨a, ⟨b, h1, h2⟩, h3⟩ | h)
        · exact Or.inl h
        · exact Or.inr (Or.inl ⟨b, h1, by rw [h2, h3]⟩)
        · exact Or.inr (Or.inr h)
    have memk : ∀ {p k}, (p, k) ∈ entries (.dir n sub rest) ↔
        (p = [n] ∧ k = .dir) ∨ (∃ q, (q, k) ∈ entries sub ∧ p = n :: q) ∨ (p, k) ∈ entries rest := by
      intro p k
      simp only [entries, List.cons_append, List.mem_cons, List.mem_append, List.mem_map, Prod.mk.injEq]
      constructor
      · rintro (h | ⟨a, h1, h2, h3⟩ | h)
        · exact Or.inl h
        · exact Or.inr (Or.inl ⟨a.1, by rw [← h3]; exact h1, h2.symm⟩)
        · exact Or.inr (Or.inr h)
      · rintro (h | ⟨a, h1, h2⟩ | h)
        · exact Or.inl h
        · exact Or.inr (Or.inl ⟨(a, k), h1, h2.symm, rfl⟩)
        · exact Or.inr (Or.inr h)
    have hkr : ∀ e ∈ entries rest, e.2 = .file ∨ e.2 = .dir := fun e he => hk e (by
      obtain ⟨p, k⟩ := e
      exact memk.2 (Or.inr (Or.inr he)))
    have ner : ∀ p ∈ (entries rest).map (·.1), dst ++ p ≠ dst ++ [n] := by
      intro p hp he
      rw [List.append_cancel_left he] at hp
      exact hn1 hp
    by_cases hl : n = b!".library"
    · have key := ih2 src dst fs hnr hkr (fun p hp => hc p (memk.2 (Or.inr (Or.inr hp))))
        (fun p hp => hm p (memk.2 (Or.inr (Or.inr hp)))) hdir
        (fun p hp => hfresh p (mem.2 (Or.inr (Or.inr hp))))
      have e : copyEntries s (.dir n sub rest) src dst fs = copyEntries s rest src dst fs := by
        simp [copyEntries, hl]
      rw [e]
      obtain ⟨k1, k2, k3, k4⟩ := key
      refine ⟨fun q hq => k1 q fun p hp => hq p (mem.2 (Or.inr (Or.inr hp))), ?_, ?_, ?_⟩
      · intro p hp ho
        rcases memk.1 hp with ⟨-, h⟩ | ⟨q, hq, rfl⟩ | h
        · simp at h
        · exact absurd ho (by simp [Outside, hl])
        · exact k2 p h ho
      · intro p hp ho
        rcases memk.1 hp with ⟨rfl, h⟩ | ⟨q, hq, rfl⟩ | h
        · exact absurd ho (by simp [Outside, hl])
        · exact absurd ho (by simp [Outside, hl])
        · exact k3 p h ho
      · intro p hp ho
        by_cases hpr : p ∈ (entries rest).map (·.1)
        · exact k4 p hpr ho
        · rw [k1 _ fun p' hp' he => hpr (by rw [List.append_cancel_left he]; exact hp')]
          exact hfresh _ hp
    · have ho : Outside [n] := by simpa [Outside] using fun h => hl h.symm
      have hoc : ∀ {q}, Outside (n :: q) ↔ Outside q := by
        intro q
        simp only [Outside, List.mem_cons, not_or]
        exact ⟨fun h => h.2, fun h => ⟨fun h' => hl h'.symm, h⟩⟩
      have hmn := hm [n] (memk.2 (Or.inl ⟨rfl, rfl⟩)) ho
      have hw : fs.mkdir (dst ++ [n]) = some (fs.set (dst ++ [n]) .dir) := by
        unfold Staged.mkdir
        rw [if_pos]
        exact ⟨by simp, by simpa using hdir, hfresh [n] (mem.2 (Or.inl rfl))⟩
      have e : copyEntries s (.dir n sub rest) src dst fs =
          copyEntries s rest src dst (copyEntries s sub (src ++ [n]) (dst ++ [n])
            (fs.set (dst ++ [n]) .dir)) := by
        simp [copyEntries, hl, hmn, hw]
      rw [e]
      generalize hfs1 : copyEntries s sub (src ++ [n]) (dst ++ [n]) (fs.set (dst ++ [n]) .dir) = fs1
      have app : ∀ (a : List Bytes) q, a ++ [n] ++ q = a ++ n :: q := by simp
      have key1 := ih1 (src ++ [n]) (dst ++ [n]) (fs.set (dst ++ [n]) .dir) hns
        (fun e he => hk (n :: e.1, e.2) (memk.2 (Or.inr (Or.inl ⟨e.1, he, rfl⟩))))
        (fun p hp hop => by
          rw [app]; exact hc _ (memk.2 (Or.inr (Or.inl ⟨p, hp, rfl⟩))) (hoc.2 hop))
        (fun p hp hop => by
          rw [app]; exact hm _ (memk.2 (Or.inr (Or.inl ⟨p, hp, rfl⟩))) (hoc.2 hop))
        (by rw [Staged.get_set, if_pos rfl])
        (fun p hp => by
          have hpn : p ≠ [] := by
            obtain ⟨e, he, rfl⟩ := List.mem_map.1 hp
            exact entries_ne_nil sub e he
          rw [Staged.get_set, if_neg (by simpa using hpn), app]
          exact hfresh _ (mem.2 (Or.inr (Or.inl ⟨p, hp, rfl⟩))))
      rw [hfs1] at key1
      obtain ⟨a1, a2, a3, a4⟩ := key1
      have same : ∀ q, q ≠ dst ++ [n] → (∀ p ∈ (entries sub).map (·.1), q ≠ dst ++ n :: p) →
          fs1.get q = fs.get q := by
        intro q h1 h2
        rw [a1 q fun p hp => by rw [app]; exact h2 p hp, Staged.get_set, if_neg h1]
      have key2 := ih2 src dst fs1 hnr hkr (fun p hp => hc p (memk.2 (Or.inr (Or.inr hp))))
        (fun p hp => hm p (memk.2 (Or.inr (Or.inr hp))))
        (by rw [same _ (by simp) (fun p _ => by simp)]; exact hdir)
        (fun p hp => by
          rw [same _ (ner p hp) (fun q hq he => hn2 q hq (by rw [← List.append_cancel_left he]; exact hp))]
          exact hfresh p (mem.2 (Or.inr (Or.inr hp))))
      obtain ⟨b1, b2, b3, b4⟩ := key2
      have subr : ∀ p ∈ (entries sub).map (·.1), ∀ p' ∈ (entries rest).map (·.1),
          dst ++ n :: p ≠ dst ++ p' := by
        intro p hp p' hp' he
        rw [← List.append_cancel_left he] at hp'
        exact hn2 p hp hp'
      refine ⟨?_, ?_, ?_, ?_⟩
      · intro q hq
        rw [b1 q fun p hp => hq p (mem.2 (Or.inr (Or.inr hp))),
          same q (hq [n] (mem.2 (Or.inl rfl))) fun p hp => hq _ (mem.2 (Or.inr (Or.inl ⟨p, hp, rfl⟩)))]
      · intro p hp hop
        rcases memk.1 hp with ⟨-, h⟩ | ⟨q, hq, rfl⟩ | h
        · simp at h
        · rw [b1 _ (subr q (List.mem_map.2 ⟨_, hq, rfl⟩)), ← app, a2 q hq (hoc.1 hop), app]
        · exact b2 p h hop
      · intro p hp hop
        rcases memk.1 hp with ⟨rfl, h⟩ | ⟨q, hq, rfl⟩ | h
        · rw [b1 _ fun p hp => (ner p hp).symm, a1 _ fun p hp => by
            obtain ⟨e, he, rfl⟩ := List.mem_map.1 hp
            have := entries_ne_nil sub e he
            simpa using this, Staged.get_set, if_pos rfl]
        · rw [b1 _ (subr q (List.mem_map.2 ⟨_, hq, rfl⟩)), ← app, a3 q hq (hoc.1 hop)]
        · exact b3 p h hop
      · intro p hp hop
        rcases mem.1 hp with rfl | ⟨q, hq, rfl⟩ | h
        · exact absurd ho hop
        · rw [b1 _ (subr q hq), ← app]
          exact a4 q hq (fun h => hop (hoc.2 h))
        · exact b4 p h hop

end Semla
