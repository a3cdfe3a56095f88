import Verif.Model.PackArgs
import Verif.Spec.Pack
import Mathlib.Data.List.Perm.Subperm
import Mathlib.Data.List.Nodup

/-! # Lemmas on the argument array of the packaging tool -/

namespace Semla

open Spec

/-- The array after storing `ps`. -/
def argSlots (ps : List (Bytes × Bytes)) : ArgData := ps ++ List.replicate (14 - ps.length) ([], [])

theorem lookupArgument_iff (a : Bytes) : lookupArgument a = true ↔ a ∈ knownArguments := by
  have : validArguments = knownArguments := rfl
  simp [lookupArgument, this]

theorem known_ne {k : Bytes} (h : k ∈ knownArguments) : k ≠ [] := by
  intro hk
  subst hk
  simp [knownArguments] at h

theorem containsKey_free (n : Nat) (k : Bytes) (hk : k ≠ []) :
    containsKey (List.replicate n ([], [])) k = false := by
  induction n with
  | zero => rfl
  | succ n ih => simp [List.replicate_succ, containsKey, ih, Ne.symm hk]

theorem containsKey_slots (ps : List (Bytes × Bytes)) (n : Nat) (k : Bytes) (hk : k ≠ []) :
    containsKey (ps ++ List.replicate n ([], [])) k = true ↔ k ∈ ps.map (·.1) := by
  induction ps with
  | nil => simp [containsKey_free n k hk]
  | cons p ps ih =>
    obtain ⟨a, b⟩ := p
    by_cases h : a = k
    · simp [containsKey, h]
    · have h' : k ≠ a := fun e => h e.symm
      simp only [List.cons_append, containsKey, h, if_false, ih, List.map_cons, List.mem_cons, h',
        false_or]

theorem getValueOf_free (n : Nat) (k : Bytes) (hk : k ≠ []) :
    getValueOf (List.replicate n ([], [])) k = none := by
  induction n with
  | zero => rfl
  | succ n ih => simp [List.replicate_succ, getValueOf, ih, Ne.symm hk]

theorem getValueOf_slots_mem (ps : List (Bytes × Bytes)) (n : Nat) (k v : Bytes)
    (hd : DistinctNames ps) (h : (k, v) ∈ ps) :
    getValueOf (ps ++ List.replicate n ([], [])) k = some v := by
  induction ps with
  | nil => simp at h
  | cons p ps ih =>
    obtain ⟨a, b⟩ := p
    unfold DistinctNames at hd ih
    simp only [List.map_cons, List.nodup_cons] at hd
    rcases List.mem_cons.1 h with h | h
    · injection h with h1 h2
      simp [getValueOf, h1, h2]
    · have : a ≠ k := fun e => hd.1 (by rw [e]; exact List.mem_map.2 ⟨_, h, rfl⟩)
      simp only [List.cons_append, getValueOf, this, if_false]
      exact ih hd.2 h

theorem getValueOf_slots_not (ps : List (Bytes × Bytes)) (n : Nat) (k : Bytes) (hk : k ≠ [])
    (h : k ∉ ps.map (·.1)) : getValueOf (ps ++ List.replicate n ([], [])) k = none := by
  induction ps with
  | nil => simpa using getValueOf_free n k hk
  | cons p ps ih =>
    obtain ⟨a, b⟩ := p
    simp only [List.map_cons, List.mem_cons, not_or] at h
    simp only [List.cons_append, getValueOf, Ne.symm h.1, if_false]
    exact ih h.2

theorem addManifestData_slots (ps : List (Bytes × Bytes)) (hne : ∀ p ∈ ps, p.1 ≠ []) (n : Nat)
    (k v : Bytes) :
    addManifestData (ps ++ List.replicate (n + 1) ([], [])) k v =
      ps ++ [(k, v)] ++ List.replicate n ([], []) := by
  induction ps with
  | nil => simp [List.replicate_succ, addManifestData]
  | cons p ps ih =>
    obtain ⟨a, b⟩ := p
    have : a ≠ [] := hne (a, b) (by simp)
    simp only [List.cons_append, addManifestData, this, if_false]
    rw [ih fun p hp => hne p (by simp [hp])]

theorem argPairs_known {args : List Bytes} {ps : List (Bytes × Bytes)} (h : ArgPairs args ps) :
    ∀ p ∈ ps, p.1 ∈ knownArguments ∧ p.2 ≠ [] := by
  induction h with
  | nil => simp
  | cons hk hv _ ih =>
    intro p hp
    rcases List.mem_cons.1 hp with rfl | hp
    · exact ⟨hk, hv⟩
    · exact ih p hp

theorem distinct_length {ps : List (Bytes × Bytes)} (hd : DistinctNames ps)
    (hk : ∀ p ∈ ps, p.1 ∈ knownArguments) : ps.length ≤ 14 := by
  have h := (List.subperm_of_subset hd (l₂ := knownArguments) (by
    intro x hx
    obtain ⟨p, hp, rfl⟩ := List.mem_map.1 hx
    exact hk p hp)).length_le
  simpa [knownArguments] using h

theorem addManifestData_argSlots {ps : List (Bytes × Bytes)} {k v : Bytes}
    (hd : DistinctNames (ps ++ [(k, v)])) (hk : ∀ p ∈ ps ++ [(k, v)], p.1 ∈ knownArguments) :
    addManifestData (argSlots ps) k v = argSlots (ps ++ [(k, v)]) := by
  have hl := distinct_length hd hk
  simp only [List.length_append, List.length_cons, List.length_nil] at hl
  unfold argSlots
  obtain ⟨n, hn⟩ : ∃ n, 14 - ps.length = n + 1 := ⟨13 - ps.length, by omega⟩
  rw [hn, addManifestData_slots ps (fun p hp => known_ne (hk p (by simp [hp])))]
  simp only [List.length_append, List.length_cons, List.length_nil]
  congr 2
  omega

/-- What the loop accepts, given the pairs stored so far. -/
theorem validateLoop_ok (args : List Bytes) (ps : List (Bytes × Bytes)) (d : ArgData)
    (hd : DistinctNames ps) (hk : ∀ p ∈ ps, p.1 ∈ knownArguments)
    (h : validateLoop args (argSlots ps) = .ok (some d)) :
    ∃ qs, ArgPairs args qs ∧ DistinctNames (ps ++ qs) ∧ d = argSlots (ps ++ qs) := by
  match args with
  | [] =>
    simp only [validateLoop, Res.ok.injEq, Option.some.injEq] at h
    exact ⟨[], .nil, by simpa using hd, by simp [h]⟩
  | [] :: _ => simp [validateLoop] at h
  | [c :: k] =>
    simp only [validateLoop] at h
    split at h
    · split at h <;> simp at h
    · simp at h
  | (c :: k) :: v :: rest =>
    simp only [validateLoop] at h
    split at h
    · rename_i hl
      split at h
      · simp at h
      · rename_i hc
        split at h
        · rename_i hv
          have hkn := (lookupArgument_iff k).1 hl.2
          have hnm : k ∉ ps.map (·.1) := fun hm => hc ((containsKey_slots ps _ k hl.1).2 hm)
          have hd' : DistinctNames (ps ++ [(k, v)]) := by
            unfold DistinctNames at hd ⊢
            rw [List.map_append, List.nodup_append]
            refine ⟨hd, by simp, ?_⟩
            intro a ha b hb
            simp only [List.map_cons, List.map_nil, List.mem_singleton] at hb
            rintro rfl
            exact hnm (hb ▸ ha)
          have hk' : ∀ p ∈ ps ++ [(k, v)], p.1 ∈ knownArguments := by
            intro p hp
            rcases List.mem_append.1 hp with hp | hp
            · exact hk p hp
            · simp only [List.mem_singleton] at hp
              rw [hp]
              exact hkn
          rw [addManifestData_argSlots hd' hk'] at h
          obtain ⟨qs, h1, h2, h3⟩ := validateLoop_ok rest (ps ++ [(k, v)]) d hd' hk' h
          exact ⟨(k, v) :: qs, .cons hkn hv h1, by simpa using h2, by simpa using h3⟩
        · simp at h
    · simp at h

theorem validateLoop_pairs {args : List Bytes} {qs : List (Bytes × Bytes)} (hq : ArgPairs args qs)
    (ps : List (Bytes × Bytes)) (hd : DistinctNames (ps ++ qs))
    (hk : ∀ p ∈ ps, p.1 ∈ knownArguments) :
    validateLoop args (argSlots ps) = .ok (some (argSlots (ps ++ qs))) := by
  induction hq generalizing ps with
  | nil => simp [validateLoop]
  | @cons c k v args qs hkn hv _ ih =>
    have hnm : k ∉ ps.map (·.1) := by
      unfold DistinctNames at hd
      rw [List.map_append, List.nodup_append] at hd
      exact fun hm => hd.2.2 k hm k (by simp) rfl
    have hd2 : DistinctNames (ps ++ [(k, v)] ++ qs) := by simpa using hd
    have hd' : DistinctNames (ps ++ [(k, v)]) := by
      unfold DistinctNames at hd2 ⊢
      rw [List.map_append, List.nodup_append] at hd2
      exact hd2.1
    have hk' : ∀ p ∈ ps ++ [(k, v)], p.1 ∈ knownArguments := by
      intro p hp
      rcases List.mem_append.1 hp with hp | hp
      · exact hk p hp
      · simp only [List.mem_singleton] at hp
        rw [hp]
        exact hkn
    have hc : ¬ containsKey (argSlots ps) k = true :=
      fun hc => hnm ((containsKey_slots ps _ k (known_ne hkn)).1 hc)
    have hl := (lookupArgument_iff k).2 hkn
    have := ih (ps ++ [(k, v)]) hd2 hk'
    simp only [List.append_assoc, List.cons_append, List.nil_append] at this
    simp [validateLoop, known_ne hkn, hl, hc, hv, addManifestData_argSlots hd' hk', this]

theorem validateLoop_defined (args : List Bytes) (hne : ∀ a ∈ args, a ≠ []) (d : ArgData) :
    ∃ r, validateLoop args d = .ok r := by
  match args with
  | [] => exact ⟨_, rfl⟩
  | [] :: _ => exact absurd rfl (hne [] (by simp))
  | [c :: k] =>
    simp only [validateLoop]
    split
    · split <;> exact ⟨_, rfl⟩
    · exact ⟨_, rfl⟩
  | (c :: k) :: v :: rest =>
    simp only [validateLoop]
    split
    · split
      · exact ⟨_, rfl⟩
      · split
        · exact validateLoop_defined rest (fun a ha => hne a (by simp [ha])) _
        · exact ⟨_, rfl⟩
    · exact ⟨_, rfl⟩

end Semla
