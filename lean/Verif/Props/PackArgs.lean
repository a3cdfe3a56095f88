import Verif.Lemmas.PackArgs

/-! # Properties of the packaging tool's command line (C38) -/

namespace Semla.Props

open Semla Spec

/-- **C38, accepted command lines.** The tool accepts a command line exactly if it is a sequence of
pairs of a known argument name behind any one character and a non-empty value, without repeated
names. -/
theorem c38_accepts (args : List Bytes) :
    (∃ d, validateArguments args = .ok (some d)) ↔ ∃ ps, ArgPairs args ps ∧ DistinctNames ps := by
  have h0 : argSlots [] = emptyArgs := rfl
  constructor
  · rintro ⟨d, h⟩
    obtain ⟨qs, h1, h2, -⟩ := validateLoop_ok args [] d (by simp [DistinctNames]) (by simp) h
    exact ⟨qs, h1, h2⟩
  · rintro ⟨ps, h1, h2⟩
    exact ⟨_, validateLoop_pairs h1 [] (by simpa using h2) (by simp)⟩

/-- **C38, looking up.** In an accepted command line, looking up an argument gives the value that was
given for it, and nothing if it was not given. -/
theorem c38_lookup (args : List Bytes) (d : ArgData) (h : validateArguments args = .ok (some d))
    (ps : List (Bytes × Bytes)) (hp : ArgPairs args ps) (k : Bytes) (hk : k ∈ knownArguments) :
    (∀ v, (k, v) ∈ ps ↔ getValueOf d k = some v) ∧
    (getValueOf d k = none ↔ ∀ v, (k, v) ∉ ps) ∧
    (containsKey d k = true ↔ ∃ v, (k, v) ∈ ps) := by
  obtain ⟨qs, h1, h2, h3⟩ := validateLoop_ok args [] d (by simp [DistinctNames]) (by simp) h
  have hps : ps = qs := by
    clear h h2 h3
    induction hp generalizing qs with
    | nil => cases h1; rfl
    | cons _ _ _ ih =>
      cases h1 with
      | cons _ _ h1 => rw [ih _ h1]
  subst hps
  simp only [List.nil_append] at h2 h3
  subst h3
  have hmem : ∀ v, (k, v) ∈ ps → getValueOf (argSlots ps) k = some v :=
    fun v hv => getValueOf_slots_mem ps _ k v h2 hv
  have hnot : k ∉ ps.map (·.1) → getValueOf (argSlots ps) k = none :=
    fun hn => getValueOf_slots_not ps _ k (known_ne hk) hn
  have hex : k ∈ ps.map (·.1) ↔ ∃ v, (k, v) ∈ ps := by
    simp
  refine ⟨fun v => ⟨hmem v, fun hv => ?_⟩, ⟨fun hn v hv => ?_, fun hn => hnot fun hm => ?_⟩, ?_⟩
  · by_cases hm : k ∈ ps.map (·.1)
    · obtain ⟨w, hw⟩ := hex.1 hm
      have := hmem w hw
      rw [hv, Option.some.injEq] at this
      exact this ▸ hw
    · rw [hnot hm] at hv
      cases hv
  · rw [hmem v hv] at hn
    cases hn
  · obtain ⟨w, hw⟩ := hex.1 hm
    exact hn w hw
  · exact (containsKey_slots ps _ k (known_ne hk)).trans hex

/-- **C38, rejected command lines, partial.** Every other command line without empty arguments is
rejected.  (Empty arguments: `c38_empty_not`.) -/
theorem c38_rejects_partial (args : List Bytes) (hne : ∀ a ∈ args, a ≠ [])
    (h : ¬ ∃ ps, ArgPairs args ps ∧ DistinctNames ps) : validateArguments args = .ok none := by
  obtain ⟨r, hr⟩ := validateLoop_defined args hne emptyArgs
  cases r with
  | none => exact hr
  | some d => exact absurd ((c38_accepts args).1 ⟨d, hr⟩) h

/-- **C38 fails for empty arguments.** If after any acceptable pairs an empty argument stands where a
name is expected, the tool reads behind the end of that argument. -/
theorem c38_empty_not (before after : List Bytes) (ps : List (Bytes × Bytes))
    (h : ArgPairs before ps) (hd : DistinctNames ps) :
    validateArguments (before ++ [] :: after) = .ub .oobRead := by
  have key : ∀ {before : List Bytes} {qs : List (Bytes × Bytes)}, ArgPairs before qs →
      ∀ ps, DistinctNames (ps ++ qs) → (∀ p ∈ ps, p.1 ∈ knownArguments) →
      validateLoop (before ++ [] :: after) (argSlots ps) = .ub .oobRead := by
    intro before qs hq
    induction hq with
    | nil => intro ps _ _; rfl
    | @cons c k v args qs hkn hv _ ih =>
      intro ps hd hk
      have hnm : k ∉ ps.map (·.1) := by
        unfold DistinctNames at hd
        rw [List.map_append, List.nodup_append] at hd
        exact fun hm => hd.2.2 k hm k (by simp) rfl
      have hd2 : DistinctNames (ps ++ [(k, v)] ++ qs) := by simpa using hd
      have hd' : DistinctNames (ps ++ [(k, v)]) := by
        unfold DistinctNames at hd2 ⊢
        rw [List.map_append, List.nodup_append] at hd2
        exact hd2.1
      have hk' : ∀ p ∈ ps ++ [(k, v)], p.1 ∈ knownArguments := by
        intro p hp
        rcases List.mem_append.1 hp with hp | hp
        · exact hk p hp
        · simp only [List.mem_singleton] at hp
          rw [hp]
          exact hkn
      have hc : ¬ containsKey (argSlots ps) k = true :=
        fun hc => hnm ((containsKey_slots ps _ k (known_ne hkn)).1 hc)
      have hl := (lookupArgument_iff k).2 hkn
      simp [validateLoop, known_ne hkn, hl, hc, hv, addManifestData_argSlots hd' hk',
        ih _ hd2 hk']
  exact key h [] (by simpa using hd) (by simp)

-- two pairs, in either order and with odd prefixes; a repeated name; a missing value
example : ∃ d, validateArguments [b!"-version", b!"1.0", b!"+title", b!"My lib"] = .ok (some d) ∧
    getValueOf d b!"title" = some b!"My lib" ∧ getValueOf d b!"icon" = none := ⟨_, rfl, rfl, rfl⟩
example : ArgPairs [b!"-version", b!"1.0", b!"+title", b!"My lib"]
    [(b!"version", b!"1.0"), (b!"title", b!"My lib")] :=
  .cons (by decide) (by decide) (.cons (by decide) (by decide) .nil)
example : validateArguments [b!"-version", b!"1", b!"-version", b!"2"] = .ok none := rfl
example : validateArguments [b!"-version"] = .ok none := rfl
example : validateArguments [b!"-version", []] = .ok none := rfl
example : validateArguments [b!"-version", b!"1", [], b!"2"] = .ub .oobRead :=
  c38_empty_not [b!"-version", b!"1"] [b!"2"] [(b!"version", b!"1")]
    (.cons (by decide) (by decide) .nil) (by simp [DistinctNames])

end Semla.Props
