import Verif.Lemmas.Crypt

/-! # Helper lemmas: paths of library files -/

set_option linter.unusedSimpArgs false

namespace Semla

open Semla.Spec

theorem isName_not_sep {n : Bytes} (h : IsName n) : ∀ c ∈ n, isSep c = false := by
  intro c hc
  have := h.2 c hc
  simp [isSep, this.1, this.2.1]

theorem lastSepFrom_none (b : Bytes) (i acc : Nat) (h : ∀ c ∈ b, isSep c = false) :
    lastSepFrom b i acc = acc := by
  induction b generalizing i acc with
  | nil => rfl
  | cons c cs ih =>
    simp only [lastSepFrom, h c (by simp), Bool.false_eq_true, if_false]
    exact ih _ _ fun c hc => h c (by simp [hc])

theorem lastSepFrom_append (a b : Bytes) (i acc : Nat) :
    lastSepFrom (a ++ b) i acc = lastSepFrom b (i + a.length) (lastSepFrom a i acc) := by
  induction a generalizing i acc with
  | nil => rfl
  | cons c cs ih =>
    simp only [List.cons_append, lastSepFrom, ih, List.length_cons]
    congr 1; omega

theorem lastSlash_name (n : Bytes) (h : IsName n) : lastSlash n = 0 :=
  lastSepFrom_none _ _ _ fun c hc => isName_not_sep h c (List.mem_of_mem_take hc)

theorem lastSlash_join (a n : Bytes) (h : IsName n) (hl : (a ++ b!"/" ++ n).length ≤ 4096) :
    lastSlash (a ++ b!"/" ++ n) = a.length := by
  unfold lastSlash
  rw [List.take_of_length_le (by simpa [longFileNameMax] using hl), lastSepFrom_append,
    lastSepFrom_append, lastSepFrom_none n _ _ (isName_not_sep h)]
  simp [lastSepFrom, isSep]

/-- A slash within the first 4096 bytes, the name after it may be cut. -/
theorem lastSlash_join' (a n : Bytes) (h : IsName n) (hl : a.length + 1 ≤ 4096) :
    lastSlash (a ++ b!"/" ++ n) = a.length := by
  unfold lastSlash
  have h1 : (a ++ b!"/" ++ n).take longFileNameMax = a ++ b!"/" ++ n.take (longFileNameMax - (a.length + 1)) := by
    rw [List.take_append, List.take_of_length_le (by simpa [longFileNameMax] using hl)]
    simp
  rw [h1, lastSepFrom_append, lastSepFrom_append, lastSepFrom_none (n.take _) _ _ fun c hc =>
    isName_not_sep h c (List.mem_of_mem_take hc)]
  simp [lastSepFrom, isSep]

theorem relPath_snoc (ds : List Bytes) (n : Bytes) (hne : ds ≠ []) :
    relPath (ds ++ [n]) = relPath ds ++ b!"/" ++ n := by
  induction ds with
  | nil => simp at hne
  | cons d ds ih =>
    cases ds with
    | nil => simp [relPath]
    | cons e es =>
      have := ih (by simp)
      simp only [List.cons_append, relPath] at this ⊢
      rw [this]; simp

theorem relPath_ne_nil (ds : List Bytes) (hne : ds ≠ []) (hn : ∀ d ∈ ds, IsName d) :
    relPath ds ≠ [] := by
  cases ds with
  | nil => simp at hne
  | cons d ds =>
    have := (hn d (by simp)).1
    cases ds <;> simp [relPath, this]

/-- Key of a directory in the mask table. -/
def dirName (ds : List Bytes) : Bytes := if ds = [] then b!"/" else relPath ds

theorem path_facts (ds : List Bytes) (n : Bytes) (hd : ∀ d ∈ ds, IsName d) (hn : IsName n)
    (hl : (relPath ds).length + 1 ≤ 4096) :
    lastSlash (relPath (ds ++ [n])) = (if ds = [] then 0 else (relPath ds).length) ∧
    fileName (relPath (ds ++ [n])) = n ∧ dirKey (relPath (ds ++ [n])) = dirName ds ∧
    (relPath (ds ++ [n])).take (lastSlash (relPath (ds ++ [n]))) = relPath ds := by
  by_cases h : ds = []
  · subst h
    have := lastSlash_name n hn
    simp [relPath, fileName, dirKey, dirName, this]
  · have hne := relPath_ne_nil ds h hd
    have hpos : (relPath ds).length ≠ 0 := by simpa using hne
    rw [relPath_snoc ds n h]
    have hs := lastSlash_join' (relPath ds) n hn hl
    have ht : (relPath ds ++ b!"/" ++ n).take (relPath ds).length = relPath ds := by
      rw [List.append_assoc, List.take_left]
    refine ⟨by rw [hs, if_neg h], ?_, ?_, ?_⟩
    · unfold fileName
      rw [hs, if_neg hpos]
      have : (relPath ds).length + 1 = (relPath ds ++ b!"/").length := by simp
      rw [this, List.drop_left]
    · unfold dirKey dirName
      rw [hs, if_neg hpos, if_neg h, ht]
    · rw [hs, ht]

theorem relPath_head (ds : List Bytes) (hne : ds ≠ []) (hn : ∀ d ∈ ds, IsName d) :
    (relPath ds).head? ≠ some 47 := by
  cases ds with
  | nil => simp at hne
  | cons d ds =>
    obtain ⟨h1, h2⟩ := hn d (by simp)
    cases d with
    | nil => simp at h1
    | cons c cs =>
      have := (h2 c (by simp)).1
      cases ds <;> simp [relPath, this]

theorem append_sep_inj {a b x y : Bytes} (ha : ∀ c ∈ a, c ≠ (47 : UInt8)) (hb : ∀ c ∈ b, c ≠ (47 : UInt8))
    (h : a ++ 47 :: x = b ++ 47 :: y) : a = b ∧ x = y := by
  induction a generalizing b with
  | nil =>
    cases b with
    | nil => simpa using h
    | cons c cs => simp at h; exact absurd h.1.symm (hb c (by simp))
  | cons c cs ih =>
    cases b with
    | nil => simp at h; exact absurd h.1 (ha c (by simp))
    | cons d ds =>
      simp at h
      obtain ⟨h1, h2⟩ := ih (fun c hc => ha c (by simp [hc])) (fun c hc => hb c (by simp [hc])) h.2
      simp [h.1, h1, h2]

theorem relPath_inj {a b : List Bytes} (ha : ∀ d ∈ a, IsName d) (hb : ∀ d ∈ b, IsName d)
    (h : relPath a = relPath b) : a = b := by
  have sep : ∀ {d : Bytes}, IsName d → ∀ c ∈ d, c ≠ (47 : UInt8) := fun hd c hc => (hd.2 c hc).1
  induction a generalizing b with
  | nil =>
    cases b with
    | nil => rfl
    | cons d ds => exact absurd h.symm (relPath_ne_nil _ (by simp) hb)
  | cons d ds ih =>
    cases b with
    | nil => exact absurd h (relPath_ne_nil _ (by simp) ha)
    | cons f fs =>
      have hd := ha d (by simp)
      have hf := hb f (by simp)
      cases ds with
      | nil =>
        cases fs with
        | nil => simp [relPath] at h; simp [h]
        | cons g gs =>
          simp [relPath] at h
          have : (47 : UInt8) ∈ d := by rw [h]; simp
          exact absurd rfl (sep hd _ this)
      | cons g gs =>
        cases fs with
        | nil =>
          simp [relPath] at h
          have : (47 : UInt8) ∈ f := by rw [← h]; simp
          exact absurd rfl (sep hf _ this)
        | cons k ks =>
          simp only [relPath, List.append_assoc, List.cons_append, List.nil_append] at h
          obtain ⟨h1, h2⟩ := append_sep_inj (sep hd) (sep hf) h
          have := ih (fun d h => ha d (List.mem_cons_of_mem _ h)) (fun d h => hb d (List.mem_cons_of_mem _ h)) h2
          rw [h1, this]

theorem dirName_inj {a b : List Bytes} (ha : ∀ d ∈ a, IsName d) (hb : ∀ d ∈ b, IsName d)
    (h : dirName a = dirName b) : a = b := by
  unfold dirName at h
  split at h <;> split at h
  · simp_all
  · rename_i h1 h2
    have := relPath_head b h2 hb
    rw [← h] at this; simp at this
  · rename_i h1 h2
    have := relPath_head a h1 ha
    rw [h] at this; simp at this
  · exact relPath_inj ha hb h

end Semla
