import Verif.Model.Embed
import Verif.Spec.Crypt
import Verif.Lemmas.Send
import Mathlib.Data.List.Basic

/-!
# Properties of embedded keys

C48, C53.
-/

set_option linter.unusedSimpArgs false

namespace Semla.Props

open Semla Semla.Spec

/-! ## The header that is generated -/

theorem hexConstant_hexByte (b : UInt8) : hexConstant (hexByte b) = b := by
  have : ∀ n : Fin 256, hexConstant (hexByte (UInt8.ofNat n.val)) = UInt8.ofNat n.val := by decide +kernel
  have h := this ⟨b.toNat, b.toNat_lt⟩
  simpa using h

theorem stripLoop_spec : ∀ (n i j : Nat) (d : Bytes), i + n = d.length → j ≤ i →
    ∃ d', stripLoop n i j d = (j + ((d.drop i).filter (· ≠ 13)).length, d') ∧ d'.length = d.length ∧
      d' = d.take j ++ (d.drop i).filter (· ≠ 13) ++ d.drop (j + ((d.drop i).filter (· ≠ 13)).length) := by
  intro n
  induction n with
  | zero =>
    intro i j d h hj
    have : d.drop i = [] := List.drop_eq_nil_iff.2 (by omega)
    refine ⟨d, by simp [stripLoop, this], rfl, by simp [this]⟩
  | succ n ih =>
    intro i j d h hj
    have hlt : i < d.length := by omega
    have hd : d.drop i = d[i] :: d.drop (i + 1) := List.drop_eq_getElem_cons hlt
    have hg : d.getD i 0 = d[i] := by simp [List.getD, List.getElem?_eq_getElem hlt]
    unfold stripLoop
    rw [hg]
    by_cases hc : d[i] = 13
    · rw [if_pos hc]
      obtain ⟨d', h1, h2, h3⟩ := ih (i + 1) j d (by omega) (by omega)
      have hf : (d.drop i).filter (· ≠ 13) = (d.drop (i + 1)).filter (· ≠ 13) := by
        rw [hd, List.filter_cons]; simp [hc]
      rw [hf]
      exact ⟨d', h1, h2, h3⟩
    · rw [if_neg hc]
      have hset : (if i ≠ j then d.set j d[i] else d) = d.set j d[i] := by
        split
        · rfl
        · rename_i hij
          simp only [ne_eq, not_not] at hij
          subst hij
          simp
      rw [hset]
      obtain ⟨d', h1, h2, h3⟩ := ih (i + 1) (j + 1) (d.set j d[i]) (by simp; omega) (by omega)
      have hdr : ∀ k, j < k → (d.set j d[i]).drop k = d.drop k := fun k hk => List.drop_set_of_lt hk
      have hf : (d.drop i).filter (· ≠ 13) = d[i] :: (d.drop (i + 1)).filter (· ≠ 13) := by
        rw [hd, List.filter_cons]; simp [hc]
      rw [hdr _ (by omega)] at h1 h3
      have htk : (d.set j d[i]).take (j + 1) = d.take j ++ [d[i]] := by
        rw [List.take_succ, List.take_set_of_le (by omega)]
        simp [List.getElem?_set, show j < d.length by omega]
      refine ⟨d', ?_, by simpa using h2, ?_⟩
      · rw [h1, hf]; simp; omega
      · rw [h3, htk, hf, hdr _ (by omega)]
        simp only [List.append_assoc, List.cons_append, List.nil_append, List.length_cons]
        congr 4
        omega

/-- The array of the header: the remaining bytes, a NUL if anything was removed, and what was behind it. -/
theorem createHeader_eq (data : Bytes) :
    createHeader data = ⟨data.length + 1, (data.filter (· ≠ 13)).length,
      initWrites 0 (data.filter (· ≠ 13) ++
        (if (data.filter (· ≠ 13)).length < data.length then
          0 :: data.drop ((data.filter (· ≠ 13)).length + 1) else [])) ++ [(data.length, b!"0")]⟩ := by
  obtain ⟨d', h1, h2, h3⟩ := stripLoop_spec data.length 0 0 data (by omega) (by omega)
  unfold createHeader
  simp only [h1, List.drop_zero, Nat.zero_add, KeyHeader.mk.injEq, true_and, List.append_cancel_right_eq]
  simp only [List.take_zero, List.nil_append, List.drop_zero, Nat.zero_add] at h3
  congr 1
  have hle : (data.filter (· ≠ 13)).length ≤ data.length := List.length_filter_le _ _
  split
  · rename_i hlt
    rw [h3, List.set_append_right _ _ (Nat.le_refl _), Nat.sub_self,
      List.drop_eq_getElem_cons hlt, List.set_cons_zero]
  · rename_i hlt
    have : data.drop (data.filter (· ≠ 13)).length = [] := List.drop_eq_nil_iff.2 (by omega)
    rw [h3, this]

theorem assignAll_append (a b : List (Nat × Bytes)) (cells : List (Option UInt8)) :
    assignAll (a ++ b) cells = (assignAll a cells).bind (assignAll b) := by
  induction a generalizing cells with
  | nil => rfl
  | cons x xs ih =>
    obtain ⟨i, s⟩ := x
    simp only [List.cons_append, assignAll]
    cases writeCells cells i [hexConstant s] with
    | ub u => rfl
    | ok c => simp only [Res.bind_ok, ih]

theorem assignAll_init : ∀ (d : Bytes) (done rest : List (Option UInt8)), d.length ≤ rest.length →
    assignAll (initWrites done.length d) (done ++ rest) = .ok (done ++ d.map some ++ rest.drop d.length) := by
  intro d
  induction d with
  | nil => intro done rest _; simp [initWrites, assignAll]
  | cons b bs ih =>
    intro done rest h
    cases rest with
    | nil => simp at h
    | cons r rs =>
      simp only [initWrites, assignAll, hexConstant_hexByte]
      have : writeCells (done ++ r :: rs) done.length [b] = .ok ((done ++ [some b]) ++ rs) := by
        unfold writeCells
        rw [if_pos (by simp)]
        simp
      rw [this, Res.bind_ok]
      have h2 := ih (done ++ [some b]) rs (by simpa using h)
      simp only [List.length_append, List.length_cons, List.length_nil, Nat.zero_add] at h2
      rw [h2]
      simp

/-- The array after initialisation. -/
theorem initialize_eq (data : Bytes) :
    (createHeader data).initialize = .ok ((data.filter (· ≠ 13)).map some ++
        (if (data.filter (· ≠ 13)).length < data.length then
          some 0 :: (data.drop ((data.filter (· ≠ 13)).length + 1)).map some else []) ++ [some 0]) := by
  have hle : (data.filter (· ≠ 13)).length ≤ data.length := List.length_filter_le _ _
  rw [createHeader_eq]
  unfold KeyHeader.initialize
  simp only
  set d := data.filter (· ≠ 13) ++
        (if (data.filter (· ≠ 13)).length < data.length then
          0 :: data.drop ((data.filter (· ≠ 13)).length + 1) else []) with hd
  have hl : d.length = data.length := by
    rw [hd]; split
    · simp only [List.length_append, List.length_cons, List.length_drop]; omega
    · simp only [List.length_append, List.length_nil]; omega
  rw [assignAll_append]
  have h1 := assignAll_init d [] (List.replicate (data.length + 1) none) (by simp; omega)
  simp only [List.nil_append, List.length_nil] at h1
  rw [h1]
  have hm : d.map some = (data.filter (· ≠ 13)).map some ++ (if (data.filter (· ≠ 13)).length < data.length then
          some 0 :: (data.drop ((data.filter (· ≠ 13)).length + 1)).map some else []) := by
    rw [hd, List.map_append]; split <;> simp
  rw [← hm]
  simp only [Res.bind, assignAll, writeCells, hl, List.drop_replicate]
  have : hexConstant b!"0" = 0 := by decide
  rw [if_pos (by simp [hl])]
  simp [hl, this]

/-- **C48, contents.** For every key file: after initialisation the array holds the file with carriage returns
removed, followed by a NUL; the length macro is the number of these bytes; every cell has been written, and
nothing outside the array. -/
theorem c48_contents (data : Bytes) : ∃ cells, (createHeader data).initialize = .ok cells ∧
    (createHeader data).declared = cells.length ∧ cells.length = data.length + 1 ∧
    (createHeader data).len = (data.filter (· ≠ 13)).length ∧
    cells.take (createHeader data).len = (data.filter (· ≠ 13)).map some ∧
    cells[(createHeader data).len]? = some (some 0) ∧ (∀ c ∈ cells, c ≠ none) := by
  have hle : (data.filter (· ≠ 13)).length ≤ data.length := List.length_filter_le _ _
  have hlen : (createHeader data).len = (data.filter (· ≠ 13)).length := by rw [createHeader_eq]
  have hdec : (createHeader data).declared = data.length + 1 := by rw [createHeader_eq]
  refine ⟨_, initialize_eq data, ?_, ?_, hlen, ?_, ?_, ?_⟩
  · rw [hdec]; split
    · simp only [List.length_append, List.length_map, List.length_cons, List.length_drop, List.length_nil]; omega
    · simp only [List.length_append, List.length_map, List.length_nil, List.length_cons]; omega
  · split
    · simp only [List.length_append, List.length_map, List.length_cons, List.length_drop, List.length_nil]; omega
    · simp only [List.length_append, List.length_map, List.length_nil, List.length_cons]; omega
  · rw [hlen, List.append_assoc, List.take_left' (by simp)]
  · rw [hlen, List.append_assoc, List.getElem?_append_right (by simp)]
    split <;> simp
  · intro c hc
    split at hc <;> simp only [List.mem_append, List.mem_map, List.mem_cons, List.not_mem_nil, or_false,
      or_assoc] at hc
    · rcases hc with ⟨_, _, rfl⟩ | rfl | ⟨_, _, rfl⟩ | rfl <;> simp
    · rcases hc with ⟨_, _, rfl⟩ | rfl <;> simp

/-- The array after clearing. -/
theorem clear_eq (data : Bytes) : ∃ cells, (createHeader data).initialize = .ok cells ∧
    (createHeader data).clear cells = .ok (List.replicate (createHeader data).len (some 0) ++
      cells.drop (createHeader data).len) := by
  have hle : (data.filter (· ≠ 13)).length ≤ data.length := List.length_filter_le _ _
  obtain ⟨cells, h1, -, h2, h3, -⟩ := c48_contents data
  refine ⟨cells, h1, ?_⟩
  unfold KeyHeader.clear writeCells
  rw [if_pos (by simp; omega)]
  simp

/-- **C48, clearing** (full statement: every byte of the array is zero afterwards; see below).  Clearing
overwrites the key as far as its declared length reaches, and the NUL behind it is kept; if at most one
carriage return was removed, nothing of the key file is left in the array. -/
theorem c48_clear_partial (data : Bytes) : ∃ cells cells', (createHeader data).initialize = .ok cells ∧
    (createHeader data).clear cells = .ok cells' ∧ cells'.length = cells.length ∧
    (∀ i ≤ (createHeader data).len, cells'[i]? = some (some 0)) ∧
    (data.count 13 ≤ 1 → ∀ c ∈ cells', c = some 0) := by
  have hle : (data.filter (· ≠ 13)).length ≤ data.length := List.length_filter_le _ _
  have hlen : (createHeader data).len = (data.filter (· ≠ 13)).length := by rw [createHeader_eq]
  obtain ⟨cells, h1, h2⟩ := clear_eq data
  refine ⟨cells, _, h1, h2, ?_, ?_, ?_⟩
  · obtain ⟨cells0, h3, -, h4, -⟩ := c48_contents data
    rw [h1] at h3; cases h3
    simp; omega
  · intro i hi
    obtain ⟨cells0, h3, -, h4, h5, h6, h7, -⟩ := c48_contents data
    rw [h1] at h3; cases h3
    by_cases hlt : i < (createHeader data).len
    · rw [List.getElem?_append_left (by simpa using hlt)]
      simp [hlt]
    · have : i = (createHeader data).len := by omega
      subst this
      rw [List.getElem?_append_right (by simp)]
      simpa using h7
  · intro hcnt c hc
    have hsum : (data.filter (· ≠ 13)).length + data.count 13 = data.length := by
      clear h1 h2 hlen hle hcnt hc
      induction data with
      | nil => rfl
      | cons x xs ih =>
        by_cases hx : x = 13
        · subst hx; simp only [List.count_cons_self, List.length_cons]
          rw [List.filter_cons_of_neg (by simp)]; omega
        · rw [List.filter_cons_of_pos (by simpa using hx), List.count_cons_of_ne (by simpa using hx)]
          simp only [List.length_cons]; omega
    rw [initialize_eq] at h1
    cases h1
    rw [hlen] at hc
    simp only [List.mem_append, List.mem_replicate] at hc
    rcases hc with hc | hc
    · exact hc.2
    · rw [List.append_assoc, List.drop_left' (by simp)] at hc
      split at hc
      · have : data.drop ((data.filter (· ≠ 13)).length + 1) = [] := List.drop_eq_nil_iff.2 (by omega)
        rw [this] at hc
        simpa using hc
      · simpa using hc

/-- **C48 is false for clearing**: with two carriage returns in the key file, its last byte survives. -/
theorem c48_clear_not : ∃ data cells cells', (createHeader data).initialize = .ok cells ∧
    (createHeader data).clear cells = .ok cells' ∧ data.getLast? = some 75 ∧ some 75 ∈ cells' :=
  ⟨b!"\r\rK", _, _, by rfl, by rfl, rfl, by decide⟩

/-- Keys with and without carriage returns. -/
example : (createHeader b!"A\r\nB").initialize = .ok [some 65, some 10, some 66, some 0, some 0] ∧
    (createHeader b!"A\r\nB").len = 3 ∧ (createHeader b!"AB").initialize = .ok [some 65, some 66, some 0] ∧
    (b!"A\r\nB").count 13 ≤ 1 := by decide +kernel

/-! ## C53 -/

/-- **C53, what holds** (full statement: for every draw).  The key drawn at build time is declared with its
full length of 32 bytes if and only if no carriage return was drawn. -/
theorem c53_length_partial {draw : Bytes} (h : draw.length = 32) : (createHeader draw).len = 32 ↔ 13 ∉ draw := by
  rw [createHeader_eq]
  simp only
  rw [← h, List.length_filter_eq_length_iff]
  simp only [decide_eq_true_eq]
  constructor
  · intro hh hm; exact hh 13 hm rfl
  · rintro hh a ha rfl; exact hh ha

/-- **C53 is false**: for every length from 0 to 32 there are draws that are declared with just that length. -/
theorem c53_not {n : Nat} (h : n ≤ 32) : ∃ draw : Bytes, draw.length = 32 ∧ (createHeader draw).len = n := by
  refine ⟨List.replicate n 1 ++ List.replicate (32 - n) 13, by simp; omega, ?_⟩
  rw [createHeader_eq]
  simp [List.filter_append, List.filter_replicate]

/-- **C53, what the other theorems need.** Every draw gives a key array of which 32 bytes can be read, and a
declared length of at most 32. -/
theorem c53_usable {draw : Bytes} (h : draw.length = 32) : ∃ key cells, (createHeader draw).initialize = .ok cells ∧
    readCells cells 32 = .ok key ∧ key.length = 32 ∧ (createHeader draw).len ≤ 32 ∧
    (13 ∉ draw → key = draw) := by
  have hle : (draw.filter (· ≠ 13)).length ≤ draw.length := List.length_filter_le _ _
  have hlen : (createHeader draw).len = (draw.filter (· ≠ 13)).length := by rw [createHeader_eq]
  have hi := initialize_eq draw
  by_cases hlt : (draw.filter (· ≠ 13)).length < draw.length
  · simp only [hlt, if_true] at hi
    refine ⟨draw.filter (· ≠ 13) ++ 0 :: draw.drop ((draw.filter (· ≠ 13)).length + 1), _, hi, ?_, ?_,
      by omega, ?_⟩
    · have e : (draw.filter (· ≠ 13) ++ 0 :: draw.drop ((draw.filter (· ≠ 13)).length + 1)).length = 32 := by
        simp only [List.length_append, List.length_cons, List.length_drop]; omega
      have := readCells_map_some (draw.filter (· ≠ 13) ++ 0 :: draw.drop ((draw.filter (· ≠ 13)).length + 1))
        [some 0]
      rw [e] at this
      rw [← this]
      simp
    · simp only [List.length_append, List.length_cons, List.length_drop]; omega
    · intro hm
      exfalso
      have := (c53_length_partial h).2 hm
      omega
  · simp only [hlt, if_false] at hi
    have h32 : (draw.filter (· ≠ 13)).length = 32 := by omega
    refine ⟨draw.filter (· ≠ 13), _, hi, ?_, h32, by omega, ?_⟩
    · have := readCells_map_some (draw.filter (· ≠ 13)) [some 0]
      rw [h32] at this
      rw [← this]
      simp
    · intro hm
      rw [List.filter_eq_self]
      intro a ha
      simp only [decide_eq_true_eq]
      rintro rfl
      exact hm ha

example : (List.replicate 32 (7 : UInt8)).length = 32 ∧ (13 : UInt8) ∉ List.replicate 32 (7 : UInt8) := by decide

end Semla.Props
