import Verif.Model.Send
import Verif.Model.Utils
import Verif.Lemmas.Dec

/-! # Lemmas about sending, headers of sent messages and data extraction -/

set_option linter.unusedSimpArgs false

namespace Semla

open Spec

/-- No NUL, newline or space. -/
def Plain (w : Bytes) : Prop := w ≠ [] ∧ ∀ c ∈ w, c ≠ 0 ∧ c ≠ 10 ∧ c ≠ 32

theorem name_plain (c : CmdId) : Plain c.name := by
  cases c <;> (unfold Plain; decide)

theorem digit_plain {c : UInt8} (h : isDigit c = true ∨ c = 45) : c ≠ 0 ∧ c ≠ 10 ∧ c ≠ 32 := by
  rcases h with h | rfl
  · refine ⟨?_, ?_, ?_⟩ <;> rintro rfl <;> revert h <;> decide
  · decide

theorem decNat_plain (n : Nat) : Plain (decNat n) :=
  ⟨decNat_ne_nil n, fun c hc => digit_plain (Or.inl (decNat_digits n c hc))⟩

theorem decInt_plain (n : Int) : Plain (decInt n) :=
  ⟨decInt_ne_nil n, fun c hc => digit_plain (decInt_bytes n c hc)⟩

theorem words_single {a : Bytes} (ha : Plain a) : words a = [a] := by
  have : (32 : UInt8) ∉ a := fun h => (ha.2 _ h).2.2 rfl
  simp [words, List.splitOn_eq_singleton this, ha.1]

theorem words_cons {a b : Bytes} (ha : Plain a) : words (a ++ 32 :: b) = a :: words b := by
  have : (32 : UInt8) ∉ a := fun h => (ha.2 _ h).2.2 rfl
  simp [words, List.splitOn_append_cons_self_of_not_mem this, ha.1]

/-- No NUL or newline. -/
def IsLine (l : Bytes) : Prop := ∀ c ∈ l, c ≠ 0 ∧ c ≠ 10

theorem Plain.isLine {a : Bytes} (h : Plain a) : IsLine a := fun c hc => ⟨(h.2 c hc).1, (h.2 c hc).2.1⟩

theorem IsLine.append {a b : Bytes} (ha : IsLine a) (hb : IsLine b) : IsLine (a ++ b) := by
  intro c hc
  rcases List.mem_append.1 hc with h | h
  · exact ha c h
  · exact hb c h

theorem isLine_space : IsLine [32] := by
  intro c hc; simp at hc; subst hc; decide

theorem cstr_of_noNul {a : Bytes} (h : ∀ c ∈ a, c ≠ 0) : cstr a = a := by
  unfold cstr
  rw [List.takeWhile_eq_self_iff]
  intro c hc; simpa using h c hc

theorem cstr_append_of_noNul {a b : Bytes} (h : ∀ c ∈ a, c ≠ 0) : cstr (a ++ b) = a ++ cstr b := by
  induction a with
  | nil => rfl
  | cons x xs ih =>
    have hx : x ≠ 0 := h x (by simp)
    have := ih (fun c hc => h c (by simp [hc]))
    unfold cstr at *
    simp [hx] at *
    exact this

theorem header_line {line rest : Bytes} (hl : IsLine line) (hne : line ≠ [])
    (hr : rest = [] ∨ ∃ r, rest = 10 :: r) : header (line ++ rest) = words line := by
  have hh : header (line ++ rest) = match (pieces 10 (cstr (line ++ rest))).head? with
      | some line => pieces 32 line
      | none => [] := rfl
  rw [hh, cstr_append_of_noNul (fun c hc => (hl c hc).1)]
  have hnl : ∀ c ∈ line, (decide (c ≠ 10)) = true := fun c hc => by simpa using (hl c hc).2
  have hhead : (line ++ cstr rest).head? ≠ some 10 := by
    obtain ⟨x, xs, rfl⟩ := List.exists_cons_of_ne_nil hne
    simpa using (hl x (by simp)).2
  rw [pieces_of_head_ne 10 _ (by simp [hne]) hhead]
  simp only [List.head?_cons]
  have : (line ++ cstr rest).takeWhile (· ≠ 10) = line := by
    apply takeWhile_append_of_all
    · exact hnl
    · rcases hr with rfl | ⟨r, rfl⟩
      · simp [cstr]
      · simp [cstr]
  rw [this]; rfl

theorem findNewline_line {line r : Bytes} (hl : IsLine line) :
    findNewline (line ++ 10 :: r) = some (some line.length) := by
  induction line with
  | nil => simp [findNewline]
  | cons x xs ih =>
    have hx := hl x (by simp)
    have := ih (fun c hc => hl c (by simp [hc]))
    simp [findNewline, hx.1, hx.2, this]

theorem findNewline_none {buf : Bytes} :
    findNewline buf = none ↔ IsLine buf := by
  induction buf with
  | nil => simp [findNewline, IsLine]
  | cons x xs ih =>
    by_cases h10 : x = 10
    · subst h10; simp [findNewline, IsLine]
    · by_cases h0 : x = 0
      · subst h0; simp [findNewline, IsLine]
      · simp [findNewline, h10, h0, ih, IsLine]

theorem findNewline_some {buf : Bytes} {i : Nat} (h : findNewline buf = some (some i)) :
    ∃ line r, buf = line ++ 10 :: r ∧ IsLine line ∧ line.length = i := by
  induction buf generalizing i with
  | nil => simp [findNewline] at h
  | cons x xs ih =>
    by_cases h10 : x = 10
    · subst h10; simp [findNewline] at h; subst h
      exact ⟨[], xs, rfl, by simp [IsLine], rfl⟩
    · by_cases h0 : x = 0
      · subst h0; simp [findNewline] at h
      · simp [findNewline, h10, h0] at h
        obtain ⟨a, h1, h2⟩ := h
        obtain ⟨line, r, rfl, hl, rfl⟩ := ih h1
        refine ⟨x :: line, r, rfl, ?_, by simpa using h2⟩
        intro c hc
        rcases List.mem_cons.1 hc with rfl | hc
        · exact ⟨h0, h10⟩
        · exact hl c hc

theorem findNewline_some_none {buf : Bytes} (h : findNewline buf = some none) :
    ∃ line r, buf = line ++ 0 :: r ∧ IsLine line := by
  induction buf with
  | nil => simp [findNewline] at h
  | cons x xs ih =>
    by_cases h10 : x = 10
    · subst h10; simp [findNewline] at h
    · by_cases h0 : x = 0
      · subst h0; exact ⟨[], xs, rfl, by simp [IsLine]⟩
      · simp [findNewline, h10, h0] at h
        obtain ⟨line, r, rfl, hl⟩ := ih h
        refine ⟨x :: line, r, rfl, ?_⟩
        intro c hc
        rcases List.mem_cons.1 hc with rfl | hc
        · exact ⟨h0, h10⟩
        · exact hl c hc

/-- Contents of a fresh buffer of `len + 1` bytes after copying `part` to its start and a NUL to
offset `len`. -/
def fillBuf (len : Nat) (part : Bytes) : Buf :=
  ⟨((part.map some ++ List.replicate (len + 1 - part.length) none).take len) ++ [some 0]⟩

/-- `extract_data` on a message whose header line is complete. -/
theorem extractData_line {line part : Bytes} (hl : IsLine line) (cmd : Command)
    (hlen : cmd.length < 2 ^ 63) (mallocOk : Nat → Bool) :
    extractData mallocOk cmd (line ++ 10 :: part) =
      if mallocOk (cmd.length + 1) then
        if part.length ≤ cmd.length + 1 then
          .ok ({ cmd with data := some (fillBuf cmd.length part) }, part.length)
        else .ub .oobWrite
      else .ok ({ cmd with data := none }, 0) := by
  have hsz : (cmd.length + 1) % sizeMod = cmd.length + 1 := by
    unfold sizeMod; omega
  unfold extractData
  rw [findNewline_line hl]
  have hd : (line ++ 10 :: part).drop (line.length + 1) = part := by
    rw [← List.drop_drop]; simp
  simp only [hd, hsz]
  by_cases hm : mallocOk (cmd.length + 1) = true
  · simp only [hm, if_true, writeCells]
    by_cases hp : part.length ≤ cmd.length + 1
    · simp only [List.length_replicate, Nat.zero_add, hp, if_true, Res.bind_ok]
      have hlen2 : (List.take 0 (List.replicate (cmd.length + 1) none) ++ part.map some ++
          List.drop part.length (List.replicate (cmd.length + 1) none)).length = cmd.length + 1 := by
        simp; omega
      simp only [hlen2, List.length_cons, List.length_nil, Nat.zero_add, Nat.le_refl, if_true,
        Res.bind_ok]
      have hdrop : List.drop (cmd.length + 1) (List.take 0 (List.replicate (cmd.length + 1) none) ++
          part.map some ++ List.drop part.length (List.replicate (cmd.length + 1) none)) = [] := by
        rw [List.drop_eq_nil_iff]; omega
      rw [hdrop]
      simp [fillBuf]
    · simp [hp]
  · simp [hm]

/-! ### Reading data buffers -/

theorem readCells_map_some (b : Bytes) (tail : List (Option UInt8)) :
    readCells (b.map some ++ tail) b.length = .ok b := by
  induction b with
  | nil => simp [readCells]
  | cons x xs ih => simp [readCells, ih]

theorem readCStr_map_some (b : Bytes) (tail : List (Option UInt8)) :
    readCStr (b.map some ++ some 0 :: tail) = .ok (cstr b) := by
  induction b with
  | nil => simp [readCStr, cstr]
  | cons x xs ih =>
    by_cases hx : x = 0
    · subst hx; simp [readCStr, cstr]
    · simp [readCStr, cstr, hx] at *
      rw [ih]; simp

end Semla
