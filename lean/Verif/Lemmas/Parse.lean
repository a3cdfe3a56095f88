import Mathlib.Data.List.TakeWhile
import Mathlib.Tactic.Conv
import Mathlib.Tactic.FinCases
import Verif.Model.Parse
import Verif.Spec.Wire

/-! # Lemmas about the header parser -/

set_option linter.unusedSimpArgs false
set_option linter.unnecessarySeqFocus false

namespace Semla

open Spec

/-- Non-empty pieces between occurrences of `d`. -/
def pieces (d : UInt8) (s : Bytes) : List Bytes := (s.splitOn d).filter (· ≠ [])

theorem splitOn_cons_self (d : UInt8) (s : Bytes) :
    (d :: s).splitOn d = [] :: s.splitOn d := by
  rw [List.splitOn_cons_eq_if_modifyHead]; simp

theorem pieces_nil (d : UInt8) : pieces d [] = [] := by
  simp [pieces, List.splitOn_nil]

theorem pieces_cons_self (d : UInt8) (s : Bytes) : pieces d (d :: s) = pieces d s := by
  simp [pieces, splitOn_cons_self]

theorem pieces_dropWhile (d : UInt8) (s : Bytes) :
    pieces d (s.dropWhile (· == d)) = pieces d s := by
  induction s with
  | nil => rfl
  | cons c cs ih =>
    by_cases h : c = d
    · subst h; simp [pieces_cons_self, ih]
    · simp [h]

theorem takeWhile_dropWhile_drop (d : UInt8) (s : Bytes) :
    (s.dropWhile (· ≠ d)) = [] ∧ s.takeWhile (· ≠ d) = s ∨
    ∃ r, s.dropWhile (· ≠ d) = d :: r := by
  induction s with
  | nil => simp
  | cons c cs ih =>
    by_cases h : c = d
    · right; subst h; exact ⟨cs, by simp⟩
    · rcases ih with ⟨h1, h2⟩ | ⟨r, hr⟩
      · left; simp_all
      · right; exact ⟨r, by simp_all⟩

theorem pieces_of_head_ne (d : UInt8) (s : Bytes) (hne : s ≠ []) (hd : s.head? ≠ some d) :
    pieces d s = s.takeWhile (· ≠ d) :: pieces d ((s.dropWhile (· ≠ d)).drop 1) := by
  have hnm : d ∉ s.takeWhile (· ≠ d) := by
    intro hm
    have := List.mem_takeWhile_imp hm
    simp at this
  have htw : s.takeWhile (· ≠ d) ≠ [] := by
    cases s with
    | nil => exact absurd rfl hne
    | cons c cs => simp at hd; simp [hd]
  rcases takeWhile_dropWhile_drop d s with ⟨h1, h2⟩ | ⟨r, hr⟩
  · rw [h1, h2]
    rw [h2] at hnm
    simp [pieces, List.splitOn_eq_singleton hnm, hne]
  · rw [hr]
    have : s = s.takeWhile (· ≠ d) ++ d :: r := by
      rw [← hr]; exact (List.takeWhile_append_dropWhile).symm
    conv_lhs => rw [this]
    rw [pieces, List.splitOn_append_cons_self_of_not_mem hnm]
    simp [pieces, List.filter_cons, htw]
    cases s with
    | nil => exact absurd rfl hne
    | cons c cs => simp at hd; simp [hd]

theorem head?_dropWhile_ne (d : UInt8) (s : Bytes) :
    (s.dropWhile (· == d)).head? ≠ some d := by
  induction s with
  | nil => simp
  | cons c cs ih =>
    by_cases h : c = d
    · subst h; simpa using ih
    · simp [h]

theorem strtokR_none {d : UInt8} {s : Bytes} (h : pieces d s = []) : strtokR d s = (none, []) := by
  rw [← pieces_dropWhile] at h
  unfold strtokR
  by_cases hs : s.dropWhile (· == d) = []
  · simp [hs]
  · rw [pieces_of_head_ne d _ hs (head?_dropWhile_ne d s)] at h
    cases h

theorem strtokR_some {d : UInt8} {s t : Bytes} {ts : List Bytes} (h : pieces d s = t :: ts) :
    ∃ rest, strtokR d s = (some t, rest) ∧ pieces d rest = ts := by
  rw [← pieces_dropWhile] at h
  unfold strtokR
  by_cases hs : s.dropWhile (· == d) = []
  · rw [hs] at h; simp [pieces_nil] at h
  · rw [pieces_of_head_ne d _ hs (head?_dropWhile_ne d s)] at h
    injection h with h1 h2
    simp only [hs, if_false]
    exact ⟨_, by rw [h1], h2⟩

theorem tokenLoop_eq (slots : Nat) (s : Bytes) (acc : List Bytes) :
    tokenLoop slots s acc =
      if (pieces 32 s).length ≤ slots then (acc ++ pieces 32 s, acc.length + (pieces 32 s).length)
      else (acc ++ (pieces 32 s).take slots, tooManyTokens) := by
  induction slots generalizing s acc with
  | zero =>
    unfold tokenLoop
    cases hp : pieces 32 s with
    | nil => rw [strtokR_none hp]; simp
    | cons t ts => obtain ⟨r, hr, _⟩ := strtokR_some hp; rw [hr]; simp
  | succ n ih =>
    unfold tokenLoop
    cases hp : pieces 32 s with
    | nil => rw [strtokR_none hp]; simp
    | cons t ts =>
      obtain ⟨r, hr, hrs⟩ := strtokR_some hp
      rw [hr]; simp only
      rw [ih, hrs]
      simp
      split <;> simp_all <;> omega

theorem tokenize_eq (msg : Bytes) :
    tokenize (cstr msg) =
      if (header msg).length ≤ 3 then (header msg, (header msg).length)
      else ((header msg).take 3, tooManyTokens) := by
  have hh : header msg = match (pieces 10 (cstr msg)).head? with
      | some line => pieces 32 line
      | none => [] := rfl
  unfold tokenize
  by_cases hs : cstr msg = []
  · simp [hs, hh, pieces_nil]
  · simp only [hs, if_false]
    cases hp : pieces 10 (cstr msg) with
    | nil =>
      rw [strtokR_none hp]; simp [tokenLoop_eq, hh, hp, pieces_nil]
    | cons t ts =>
      obtain ⟨r, hr, _⟩ := strtokR_some hp
      rw [hr]; simp [tokenLoop_eq, hh, hp, maxTokens]

/-! ### Integers -/

theorem isDigit_iff (c : UInt8) : isDigit c = true ↔ 48 ≤ c ∧ c ≤ 57 := by
  simp [isDigit]

theorem isSpace_iff (c : UInt8) : isSpace c = true ↔ c = 32 ∨ (9 ≤ c ∧ c ≤ 13) := by
  simp [isSpace]

theorem dropWhile_append_of_all {p : UInt8 → Bool} (a b : Bytes) (ha : ∀ c ∈ a, p c = true) :
    (a ++ b).dropWhile p = b.dropWhile p := by
  induction a with
  | nil => rfl
  | cons x xs ih =>
    have hx : p x = true := ha x (by simp)
    simp only [List.cons_append, List.dropWhile_cons, hx, if_true]
    exact ih (fun c hc => ha c (by simp [hc]))

theorem takeWhile_append_of_all {p : UInt8 → Bool} (a b : Bytes) (ha : ∀ c ∈ a, p c = true)
    (hb : ∀ c ∈ b.head?, p c = false) : (a ++ b).takeWhile p = a := by
  induction a with
  | nil =>
    cases b with
    | nil => rfl
    | cons x xs =>
      have := hb x (by simp)
      simp [this]
  | cons x xs ih =>
    have hx : p x = true := ha x (by simp)
    simp only [List.cons_append, List.takeWhile_cons, hx, if_true]
    rw [ih (fun c hc => ha c (by simp [hc]))]

theorem digit_not_space {c : UInt8} (h : isDigit c = true) : isSpace c = false := by
  rw [isDigit_iff] at h
  cases hs : isSpace c with
  | false => rfl
  | true =>
    rw [isSpace_iff] at hs
    exfalso
    rcases hs with rfl | ⟨h1, h2⟩
    · exact absurd h.1 (by decide)
    · have := h.1
      rw [UInt8.le_iff_toNat_le] at *
      have : (48:UInt8).toNat = 48 := rfl
      have : (13:UInt8).toNat = 13 := rfl
      omega

theorem digit_not_sign {c : UInt8} (h : isDigit c = true) : c ≠ 43 ∧ c ≠ 45 := by
  constructor <;> rintro rfl <;> revert h <;> decide

theorem scanLong_eq_val_iff (w : Bytes) (n : Int) : scanLong w = .val n ↔ Denotes w n := by
  constructor
  · intro h
    unfold scanLong at h
    have hw : w = w.takeWhile isSpace ++ w.dropWhile isSpace :=
      (List.takeWhile_append_dropWhile).symm
    have hws : ∀ c ∈ w.takeWhile isSpace, c = 32 ∨ (9 ≤ c ∧ c ≤ 13) := fun c hc =>
      (isSpace_iff c).1 (List.mem_takeWhile_imp hc)
    cases hd : w.dropWhile isSpace with
    | nil => rw [hd] at h; simp at h
    | cons c cs =>
      rw [hd] at h hw
      simp only at h
      generalize hb : (if (c == 43 || c == 45) = true then cs else c :: cs) = body at h
      by_cases hds : body.takeWhile isDigit = []
      · simp [hds] at h
      · simp only [hds, if_false, Scan.val.injEq] at h
        have hbody : body = body.takeWhile isDigit ++ body.dropWhile isDigit :=
          (List.takeWhile_append_dropWhile).symm
        refine ⟨w.takeWhile isSpace, if c == 43 || c == 45 then [c] else [],
          body.takeWhile isDigit, body.dropWhile isDigit, ?_, hws, ?_, hds, ?_, ?_, ?_⟩
        · conv_lhs => rw [hw]
          rw [List.append_assoc, List.append_assoc, ← hbody, ← hb]
          split <;> simp
        · by_cases h1 : c = 43
          · subst h1; simp
          · by_cases h2 : c = 45
            · subst h2; simp
            · simp [h1, h2]
        · intro x hx; exact (isDigit_iff x).1 (List.mem_takeWhile_imp hx)
        · intro x hx
          have := List.head?_dropWhile_not isDigit body
          rw [← isDigit_iff]
          have hx' : (body.dropWhile isDigit).head? = some x := hx
          rw [hx'] at this
          simp only at this
          rw [this]; decide
        · rw [← h]
          unfold clampLong longMin longMax digitsVal
          by_cases h2 : c = 45
          · subst h2; simp
          · by_cases h1 : c = 43
            · subst h1; simp
            · simp [h1, h2]
  · rintro ⟨ws, sign, ds, rest, rfl, hws, hsign, hne, hds, hrest, rfl⟩
    have hws' : ∀ c ∈ ws, isSpace c = true := fun c hc => (isSpace_iff c).2 (hws c hc)
    have hds' : ∀ c ∈ ds, isDigit c = true := fun c hc => (isDigit_iff c).2 (hds c hc)
    have hrest' : ∀ c ∈ rest.head?, isDigit c = false := by
      intro c hc
      have := hrest c hc
      rw [← isDigit_iff] at this
      simpa using this
    have htw := takeWhile_append_of_all ds rest hds' hrest'
    unfold scanLong
    rw [List.append_assoc, List.append_assoc, dropWhile_append_of_all ws _ hws']
    obtain ⟨d, ds', rfl⟩ := List.exists_cons_of_ne_nil hne
    have hd : isDigit d = true := hds' d (by simp)
    have hdsg := digit_not_sign hd
    rcases hsign with rfl | rfl | rfl
    · simp only [List.nil_append, List.cons_append, List.dropWhile_cons, digit_not_space hd]
      simp only [Bool.false_eq_true, if_false]
      have : (d == 43 || d == 45) = false := by simp [hdsg]
      simp only [this, Bool.false_eq_true, if_false]
      rw [← List.cons_append, htw]
      simp [hdsg, clampLong, longMin, longMax, digitsVal]
    · have hsp : ([43] ++ (d :: ds' ++ rest)).dropWhile isSpace = 43 :: (d :: ds' ++ rest) := by
        have : isSpace 43 = false := by decide
        simp [this]
      rw [hsp]
      have he : (if ((43 : UInt8) == 43 || (43 : UInt8) == 45) = true then d :: ds' ++ rest
          else 43 :: (d :: ds' ++ rest)) = d :: ds' ++ rest := by simp
      simp only [he, htw]
      simp [clampLong, longMin, longMax, digitsVal]
    · have hsp : ([45] ++ (d :: ds' ++ rest)).dropWhile isSpace = 45 :: (d :: ds' ++ rest) := by
        have : isSpace 45 = false := by decide
        simp [this]
      rw [hsp]
      have he : (if ((45 : UInt8) == 43 || (45 : UInt8) == 45) = true then d :: ds' ++ rest
          else 45 :: (d :: ds' ++ rest)) = d :: ds' ++ rest := by simp
      simp only [he, htw]
      simp [clampLong, longMin, longMax, digitsVal]

theorem Denotes.unique {w : Bytes} {n m : Int} (h1 : Denotes w n) (h2 : Denotes w m) : n = m := by
  rw [← scanLong_eq_val_iff] at h1 h2
  rw [h1] at h2
  simpa using h2

/-! ### Commands -/

theorem findCommand_spec (tok : Bytes) (c : CmdId) (hc : c ≠ .undefined) :
    findCommand tok = c ↔ c.name = tok := by
  constructor
  · intro h
    unfold findCommand at h
    cases hf : CmdId.defined.find? (fun c => c.name == tok) with
    | none => rw [hf] at h; exact absurd h.symm hc
    | some d =>
      rw [hf] at h
      simp only at h
      subst h
      simpa using List.find?_some hf
  · rintro rfl
    cases c <;> first | exact absurd rfl hc | decide

theorem parseCommand_eq (cap : Nat) (msg e : Bytes) :
    parseCommand cap msg e =
      parseWords cap ((header msg).take 3)
        (if (header msg).length ≤ 3 then (header msg).length else tooManyTokens) e := by
  have ht : tokenize (cstr msg) = ((header msg).take 3,
      if (header msg).length ≤ 3 then (header msg).length else tooManyTokens) := by
    rw [tokenize_eq]; split
    · rw [List.take_of_length_le (by assumption)]
    · rfl
  unfold parseCommand
  rw [ht]

/-- When an entry of `tokens` is read it has been stored: with `k` words in the header, the
first `min k 3` entries are present. -/
theorem parse_tokens_present (msg : Bytes) (k : Nat) (h3 : k < 3) :
    (tokenize (cstr msg)).1[k]? = (header msg)[k]? := by
  rw [tokenize_eq]; split
  · rfl
  · simp [List.getElem?_take, h3]

def shapeForm : Shape → Form
  | .plain => .simple
  | .num => .number
  | .len => .length
  | .numLen => .numberAndLength

theorem nbrTokens_shapeForm (sh : Shape) : (shapeForm sh).nbrTokens = sh.args + 1 := by
  cases sh <;> rfl

theorem findCommand_of_mem {c : CmdId} {name : Bytes} {sh : Shape}
    (h : (c, name, sh) ∈ commands) : findCommand name = c ∧ c ≠ .undefined ∧ c.name = name ∧
      c.form = shapeForm sh := by
  fin_cases h <;> decide

theorem findCommand_not_mem {w : Bytes} (h : ∀ e ∈ commands, e.2.1 ≠ w) :
    findCommand w = .undefined := by
  by_contra hc
  have hn := (findCommand_spec w _ hc).1 rfl
  have hm : ∀ c : CmdId, c ≠ .undefined → ∃ e ∈ commands, e.2.1 = c.name := by
    intro c hc; cases c <;> first | exact absurd rfl hc | decide
  obtain ⟨e, he, hen⟩ := hm _ hc
  exact h e he (hen.trans hn)

end Semla

namespace Semla

open Spec

theorem parseInt_of_denotes {w : Bytes} {n : Int} (h : Denotes w n) (cap : Nat) (tok e : Bytes) :
    parseInt cap w tok e = (false, n, e) := by
  unfold parseInt; rw [(scanLong_eq_val_iff w n).2 h]

theorem parseInt_of_not_denotes {w : Bytes} (h : ¬ ∃ n, Denotes w n) (cap : Nat) (tok e : Bytes) :
    ∃ m, parseInt cap w tok e = (true, 0, m) ∧ (m = e ∨ m.length ≤ cap - 1) := by
  unfold parseInt
  cases hs : scanLong w with
  | eof => exact ⟨e, rfl, Or.inl rfl⟩
  | noMatch => exact ⟨_, rfl, Or.inr (by simp only [snprintf, List.length_take]; omega)⟩
  | val n => exact absurd ⟨n, (scanLong_eq_val_iff w n).1 hs⟩ h

theorem snprintf_length (cap : Nat) (s : Bytes) : (snprintf cap s).length ≤ cap - 1 := by
  simp only [snprintf, List.length_take]; omega

theorem snprintfAt_ok {cap off : Nat} {old s : Bytes} (h : off < cap) (ho : old.length ≤ cap - 1) :
    ∃ m, snprintfAt cap off old s = .ok m ∧ m.length ≤ cap - 1 := by
  refine ⟨_, by simp only [snprintfAt, h, if_true]; rfl, ?_⟩
  split
  · simp only [List.length_append, List.length_take]
    omega
  · exact ho

theorem name_length_le (c : CmdId) : c.name.length ≤ maxCmdLength := by
  cases c <;> decide

/-- Accepted messages: the result of the parser. -/
theorem parse_of_accepts {msg : Bytes} {c : CmdId} {n : Int} {len : Nat}
    (h : Accepts msg c n len) (cap : Nat) (e : Bytes) :
    parseCommand cap msg e = .ok (.valid, ⟨c, n, len, none⟩, e) := by
  rw [parseCommand_eq]
  cases h with
  | plain hm hh =>
    obtain ⟨hf, hu, hn, hform⟩ := findCommand_of_mem hm
    simp [hh, parseWords, hf, hu, hform, shapeForm, Form.nbrTokens]
  | num hm hh hd =>
    obtain ⟨hf, hu, hn, hform⟩ := findCommand_of_mem hm
    simp [hh, parseWords, hf, hu, hform, shapeForm, Form.nbrTokens, parseInt_of_denotes hd]
  | len hm hh hd h0 =>
    obtain ⟨hf, hu, hn, hform⟩ := findCommand_of_mem hm
    simp [hh, parseWords, hf, hu, hform, shapeForm, Form.nbrTokens, parseInt_of_denotes hd, not_lt.2 h0]
  | numLen hm hh hd hd2 h0 =>
    obtain ⟨hf, hu, hn, hform⟩ := findCommand_of_mem hm
    simp [hh, parseWords, hf, hu, hform, shapeForm, Form.nbrTokens, parseInt_of_denotes hd,
      parseInt_of_denotes hd2, not_lt.2 h0]

/-- A token count that differs from the expected one. -/
theorem parseWords_count {cap n : Nat} {toks : List Bytes} {e name : Bytes} {c : CmdId}
    (hcap : 100 ≤ cap) (h0 : n ≠ 0) (ht : toks.getD 0 [] = name) (hf : findCommand name = c)
    (hu : c ≠ .undefined) (hname : c.name = name) (hne : n ≠ c.form.nbrTokens) :
    ∃ m, parseWords cap toks n e =
        .ok (if n > c.form.nbrTokens then .tooManyTokens else .tooFewTokens, .zero, m) ∧
      m.length ≤ cap - 1 := by
  have hl := name_length_le c
  rw [hname] at hl
  simp only [parseWords, h0, if_false, ht, hf, hu, hne, ne_eq, not_false_eq_true, if_true]
  generalize htext : b!"Too " ++ (if n > c.form.nbrTokens then b!"many" else b!"few")
        ++ b!" arguments for command " ++ name ++ b!". Expected form is " = text
  have hlen : text.length < cap := by
    rw [← htext]
    simp only [maxCmdLength] at hl
    split <;> simp <;> omega
  obtain ⟨m, hm, hml⟩ := snprintfAt_ok (old := snprintf cap text) (s := formTemplate c.form name) hlen
    (snprintf_length _ _)
  exact ⟨m, by rw [hm]; rfl, hml⟩

/-- Rejected messages: the result of the parser. -/
theorem parse_of_rejected {msg : Bytes} {g : Grammar} (h : Rejected msg g) {cap : Nat}
    (hcap : 100 ≤ cap) (e : Bytes) :
    ∃ m, parseCommand cap msg e = .ok (g, .zero, m) ∧ (m = e ∨ m.length ≤ cap - 1) := by
  rw [parseCommand_eq]
  cases h with
  | empty hh =>
    simp only [hh, parseWords]
    exact ⟨_, rfl, Or.inr (snprintf_length _ _)⟩
  | @unknown w ws hh hw =>
    have hf := findCommand_not_mem hw
    have h0 : (if (w :: ws).length ≤ 3 then (w :: ws).length else tooManyTokens) ≠ 0 := by
      split
      · simp
      · decide
    simp only [hh, parseWords, h0, if_false]
    simp only [List.take_succ_cons, List.getD_cons_zero, hf, if_true]
    exact ⟨_, rfl, Or.inr (snprintf_length _ _)⟩
  | @few c name sh ws hm hh hlt =>
    obtain ⟨hf, hu, hn, hform⟩ := findCommand_of_mem hm
    have hws : ws.length < 2 := by cases sh <;> simp only [Shape.args] at hlt <;> omega
    have hle : (name :: ws).length ≤ 3 := by simp; omega
    have hne : (name :: ws).length ≠ c.form.nbrTokens := by
      rw [hform, nbrTokens_shapeForm]; simp; omega
    have hng : ¬ (name :: ws).length > c.form.nbrTokens := by
      rw [hform, nbrTokens_shapeForm]; simp; omega
    rw [hh, if_pos hle]
    obtain ⟨m, h1, h2⟩ := parseWords_count (e := e) (toks := List.take 3 (name :: ws)) hcap
      (by simp) (by simp) hf hu hn hne
    rw [if_neg hng] at h1
    exact ⟨m, h1, Or.inr h2⟩
  | @many c name sh ws hm hh hlt =>
    obtain ⟨hf, hu, hn, hform⟩ := findCommand_of_mem hm
    rw [hh]
    generalize hk : (if (name :: ws).length ≤ 3 then (name :: ws).length else tooManyTokens) = k
    have hgt : k > c.form.nbrTokens := by
      rw [← hk, hform, nbrTokens_shapeForm]
      split
      · simp; omega
      · clear * -
        revert sh; intro sh; cases sh <;> decide
    obtain ⟨m, h1, h2⟩ := parseWords_count (e := e) (toks := List.take 3 (name :: ws)) hcap
      (n := k) (by omega) (by simp) hf hu hn (by omega)
    rw [if_pos hgt] at h1
    exact ⟨m, h1, Or.inr h2⟩
  | @notInt c name sh ws hm hh hlen hex =>
    obtain ⟨hf, hu, hn, hform⟩ := findCommand_of_mem hm
    rw [hh]
    cases sh with
    | plain =>
      simp [Shape.args] at hlen; subst hlen; simp at hex
    | num =>
      obtain ⟨w, rfl⟩ := List.length_eq_one_iff.1 hlen
      have hw : ¬ ∃ n, Denotes w n := by simpa using hex
      obtain ⟨m, h1, h2⟩ := parseInt_of_not_denotes hw cap name e
      refine ⟨m, ?_, h2⟩
      simp [parseWords, hf, hu, hform, shapeForm, Form.nbrTokens, h1]
    | len =>
      obtain ⟨w, rfl⟩ := List.length_eq_one_iff.1 hlen
      have hw : ¬ ∃ n, Denotes w n := by simpa using hex
      obtain ⟨m, h1, h2⟩ := parseInt_of_not_denotes hw cap name e
      refine ⟨m, ?_, h2⟩
      simp [parseWords, hf, hu, hform, shapeForm, Form.nbrTokens, h1]
    | numLen =>
      obtain ⟨w, v, rfl⟩ := List.length_eq_two.1 hlen
      by_cases hw : ∃ n, Denotes w n
      · obtain ⟨n, hn1⟩ := hw
        have hv : ¬ ∃ n, Denotes v n := by
          obtain ⟨x, hx, hxn⟩ := hex
          simp at hx
          rcases hx with rfl | rfl
          · exact absurd ⟨n, hn1⟩ hxn
          · exact hxn
        obtain ⟨m, h1, h2⟩ := parseInt_of_not_denotes hv cap name e
        refine ⟨m, ?_, h2⟩
        simp [parseWords, hf, hu, hform, shapeForm, Form.nbrTokens, h1, parseInt_of_denotes hn1]
      · obtain ⟨m, h1, h2⟩ := parseInt_of_not_denotes hw cap name e
        refine ⟨m, ?_, h2⟩
        simp [parseWords, hf, hu, hform, shapeForm, Form.nbrTokens, h1]
  | @negative c name sh ws n hm hsh hh hlen hall hlast hneg =>
    obtain ⟨hf, hu, hn, hform⟩ := findCommand_of_mem hm
    rw [hh]
    rcases hsh with rfl | rfl
    · obtain ⟨w, rfl⟩ := List.length_eq_one_iff.1 hlen
      obtain ⟨w', hw', hd⟩ := hlast
      simp at hw'; subst hw'
      refine ⟨snprintf cap (b!"Parse error. Length argument " ++ decInt n ++ b!" to command "
              ++ name ++ b!" is negative."), ?_, Or.inr (snprintf_length cap _)⟩
      · simp [parseWords, hf, hu, hform, shapeForm, Form.nbrTokens, parseInt_of_denotes hd, hneg]
    · obtain ⟨w, v, rfl⟩ := List.length_eq_two.1 hlen
      obtain ⟨w', hw', hd⟩ := hlast
      simp at hw'; subst hw'
      obtain ⟨n1, hn1⟩ := hall w (by simp)
      refine ⟨snprintf cap (b!"Parse error. Length argument " ++ decInt n ++ b!" to command "
              ++ name ++ b!" is negative."), ?_, Or.inr (snprintf_length cap _)⟩
      · simp [parseWords, hf, hu, hform, shapeForm, Form.nbrTokens, parseInt_of_denotes hd,
          parseInt_of_denotes hn1, hneg]

/-- Every message is accepted or rejected. -/
theorem accepts_or_rejected (msg : Bytes) :
    (∃ c n len, Accepts msg c n len) ∨ (∃ g, Rejected msg g ∧ g ≠ .valid) := by
  cases hh : header msg with
  | nil => exact Or.inr ⟨_, .empty hh, by decide⟩
  | cons w ws =>
    by_cases hw : ∀ e ∈ commands, e.2.1 ≠ w
    · exact Or.inr ⟨_, .unknown hh hw, by decide⟩
    · simp only [not_forall] at hw
      obtain ⟨⟨c, name, sh⟩, hm, hne⟩ := hw
      simp at hne; subst hne
      rcases Nat.lt_trichotomy ws.length
        sh.args with hlt | heq | hgt
      · exact Or.inr ⟨_, .few hm hh hlt, by decide⟩
      · by_cases hall : ∀ w ∈ ws, ∃ n, Denotes w n
        · cases sh with
          | plain =>
            simp [Shape.args] at heq; subst heq
            exact Or.inl ⟨_, _, _, .plain hm hh⟩
          | num =>
            obtain ⟨v, rfl⟩ := List.length_eq_one_iff.1 heq
            obtain ⟨n, hn⟩ := hall v (by simp)
            exact Or.inl ⟨_, _, _, .num hm hh hn⟩
          | len =>
            obtain ⟨v, rfl⟩ := List.length_eq_one_iff.1 heq
            obtain ⟨n, hn⟩ := hall v (by simp)
            by_cases h0 : 0 ≤ n
            · exact Or.inl ⟨_, _, _, .len hm hh hn h0⟩
            · exact Or.inr ⟨_, .negative hm (Or.inl rfl) hh heq hall ⟨v, by simp, hn⟩
                (by omega), by decide⟩
          | numLen =>
            obtain ⟨v, u, rfl⟩ := List.length_eq_two.1 heq
            obtain ⟨n, hn⟩ := hall v (by simp)
            obtain ⟨m, hm2⟩ := hall u (by simp)
            by_cases h0 : 0 ≤ m
            · exact Or.inl ⟨_, _, _, .numLen hm hh hn hm2 h0⟩
            · exact Or.inr ⟨_, .negative hm (Or.inr rfl) hh heq hall ⟨u, by simp, hm2⟩
                (by omega), by decide⟩
        · simp only [not_forall] at hall
          obtain ⟨x, hx, hxn⟩ := hall
          exact Or.inr ⟨_, .notInt hm hh heq ⟨x, hx, hxn⟩, by decide⟩
      · exact Or.inr ⟨_, .many hm hh hgt, by decide⟩

end Semla
