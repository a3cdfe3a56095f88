import Verif.Spec.Diag
import Verif.Lemmas.Lve
import Verif.Lemmas.Tool

/-!
# Lemmas about error messages
-/

set_option linter.unusedSimpArgs false

namespace Semla

open Spec

theorem scanLong_blank {w : Bytes} : scanLong w = .eof ↔ Blank w := by
  have hd : w.dropWhile isSpace = [] ↔ Blank w := by
    unfold Blank
    simp only [List.dropWhile_eq_nil_iff, isSpace_iff]
  unfold scanLong
  rw [← hd]
  cases w.dropWhile isSpace with
  | nil => simp
  | cons c cs =>
    simp only [reduceCtorEq, iff_false]
    generalize List.takeWhile isDigit (if c == 43 || c == 45 then cs else c :: cs) = ds
    by_cases h : ds = [] <;> simp [h]

theorem parseInt_blank {w : Bytes} (h : Blank w) (cap : Nat) (tok e : Bytes) : parseInt cap w tok e = (true, 0, e) := by
  unfold parseInt; rw [scanLong_blank.2 h]

theorem parseInt_nonint {w : Bytes} (h : ¬ ∃ n, Denotes w n) (hb : ¬ Blank w) (cap : Nat) (tok e : Bytes) :
    parseInt cap w tok e = (true, 0, (b!"Parse error. Argument " ++ w ++ b!" to command " ++ tok ++
      b!" is not an integer.").take (cap - 1)) := by
  unfold parseInt
  cases hs : scanLong w with
  | eof => exact absurd (scanLong_blank.1 hs) hb
  | noMatch => rfl
  | val n => exact absurd ⟨n, (scanLong_eq_val_iff w n).1 hs⟩ h

theorem blank_not_denotes {w : Bytes} (h : Blank w) : ¬ ∃ n, Denotes w n := by
  rintro ⟨n, hn⟩
  have := (scanLong_eq_val_iff w n).2 hn
  rw [scanLong_blank.2 h] at this
  simp at this

theorem decInt_neg {n : Int} (h : n < 0) : decInt n = b!"-" ++ decNat n.natAbs := by
  unfold decInt
  rw [if_pos h]
  rfl

theorem parseWords_count_text {cap n : Nat} {toks : List Bytes} {e name : Bytes} {c : CmdId} {sh : Shape}
    (hcap : 100 ≤ cap) (h0 : n ≠ 0) (ht : toks.getD 0 [] = name) (hm : (c, name, sh) ∈ commands)
    (hne : n ≠ sh.args + 1) :
    parseWords cap toks n e = .ok (if n > sh.args + 1 then .tooManyTokens else .tooFewTokens, .zero,
      b!"Too " ++ (if n > sh.args + 1 then b!"many" else b!"few") ++ b!" arguments for command " ++ name ++
        b!". Expected form is " ++ name ++ sh.form) := by
  obtain ⟨hf, hu, hn, hform⟩ := findCommand_of_mem hm
  have hnb : c.form.nbrTokens = sh.args + 1 := by rw [hform, nbrTokens_shapeForm]
  have hft : formTemplate c.form name = name ++ sh.form := by
    rw [hform]
    cases sh <;> simp [shapeForm, formTemplate, Shape.form]
  have hl := name_length_le c
  rw [hn] at hl
  have hl2 : (name ++ sh.form).length ≤ 27 := by
    simp [commands] at hm
    rcases hm with hm | hm | hm | hm | hm | hm | hm | hm | hm | hm | hm | hm | hm | hm <;>
      (obtain ⟨-, rfl, rfl⟩ := hm; decide)
  simp only [parseWords, h0, if_false, ht, hf, hu, hne, ne_eq, not_false_eq_true, if_true, hnb, hft]
  generalize htext : b!"Too " ++ (if n > sh.args + 1 then b!"many" else b!"few")
        ++ b!" arguments for command " ++ name ++ b!". Expected form is " = text
  have hlen : text.length + (name ++ sh.form).length < cap := by
    rw [← htext]
    simp only [maxCmdLength] at hl
    split <;> simp at hl2 ⊢ <;> omega
  have h1 : text.length < cap := by omega
  have hsn : snprintf cap text = text := List.take_of_length_le (by omega)
  simp only [snprintfAt, h1, if_true, hsn, Res.bind_ok]
  rw [if_pos (Nat.le_refl _),
    List.take_of_length_le (i := text.length) (by omega),
    List.take_of_length_le (by omega), List.append_assoc]

/-- What the parser leaves in the error buffer. -/
theorem parse_text {msg : Bytes} {g : Grammar} (h : Rejected msg g) {cap : Nat} (hcap : 100 ≤ cap) (e : Bytes) :
    (BlankArgument msg ∧ parseCommand cap msg e = .ok (g, .zero, e)) ∨
    (¬ BlankArgument msg ∧ ∃ text, Complaint msg text ∧
      parseCommand cap msg e = .ok (g, .zero, text.take (cap - 1))) := by
  have nob : ∀ {name ws}, header msg = name :: ws →
      (∀ c sh, (c, name, sh) ∈ commands → ws.length = sh.args → ∀ good w more, ws = good ++ w :: more →
        (∀ v ∈ good, ∃ n, Denotes v n) → ¬ Blank w) → ¬ BlankArgument msg := by
    rintro name ws hh hall ⟨c, name', sh, good, w, more, hm, hh', hl, hg, hb⟩
    rw [hh] at hh'
    simp only [List.cons.injEq] at hh'
    obtain ⟨rfl, rfl⟩ := hh'
    exact hall c sh hm hl good w more rfl hg hb
  have uniq : ∀ {c c' name sh sh'}, (c, name, sh) ∈ commands → (c', name, sh') ∈ commands → sh = sh' := by
    intro c c' name sh sh' h1 h2
    obtain ⟨h3, -, -, h4⟩ := findCommand_of_mem h1
    obtain ⟨h5, -, -, h6⟩ := findCommand_of_mem h2
    rw [h3] at h5
    subst h5
    rw [h4] at h6
    cases sh <;> cases sh' <;> first | rfl | simp [shapeForm] at h6
  cases h with
  | empty hh =>
    refine Or.inr ⟨?_, _, .empty hh, ?_⟩
    · rintro ⟨c, name', sh, good, w, more, hm, hh', -⟩
      rw [hh] at hh'; simp at hh'
    · rw [parseCommand_eq, hh]
      rfl
  | @unknown w ws hh hw =>
    have hf := findCommand_not_mem hw
    have h0 : (if (w :: ws).length ≤ 3 then (w :: ws).length else tooManyTokens) ≠ 0 := by
      split
      · simp
      · decide
    refine Or.inr ⟨nob hh fun c sh hm => absurd rfl (hw _ hm), _, .unknown hh hw, ?_⟩
    rw [parseCommand_eq]
    simp only [hh, parseWords, h0, if_false]
    simp only [List.take_succ_cons, List.getD_cons_zero, hf, if_true]
    rfl
  | @few c name sh ws hm hh hlt =>
    refine Or.inr ⟨nob hh fun c' sh' hm' hl => ?_, _, .few hm hh hlt, ?_⟩
    · have := uniq hm hm'; subst this; omega
    · have hws : ws.length < 2 := by cases sh <;> simp only [Shape.args] at hlt <;> omega
      have hle : (name :: ws).length ≤ 3 := by simp; omega
      rw [parseCommand_eq, hh, if_pos hle]
      have hng : ¬ (name :: ws).length > sh.args + 1 := by simp; omega
      rw [parseWords_count_text hcap (by simp) (by simp) hm (by simp; omega), if_neg hng, if_neg hng,
        List.take_of_length_le]
      · rfl
      · have hl2 : (name ++ sh.form).length ≤ 27 ∧ name.length ≤ 17 := by
          simp [commands] at hm
          rcases hm with hm | hm | hm | hm | hm | hm | hm | hm | hm | hm | hm | hm | hm | hm <;>
            (obtain ⟨-, rfl, rfl⟩ := hm; decide)
        simp at hl2 ⊢; omega
  | @many c name sh ws hm hh hlt =>
    refine Or.inr ⟨nob hh fun c' sh' hm' hl => ?_, _, .many hm hh hlt, ?_⟩
    · have := uniq hm hm'; subst this; omega
    · rw [parseCommand_eq, hh]
      generalize hk : (if (name :: ws).length ≤ 3 then (name :: ws).length else tooManyTokens) = k
      have hgt : k > sh.args + 1 := by
        rw [← hk]
        split
        · simp; omega
        · clear * -
          revert sh; intro sh; cases sh <;> decide
      rw [parseWords_count_text hcap (by omega) (by simp) hm (by omega), if_pos hgt, if_pos hgt,
        List.take_of_length_le]
      · rfl
      · have hl2 : (name ++ sh.form).length ≤ 27 ∧ name.length ≤ 17 := by
          simp [commands] at hm
          rcases hm with hm | hm | hm | hm | hm | hm | hm | hm | hm | hm | hm | hm | hm | hm <;>
            (obtain ⟨-, rfl, rfl⟩ := hm; decide)
        simp at hl2 ⊢; omega
  | @notInt c name sh ws hm hh hlen hex =>
    obtain ⟨hf, hu, hn, hform⟩ := findCommand_of_mem hm
    have key : ∀ good w more, ws = good ++ w :: more → (∀ v ∈ good, ∃ n, Denotes v n) → (¬ ∃ n, Denotes w n) →
        (∀ e', parseInt cap w name e = (true, 0, e') → parseCommand cap msg e = .ok (.notAnInt, .zero, e')) →
        (BlankArgument msg ∧ parseCommand cap msg e = .ok (.notAnInt, .zero, e)) ∨
        (¬ BlankArgument msg ∧ ∃ text, Complaint msg text ∧
          parseCommand cap msg e = .ok (.notAnInt, .zero, text.take (cap - 1))) := by
      intro good w more he hg hw hp
      by_cases hb : Blank w
      · exact Or.inl ⟨⟨c, name, sh, good, w, more, hm, by rw [hh, he], by rw [← he, hlen], hg, hb⟩,
          hp _ (parseInt_blank hb cap name e)⟩
      · refine Or.inr ⟨nob hh fun c' sh' hm' hl good' w' more' he' hg' hb' => ?_, _,
          .notInt hm (by rw [hh, he]) (by rw [← he, hlen]) hg hw hb, hp _ (parseInt_nonint hw hb cap name e)⟩
        rw [he] at he'
        rcases List.append_eq_append_iff.1 he' with ⟨l, h1, h2⟩ | ⟨l, h1, h2⟩
        · cases l with
          | nil => simp at h2; rw [h2.1] at hb; exact hb hb'
          | cons x l => simp at h2; rw [h1] at hg'; exact hw (hg' w (by simp [h2.1]))
        · cases l with
          | nil => simp at h2; rw [← h2.1] at hb; exact hb hb'
          | cons x l => simp at h2; rw [h1] at hg; exact blank_not_denotes hb' (hg w' (by simp [h2.1]))
    cases sh with
    | plain => simp [Shape.args] at hlen; subst hlen; simp at hex
    | num =>
      obtain ⟨w, rfl⟩ := List.length_eq_one_iff.1 hlen
      have hw : ¬ ∃ n, Denotes w n := by simpa using hex
      refine key [] w [] rfl (by simp) hw fun e' h1 => ?_
      rw [parseCommand_eq, hh]
      simp [parseWords, hf, hu, hform, shapeForm, Form.nbrTokens, h1]
    | len =>
      obtain ⟨w, rfl⟩ := List.length_eq_one_iff.1 hlen
      have hw : ¬ ∃ n, Denotes w n := by simpa using hex
      refine key [] w [] rfl (by simp) hw fun e' h1 => ?_
      rw [parseCommand_eq, hh]
      simp [parseWords, hf, hu, hform, shapeForm, Form.nbrTokens, h1]
    | numLen =>
      obtain ⟨w, v, rfl⟩ := List.length_eq_two.1 hlen
      by_cases hw : ∃ n, Denotes w n
      · have hv : ¬ ∃ n, Denotes v n := by
          obtain ⟨x, hx, hxn⟩ := hex
          simp at hx
          rcases hx with rfl | rfl
          · exact absurd hw hxn
          · exact hxn
        refine key [w] v [] rfl (by simpa using hw) hv fun e' h1 => ?_
        obtain ⟨n, hn1⟩ := hw
        rw [parseCommand_eq, hh]
        simp [parseWords, hf, hu, hform, shapeForm, Form.nbrTokens, h1, parseInt_of_denotes hn1]
      · refine key [] w [v] rfl (by simp) hw fun e' h1 => ?_
        rw [parseCommand_eq, hh]
        simp [parseWords, hf, hu, hform, shapeForm, Form.nbrTokens, h1]
  | @negative c name sh ws n hm hsh hh hlen hall hlast hneg =>
    obtain ⟨hf, hu, hn, hform⟩ := findCommand_of_mem hm
    obtain ⟨w', hw', hd⟩ := hlast
    refine Or.inr ⟨nob hh fun c' sh' hm' hl good w more he hg hb => ?_, _,
      .negative hm hsh hh hlen hall hw' hd hneg (decNat_numeral _), ?_⟩
    · exact blank_not_denotes hb (hall w (by simp [he]))
    · have e1 : b!"Parse error. Length argument -" ++ decNat n.natAbs ++ b!" to command " ++ name ++
          b!" is negative." = b!"Parse error. Length argument " ++ decInt n ++ b!" to command " ++ name ++
          b!" is negative." := by
        rw [decInt_neg hneg]
        simp
      rw [parseCommand_eq, hh, e1]
      rcases hsh with rfl | rfl
      · obtain ⟨w, rfl⟩ := List.length_eq_one_iff.1 hlen
        simp at hw'; subst hw'
        simp [parseWords, hf, hu, hform, shapeForm, Form.nbrTokens, parseInt_of_denotes hd, hneg, snprintf]
      · obtain ⟨w, v, rfl⟩ := List.length_eq_two.1 hlen
        simp at hw'; subst hw'
        obtain ⟨n1, hn1⟩ := hall w (by simp)
        simp [parseWords, hf, hu, hform, shapeForm, Form.nbrTokens, parseInt_of_denotes hd,
          parseInt_of_denotes hn1, hneg, snprintf]

/-! ## No NUL in the texts -/

theorem mem_splitOn {d x : UInt8} : ∀ {s p : Bytes}, p ∈ s.splitOn d → x ∈ p → x ∈ s := by
  intro s
  induction s with
  | nil => intro p h1 h2; simp [List.splitOn_nil] at h1; subst h1; simp at h2
  | cons a s ih =>
    intro p h1 h2
    rw [List.splitOn_cons_eq_if_modifyHead] at h1
    by_cases h : a = d
    · simp [h] at h1
      rcases h1 with rfl | h1
      · simp at h2
      · exact List.mem_cons_of_mem _ (ih h1 h2)
    · simp [h] at h1
      cases hs : s.splitOn d with
      | nil => rw [hs] at h1; simp at h1
      | cons q qs =>
        rw [hs] at h1
        simp at h1
        rcases h1 with rfl | h1
        · rcases List.mem_cons.1 h2 with rfl | h2
          · simp
          · exact List.mem_cons_of_mem _ (ih (by rw [hs]; simp) h2)
        · exact List.mem_cons_of_mem _ (ih (by rw [hs]; simp [h1]) h2)

theorem header_no_nul {msg w : Bytes} (h : w ∈ header msg) : (0 : UInt8) ∉ w := by
  intro h0
  unfold header at h
  split at h
  · rename_i line hl
    unfold words at h
    have h1 := mem_splitOn (List.mem_filter.1 h).1 h0
    have h2 := (List.mem_filter.1 (List.mem_of_mem_head? hl)).1
    have h3 := mem_splitOn h2 h1
    have := List.mem_takeWhile_imp h3
    simp at this
  · simp at h

theorem complaint_no_nul {msg text : Bytes} (h : Complaint msg text) : (0 : UInt8) ∉ text := by
  have hf : ∀ sh : Shape, (0 : UInt8) ∉ sh.form := by intro sh; cases sh <;> decide
  cases h with
  | empty => decide
  | unknown hh => simpa using header_no_nul (msg := msg) (by rw [hh]; simp)
  | @few c name sh ws _ hh =>
    have := header_no_nul (msg := msg) (w := name) (by rw [hh]; simp)
    simpa [hf] using this
  | @many c name sh ws _ hh =>
    have := header_no_nul (msg := msg) (w := name) (by rw [hh]; simp)
    simpa [hf] using this
  | @notInt c name sh good w more _ hh =>
    have h1 := header_no_nul (msg := msg) (w := name) (by rw [hh]; simp)
    have h2 := header_no_nul (msg := msg) (w := w) (by rw [hh]; simp)
    simp [h1, h2]
  | @negative c name sh ws w n ds _ _ hh _ _ _ _ _ hn =>
    have h1 := header_no_nul (msg := msg) (w := name) (by rw [hh]; simp)
    have h2 : (0 : UInt8) ∉ ds := fun h0 => absurd (hn.2.1 0 h0).1 (by decide)
    simp [h1, h2]

theorem cstr_of_no_nul {s : Bytes} (h : (0 : UInt8) ∉ s) : cstr s = s := by
  unfold cstr
  rw [List.takeWhile_eq_self_iff]
  intro x hx
  simp
  rintro rfl
  exact h hx

theorem cstr_complaint {msg text : Bytes} (h : Complaint msg text) (n : Nat) : cstr (text.take n) = text.take n :=
  cstr_of_no_nul fun h0 => complaint_no_nul h (List.mem_of_mem_take h0)

/-! ## Commands at the wrong time -/

theorem nextState_text {s : LveState} {c : CmdId} (e : Bytes) (hc : c ≠ .undefined) (h : ¬ Allowed s c) :
    ∃ text, OutOfTurn s c text ∧ nextState 4096 s c e = .ok (none, text) ∧ (0 : UInt8) ∉ text ∧ text.length < 4096 := by
  have hv : validNext c s = none := by rw [allowed_iff] at h; simpa using h
  have hn : c.name ∈ (commands.map fun x => x.2.1) := by cases c <;> first | (exact absurd rfl hc) | decide
  have hmem : ∃ sh, (c, c.name, sh) ∈ commands := by
    cases c <;> first | (exact absurd rfl hc) | exact ⟨.plain, by decide⟩ | exact ⟨.num, by decide⟩ |
      exact ⟨.len, by decide⟩ | exact ⟨.numLen, by decide⟩
  obtain ⟨sh, hm⟩ := hmem
  by_cases ha : c ∈ answerCommands
  · refine ⟨_, .never hm ha, ?_⟩
    simp only [answerCommands, List.mem_cons, List.not_mem_nil, or_false] at ha
    rcases ha with rfl | rfl | rfl | rfl | rfl | rfl <;> cases s <;> exact ⟨rfl, by decide, by decide⟩
  · refine ⟨_, .now hm ha h, ?_⟩
    clear hm hn h
    cases s <;> cases c <;> first | (exact absurd rfl hc) | (simp [validNext] at hv; done) |
      (exact absurd (by decide) ha) | exact ⟨rfl, by decide +kernel, by decide +kernel⟩

/-! ## Answers -/

theorem sslErrorName_eq (code : Nat) : sslErrorName code = (sslNames.lookup code).getD [] := by
  unfold sslErrorName sslNames
  by_cases h2 : code = 2
  · subst h2; rfl
  by_cases h3 : code = 3
  · subst h3; rfl
  by_cases h5 : code = 5
  · subst h5; rfl
  by_cases h1 : code = 1
  · subst h1; rfl
  simp [h1, h2, h3, h5, List.lookup, beq_eq_false_iff_ne.2 h1, beq_eq_false_iff_ne.2 h2, beq_eq_false_iff_ne.2 h3,
    beq_eq_false_iff_ne.2 h5]

theorem readCommand_broken_text {evs rest : List Ev} (h : Replies evs rest .broken) (k : ToolCall) :
    ∃ e, readCommand (fun _ => true) (fresh evs) (some none) = .ok (.fail (some (some e)), fresh rest) ∧
      (Explains k evs rest e ∨ (Unexplained evs rest ∧ e = ⟨1, 1, some []⟩)) := by
  cases h with
  | @failure pre code q he hq =>
    subst he
    unfold readCommand fresh
    simp only [if_true, sslReadMessage_fail _ _ _ hq, errorSetLiteral, errorNewLiteral, Res.bind_ok]
    refine ⟨_, rfl, ?_⟩
    cases hl : q.getLast? with
    | none =>
      rw [List.getLast?_eq_none_iff] at hl
      subst hl
      exact Or.inr ⟨Or.inl ⟨pre, code, rfl, hq⟩, rfl⟩
    | some why =>
      refine Or.inl ?_
      simp only [sslErrorString, hl, snprintf, errorSize, sslErrorName_eq]
      exact .connection rfl hq hl
  | @tooLong b hd hlen =>
    obtain ⟨freed, hr⟩ := sslReadMessage_delivers_one hd
    unfold readCommand fresh
    simp only [if_true, hr, Res.bind_ok, sslRecordSize, hlen, gt_iff_lt, errorSetLiteral, errorNewLiteral]
    exact ⟨_, rfl, Or.inr ⟨Or.inr ⟨b, hd, Or.inl hlen⟩, rfl⟩⟩
  | @malformed b g hd hg =>
    obtain ⟨freed, hr⟩ := sslReadMessage_delivers_one hd
    have hv : g ≠ .valid := by cases hg <;> decide
    have hu : g ≠ .unknownError := by cases hg <;> decide
    unfold readCommand fresh
    by_cases hlen : b.length > sslRecordSize
    · simp only [if_true, hr, Res.bind_ok, hlen, errorSetLiteral, errorNewLiteral]
      exact ⟨_, rfl, Or.inr ⟨Or.inr ⟨b, hd, Or.inl hlen⟩, rfl⟩⟩
    · rcases parse_text hg (cap := errorSize) (by decide) [] with ⟨hb, hp⟩ | ⟨hb, text, hc, hp⟩
      · simp only [if_true, hr, Res.bind_ok, readCells_map_some', hp, hv, hu, ne_eq, not_false_eq_true,
          errorSetLiteral, errorNewLiteral, hlen, if_false]
        exact ⟨_, rfl, Or.inr ⟨Or.inr ⟨b, hd, Or.inr hb⟩, rfl⟩⟩
      · simp only [if_true, hr, Res.bind_ok, readCells_map_some', hp, hv, hu, ne_eq, not_false_eq_true,
          errorSetLiteral, errorNewLiteral, hlen, if_false, cstr_complaint hc]
        refine ⟨_, rfl, Or.inl ?_⟩
        exact .malformed hd (by unfold sslRecordSize at hlen; omega) hb hc

theorem replies_command_mem {evs rest : List Ev} {c : CmdId} {n : Int} {d : Bytes}
    (h : Replies evs rest (.command c n d)) : ∃ sh, (c, c.name, sh) ∈ commands := by
  have key : ∀ {m l}, Accepts m c n l → ∃ sh, (c, c.name, sh) ∈ commands := by
    intro m l ha
    cases ha with
    | plain hm => obtain ⟨-, -, h, -⟩ := findCommand_of_mem hm; exact ⟨_, by rw [h]; exact hm⟩
    | num hm => obtain ⟨-, -, h, -⟩ := findCommand_of_mem hm; exact ⟨_, by rw [h]; exact hm⟩
    | len hm => obtain ⟨-, -, h, -⟩ := findCommand_of_mem hm; exact ⟨_, by rw [h]; exact hm⟩
    | numLen hm => obtain ⟨-, -, h, -⟩ := findCommand_of_mem hm; exact ⟨_, by rw [h]; exact hm⟩
  cases h with
  | plain _ _ ha => exact key ha
  | pieces _ _ _ ha => exact key ha
  | extra _ _ _ ha => exact key ha

/-- A call that expects one command: it gets it, or fails with an explanation. -/
theorem expectCommand_text {t : Tool} {evs rest : List Ev} (ht : t.inn = fresh evs) {r : Reply}
    (h : Replies evs rest r) (k : ToolCall) (ex : CmdId) (hex : ex ≠ .error) (hu : ex ≠ .undefined)
    (hk : takes k = [ex.name]) :
    (∃ n d, r = .command ex n d ∧ expectCommand (fun _ => true) t ex (some none) =
      .ok (.success ⟨ex, n, d.length, dataOf ex d⟩ (some none), { t with inn := fresh rest })) ∨
    (¬ r.is ex ∧ ∃ e, expectCommand (fun _ => true) t ex (some none) =
        .ok (.failed (some (some e)), { t with inn := fresh rest }) ∧
      (Explains k evs rest e ∨ (Unexplained evs rest ∧ e = ⟨1, 1, some []⟩))) := by
  cases r with
  | broken =>
    obtain ⟨e, h1, h2⟩ := readCommand_broken_text h k
    refine Or.inr ⟨by rintro ⟨n, d, h⟩; simp at h, e, ?_, h2⟩
    unfold expectCommand
    rw [ht, h1]
    rfl
  | command c n d =>
    obtain ⟨g1, g2, -⟩ := expectCommand_command ht h ex hex
    by_cases hy : c = ex
    · subst hy; exact Or.inl ⟨n, d, rfl, g1 rfl⟩
    · refine Or.inr ⟨by rintro ⟨n, d, h⟩; simp at h; exact hy h.1, ?_⟩
      by_cases he : c = .error
      · subst he; exact ⟨_, g2 rfl, Or.inl (.error h)⟩
      · obtain ⟨sh, hm⟩ := replies_command_mem h
        have hne : c.name ≠ ex.name := by
          intro hn
          obtain ⟨hf, -⟩ := findCommand_of_mem hm
          rw [hn, (findCommand_spec _ _ hu).2 rfl] at hf
          exact hy hf.symm
        refine ⟨_, ?_, Or.inl (.notThis h hm he hk hne)⟩
        unfold expectCommand
        rw [ht, readCommand_command h]
        simp only [Res.bind_ok, he, if_false, ne_eq, hy, not_false_eq_true, if_true, errorSet_ok, domainTool]
        have := name_length_le ex
        have := name_length_le c
        rw [List.take_of_length_le]
        simp only [maxCmdLength] at *
        simp
        omega

theorem listing_eq (a : CmdId) : ∀ l : List CmdId,
    listing (a.name :: l.map CmdId.name) = a.name ++ (l.map fun c => b!", " ++ c.name).flatten := by
  intro l
  induction l generalizing a with
  | nil => simp [listing]
  | cons b l ih =>
    simp only [List.map_cons, listing, List.flatten_cons]
    rw [ih b]
    simp

theorem name_no_nul (c : CmdId) : (0 : UInt8) ∉ c.name := by cases c <;> decide

theorem expectedFull_no_nul (got first : CmdId) (more : List CmdId) : cstr (expectedFull got first more) =
    expectedFull got first more := by
  apply cstr_of_no_nul
  unfold expectedFull
  simp [name_no_nul]

theorem expectCommands_text {t : Tool} {evs rest : List Ev} (ht : t.inn = fresh evs) {r : Reply}
    (h : Replies evs rest r) (k : ToolCall) (ex : CmdId) (more : List CmdId) (hex : ∀ c ∈ ex :: more, c ≠ .error)
    (hu : ∀ c ∈ ex :: more, c ≠ .undefined) (hk : takes k = (ex :: more).map CmdId.name) (h1 : more ≠ []) :
    (∃ c n d, c ∈ ex :: more ∧ r = .command c n d ∧ expectCommands (fun _ => true) t ex more (some none) =
      .ok (.success ⟨c, n, d.length, dataOf c d⟩ (some none), { t with inn := fresh rest })) ∨
    ((∀ c ∈ ex :: more, ¬ r.is c) ∧ ∃ e, expectCommands (fun _ => true) t ex more (some none) =
        .ok (.failed (some (some e)), { t with inn := fresh rest }) ∧
      (Explains k evs rest e ∨ (Unexplained evs rest ∧ e = ⟨1, 1, some []⟩))) := by
  cases r with
  | broken =>
    obtain ⟨e, h1, h2⟩ := readCommand_broken_text h k
    refine Or.inr ⟨by rintro c - ⟨n, d, h⟩; simp at h, e, ?_, h2⟩
    unfold expectCommands
    rw [ht, h1]
    rfl
  | command c n d =>
    obtain ⟨g1, g2, -⟩ := expectCommands_command ht h ex more
    by_cases hy : c ∈ ex :: more
    · exact Or.inl ⟨c, n, d, hy, rfl, g1 hy (hex c hy)⟩
    · refine Or.inr ⟨by rintro c' hc' ⟨n, d, h⟩; simp at h; exact hy (h.1 ▸ hc'), ?_⟩
      by_cases he : c = .error
      · subst he; exact ⟨_, g2 rfl, Or.inl (.error h)⟩
      · obtain ⟨sh, hm⟩ := replies_command_mem h
        have hne : c.name ∉ takes k := by
          rw [hk]
          intro hn
          obtain ⟨c', hc', hn⟩ := List.mem_map.1 hn
          obtain ⟨hf, -⟩ := findCommand_of_mem hm
          rw [← hn, (findCommand_spec _ _ (hu c' hc')).2 rfl] at hf
          exact hy (hf ▸ hc')
        have hlen : 1 < (takes k).length := by
          rw [hk]
          cases more with
          | nil => exact absurd rfl h1
          | cons => simp
        refine ⟨_, ?_, Or.inl (.noneOf h hm he hlen hne)⟩
        unfold expectCommands
        rw [ht, readCommand_command h]
        simp only [Res.bind_ok, he, if_false, hy, if_true, (expectedText_ok c ex more).1, errorSetLiteral,
          errorNewLiteral, domainTool, expectedFull_no_nul, hk]
        rw [List.map_cons, listing_eq]
        simp [expectedFull]

end Semla
