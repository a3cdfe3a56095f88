import Verif.Lemmas.Ssl
import Verif.Model.Tool
import Verif.Spec.Tool

/-! # Lemmas about the tool's calls -/

set_option linter.unusedSimpArgs false

namespace Semla

open Semla.Spec

theorem errorSet_ok (d c : Int) (s : Bytes) :
    errorSet (fun _ => true) (some none) d c s = .ok (some (some ⟨d, c, some (s.take 2047)⟩)) := by
  simp [errorSet, errorNew, snprintf, defaultMsgSize]

theorem moreLoop_keeps {m : Nat → Bool} {fuel : Nat} {c c' : Conn} {cmd cmd' : Command} {total : Nat}
    (h : moreLoop m fuel c cmd total = .ok (some cmd', c')) :
    cmd'.id = cmd.id ∧ cmd'.number = cmd.number ∧ cmd'.length = cmd.length := by
  induction fuel generalizing c cmd total with
  | zero => simp [moreLoop] at h; simp [h.1]
  | succ fuel ih =>
    unfold moreLoop at h
    split at h
    · obtain ⟨⟨r, c1⟩, -, h⟩ := Res.bind_eq_ok.1 h
      simp only at h
      cases r with
      | blocked => simp at h
      | failed a b => simp at h
      | message cells n f =>
        simp only at h
        obtain ⟨bytes, -, h⟩ := Res.bind_eq_ok.1 h
        split at h
        · simp at h
        · obtain ⟨cs, -, h⟩ := Res.bind_eq_ok.1 h
          have := ih h
          simpa using this
    · simp at h; simp [h.1]

theorem extractData_keeps {m : Nat → Bool} {cmd cmd' : Command} {buf : Bytes} {n : Nat}
    (h : extractData m cmd buf = .ok (cmd', n)) :
    cmd'.id = cmd.id ∧ cmd'.number = cmd.number ∧ cmd'.length = cmd.length := by
  unfold extractData at h
  split at h
  · simp at h
  · simp at h; simp [← h.1]
  · simp only at h
    split at h
    · obtain ⟨c1, -, h⟩ := Res.bind_eq_ok.1 h
      obtain ⟨c2, -, h⟩ := Res.bind_eq_ok.1 h
      simp at h; simp [← h.1]
    · simp at h; simp [← h.1]

theorem moreLoop_data {m : Nat → Bool} {fuel : Nat} {c c' : Conn} {cmd cmd' : Command} {total : Nat}
    (h : moreLoop m fuel c cmd total = .ok (some cmd', c')) (hd : cmd'.data = none) : cmd.data = none := by
  induction fuel generalizing c cmd total with
  | zero => simp [moreLoop] at h; rw [h.1]; exact hd
  | succ fuel ih =>
    unfold moreLoop at h
    split at h
    · obtain ⟨⟨r, c1⟩, -, h⟩ := Res.bind_eq_ok.1 h
      simp only at h
      cases r with
      | blocked => simp at h
      | failed a b => simp at h
      | message cells n f =>
        simp only at h
        obtain ⟨bytes, -, h⟩ := Res.bind_eq_ok.1 h
        split at h
        · simp at h
        · obtain ⟨cs, -, h⟩ := Res.bind_eq_ok.1 h
          have := ih h
          simp at this
    · simp at h; rw [h.1]; exact hd

/-- Conclusion of `readCommand_inv`. -/
def ReadInfo (evs : List Ev) (loc : ErrLoc) (r : ReadOut) : Prop :=
  (∀ l, r = .fail l → loc = some none → ∃ e, l = some (some e)) ∧
  (∀ cmd l, r = .done cmd l → (∃ b, NextRecord evs b ∧ b.length ≤ 16400 ∧
      Accepts b.dropLast cmd.id cmd.number cmd.length) ∧ (loc = none ↔ l = none) ∧
    (l = some none → cmd.id.form = .length ∨ cmd.id.form = .numberAndLength → cmd.data ≠ none))

/-- What a returned command or failure tells, whatever arrives. -/
theorem readCommand_inv {evs : List Ev} {loc : ErrLoc} {r : ReadOut} {c : Conn}
    (h : readCommand (fun _ => true) (fresh evs) loc = .ok (r, c)) :
    ReadInfo evs loc r := by
  unfold ReadInfo
  rcases evs_cases evs with hq | ⟨pre, code, q, rest, rfl, hq⟩ | ⟨pre, b, sizes, rest, rfl, hb, hq⟩
  · unfold readCommand fresh at h
    simp [sslReadMessage_blocked _ _ hq] at h
    simp [← h.1]
  · unfold readCommand fresh at h
    simp only [if_true, sslReadMessage_fail _ _ _ hq, Res.bind_ok] at h
    obtain ⟨l, h1, h⟩ := Res.bind_eq_ok.1 h
    simp at h
    simp only [← h.1, ReadOut.fail.injEq, reduceCtorEq, false_implies, implies_true, and_true]
    rintro _ rfl rfl
    simp [errorSetLiteral, errorNewLiteral] at h1
    exact ⟨_, h1.symm⟩
  · obtain ⟨freed, hr, -⟩ := sslReadMessage_record pre rest hq b hb sizes
    unfold readCommand fresh at h
    simp only [if_true, hr, Res.bind_ok, readCells_map_some'] at h
    split at h
    · obtain ⟨l, h1, h⟩ := Res.bind_eq_ok.1 h
      simp at h
      simp only [← h.1, ReadOut.fail.injEq, reduceCtorEq, false_implies, implies_true, and_true]
      rintro _ rfl rfl
      simp [errorSetLiteral, errorNewLiteral] at h1
      exact ⟨_, h1.symm⟩
    · rename_i hlen
      have hlen : b.length ≤ 16400 := by unfold sslRecordSize at hlen; omega
      rcases accepts_or_rejected b.dropLast with ⟨cid, n, len, ha⟩ | ⟨g, hrej, hg⟩
      · simp only [parse_of_accepts ha, Res.bind_ok, ne_eq, not_true_eq_false, if_false] at h
        split at h
        · obtain ⟨⟨cmd1, total⟩, h1, h⟩ := Res.bind_eq_ok.1 h
          have k1 := extractData_keeps h1
          simp only at h k1
          have hfin : ∀ l1, (cmd1.data = none → l1 ≠ some none) → (loc = none ↔ l1 = none) →
              (moreLoop (fun _ => true) (cmd1.length - total) ⟨[], [], rest⟩ cmd1 total >>= fun x =>
                match x.1 with
                | none => Res.ok (ReadOut.blocked, x.2)
                | some cmd => .ok (.done cmd l1, x.2)) = .ok (r, c) →
              ReadInfo (pre ++ .record b sizes :: rest) loc r := by
            intro l1 hl0 hl1 h
            obtain ⟨⟨cmd2, c2⟩, h2, h⟩ := Res.bind_eq_ok.1 h
            cases cmd2 with
            | none => simp at h; simp [ReadInfo, ← h.1]
            | some cmd2 =>
              have k2 := moreLoop_keeps h2
              simp at h
              simp only [ReadInfo, ← h.1, ReadOut.done.injEq, reduceCtorEq, false_implies, implies_true, true_and]
              rintro cmd l ⟨rfl, rfl⟩
              refine ⟨⟨b, ⟨pre, sizes, rest, rfl, hb, hq⟩, hlen, ?_⟩, hl1, ?_⟩
              · rw [k2.1, k2.2.1, k2.2.2, k1.1, k1.2.1, k1.2.2]; exact ha
              · intro hl2 _ hd
                exact hl0 (moreLoop_data h2 hd) hl2
          split at h
          · obtain ⟨l, h2, h⟩ := Res.bind_eq_ok.1 h
            refine hfin l (fun _ hl => ?_) ?_ h
            · subst hl
              rcases loc with _ | _ | _ <;> simp [errorSetLiteral, errorNewLiteral] at h2
            · rcases loc with _ | _ | _ <;> simp [errorSetLiteral, errorNewLiteral] at h2
              · simp [h2]
              · simp [← h2]
          · rename_i hdn
            exact hfin loc (fun hd => absurd hd hdn) Iff.rfl h
        · simp at h
          simp only [← h.1, ReadOut.done.injEq, reduceCtorEq, false_implies, implies_true, true_and]
          rintro cmd l ⟨rfl, rfl⟩
          rename_i hform
          exact ⟨⟨b, ⟨pre, sizes, rest, rfl, hb, hq⟩, hlen, ha⟩, Iff.rfl, fun _ hf => absurd hf hform⟩
      · obtain ⟨m, hp, -⟩ := parse_of_rejected hrej (cap := errorSize) (by decide) []
        simp only [hp, Res.bind_ok, ne_eq, hg, not_false_eq_true, if_true] at h
        obtain ⟨l, h1, h⟩ := Res.bind_eq_ok.1 h
        simp at h
        simp only [← h.1, ReadOut.fail.injEq, reduceCtorEq, false_implies, implies_true, and_true]
        rintro _ rfl rfl
        simp [errorSetLiteral, errorNewLiteral] at h1
        exact ⟨_, h1.symm⟩


/-- The data part of a command as the tool stores it. -/
def dataOf (c : CmdId) (d : Bytes) : Option Buf :=
  if c.form = .length ∨ c.form = .numberAndLength then some ⟨d.map some ++ [some 0]⟩ else none

theorem accepts_ne_undefined {msg : Bytes} {c : CmdId} {n : Int} {len : Nat} (h : Accepts msg c n len) :
    c ≠ .undefined := by
  rintro rfl
  cases h <;> simp [commands] at *

theorem readCommand_command {evs rest : List Ev} {c : CmdId} {n : Int} {d : Bytes}
    (h : Replies evs rest (.command c n d)) (loc : ErrLoc) :
    readCommand (fun _ => true) (fresh evs) loc = .ok (.done ⟨c, n, d.length, dataOf c d⟩ loc, fresh rest) := by
  cases h with
  | plain hd hl ha hf =>
    have hf' : ¬ (c.form = .length ∨ c.form = .numberAndLength) := by
      rcases hf with hf | hf <;> simp [hf]
    have := readCommand_plain hd hl ha hf' loc
    simpa [dataOf, hf', fresh] using this
  | @pieces line part more _ _ _ hd hl hline ha hf hdat =>
    have e : line ++ b!"\n" ++ part = line ++ 10 :: part := by simp
    rw [e] at hd hl ha
    have := readCommand_data (data := d) hline hf ha hdat hd hl loc
    simpa [dataOf, hf, fresh] using this
  | @extra line _ x _ _ hd hl hline ha hf =>
    have e : line ++ b!"\n" ++ d ++ [x] = line ++ b!"\n" ++ (d ++ [x]) := by simp
    rw [e] at hd hl
    have := readCommand_complete (len := d.length) hd hl (by rw [← e, List.dropLast_concat]; exact ha) hf hline
      (by simp) (by simp) loc
    simpa [dataOf, hf, fresh] using this

theorem readCommand_broken {evs rest : List Ev} (h : Replies evs rest .broken) :
    ∃ e, readCommand (fun _ => true) (fresh evs) (some none) = .ok (.fail (some (some e)), fresh rest) := by
  cases h with
  | failure he hq =>
    subst he
    unfold readCommand fresh
    simp [sslReadMessage_fail _ _ _ hq, errorSetLiteral, errorNewLiteral]
  | tooLong hd hlen =>
    obtain ⟨freed, hr⟩ := sslReadMessage_delivers_one hd
    unfold readCommand fresh
    simp [hr, sslRecordSize, hlen, errorSetLiteral, errorNewLiteral]
  | malformed hd hg =>
    rename_i b g
    obtain ⟨freed, hr⟩ := sslReadMessage_delivers_one hd
    obtain ⟨m, hp, _⟩ := parse_of_rejected hg (cap := errorSize) (by decide) []
    have hv : g ≠ .valid := by cases hg <;> decide
    unfold readCommand fresh
    by_cases hlen : b.length > sslRecordSize
    · simp [hr, hlen, errorSetLiteral, errorNewLiteral]
    · simp only [if_true, hr, Res.bind_ok, readCells_map_some', hp, hv, ne_eq, not_false_eq_true,
        errorSetLiteral, errorNewLiteral, hlen, if_false]
      split
      · exact ⟨_, rfl⟩
      · exact ⟨_, rfl⟩

theorem replies_ne_undefined {evs rest : List Ev} {c : CmdId} {n : Int} {d : Bytes}
    (h : Replies evs rest (.command c n d)) : c ≠ .undefined := by
  cases h <;> exact accepts_ne_undefined ‹_›

/-- `readCStr` on the data as stored. -/
theorem readCStr_dataOf (d : Bytes) : readCStr (d.map some ++ [some 0]) = .ok (cstr d) := by
  induction d with
  | nil => simp [readCStr, cstr]
  | cons a d ih =>
    by_cases h : a = 0
    · simp [readCStr, cstr, h]
    · simp [readCStr, cstr, h] at *
      simp [ih]

theorem errorSetData_ok (dom code : Int) (pre d : Bytes) :
    errorSetData (fun _ => true) (some none) dom code pre (some ⟨d.map some ++ [some 0]⟩) =
      .ok (some (some ⟨dom, code, some ((pre ++ cstr d).take 2047)⟩)) := by
  simp only [errorSetData, readCStr_dataOf, Res.bind_ok, errorSet_ok]

theorem errorSetData_inv {loc l : ErrLoc} {dom code : Int} {pre : Bytes} {data : Option Buf}
    (h : errorSetData (fun _ => true) loc dom code pre data = .ok l) :
    (loc = none ∧ l = none) ∨ (loc = some none ∧ ∃ e, l = some (some e)) := by
  rcases loc with _ | _ | e
  · cases data <;> simp [errorSetData, errorSet] at h <;> simp [h]
  · cases data with
    | none => simp [errorSetData] at h
    | some b =>
      simp only [errorSetData] at h
      obtain ⟨t, -, h⟩ := Res.bind_eq_ok.1 h
      rw [errorSet_ok] at h
      simp at h
      exact Or.inr ⟨rfl, _, h.symm⟩
  · cases data <;> simp [errorSetData, errorSet] at h

theorem errorSet_inv {loc l : ErrLoc} {dom code : Int} {s : Bytes}
    (h : errorSet (fun _ => true) loc dom code s = .ok l) :
    (loc = none ∧ l = none) ∨ (loc = some none ∧ ∃ e, l = some (some e)) := by
  rcases loc with _ | _ | e
  · simp [errorSet] at h; simp [h]
  · rw [errorSet_ok] at h; simp at h; exact Or.inr ⟨rfl, _, h.symm⟩
  · simp [errorSet] at h

theorem errorSetLiteral_inv {loc l : ErrLoc} {dom code : Int} {s : Option Bytes}
    (h : errorSetLiteral (fun _ => true) loc dom code s = .ok l) :
    (loc = none ∧ l = none) ∨ (loc = some none ∧ ∃ e, l = some (some e)) := by
  rcases loc with _ | _ | e
  · simp [errorSetLiteral] at h; simp [h]
  · simp [errorSetLiteral, errorNewLiteral] at h; exact Or.inr ⟨rfl, _, h.symm⟩
  · simp [errorSetLiteral] at h

/-- The text about expected commands fits, complete, in its buffer. -/
def expectedFull (got first : CmdId) (more : List CmdId) : Bytes :=
  b!"Unexpected command " ++ got.name ++ b!". Expected one of the following commands: " ++ first.name ++
    (more.map fun c => b!", " ++ c.name).flatten

theorem expectedLoop_ok (size : Nat) (more : List CmdId) (text : Bytes)
    (h : text.length + (maxCmdLength + 2) * more.length + 1 ≤ size) :
    expectedLoop size more text.length text = .ok (text ++ (more.map fun c => b!", " ++ c.name).flatten) := by
  induction more generalizing text with
  | nil => simp [expectedLoop]
  | cons c cs ih =>
    have hn := name_length_le c
    have hx : (b!", " ++ c.name).length = c.name.length + 2 := by simp
    rw [List.length_cons, Nat.mul_add, Nat.mul_one] at h
    have h0 : (maxCmdLength + 2) * cs.length ≥ 0 := Nat.zero_le _
    have hs : snprintfOff size text.length size text (b!", " ++ c.name) = .ok (text ++ (b!", " ++ c.name)) := by
      unfold snprintfOff
      rw [if_neg (by omega), if_pos (by rw [hx]; omega), if_pos (Nat.le_refl _), List.take_length, List.take_of_length_le (by rw [hx]; omega)]
    simp only [expectedLoop, hs, Res.bind_ok]
    have := ih (text ++ (b!", " ++ c.name)) (by rw [List.length_append, hx]; omega)
    rw [List.length_append] at this
    rw [this]
    simp

theorem expectedText_ok (got first : CmdId) (more : List CmdId) :
    expectedText got first more = .ok (expectedFull got first more) ∧
      (expectedFull got first more).length < expectedSize (more.length + 1) := by
  have h1 := name_length_le got
  have h2 := name_length_le first
  have hm : ∀ more : List CmdId, ((more.map fun c => b!", " ++ c.name).flatten).length ≤ (maxCmdLength + 2) * more.length := by
    intro more
    induction more with
    | nil => simp
    | cons c cs ih =>
      have := name_length_le c
      simp only [List.map_cons, List.flatten_cons, List.length_append, List.length_cons, List.length_nil, Nat.mul_add] at *
      omega
  have hh : (b!"Unexpected command " ++ got.name ++ b!". Expected one of the following commands: " ++ first.name).length
      ≤ 70 + 2 * maxCmdLength := by simp; omega
  generalize hhd : b!"Unexpected command " ++ got.name ++ b!". Expected one of the following commands: " ++ first.name = head at hh
  have hmm := hm more
  constructor
  · unfold expectedText
    simp only [hhd]
    have hs : snprintfOff (expectedSize (more.length + 1)) 0 (expectedSize (more.length + 1)) [] head = .ok head := by
      unfold snprintfOff expectedSize
      simp only [Nat.mul_add, maxCmdLength] at *
      rw [if_neg (by omega), if_pos (by omega), if_pos (Nat.zero_le _), List.take_of_length_le (l := head) (by omega)]
      simp
    rw [hs]
    simp only [Res.bind_ok]
    rw [expectedLoop_ok _ _ _ (by unfold expectedSize; simp only [Nat.mul_add, maxCmdLength] at *; omega)]
    unfold expectedFull
    rw [hhd]
  · unfold expectedFull expectedSize
    rw [hhd, List.length_append]
    simp only [Nat.mul_add, maxCmdLength] at *
    omega

/-! ### Expecting a command -/

theorem expectCommand_command {t : Tool} {evs rest : List Ev} (ht : t.inn = fresh evs) {c : CmdId} {n : Int}
    {d : Bytes} (h : Replies evs rest (.command c n d)) (ex : CmdId) (hex : ex ≠ .error) :
    (c = ex → expectCommand (fun _ => true) t ex (some none) =
      .ok (.success ⟨c, n, d.length, dataOf c d⟩ (some none), { t with inn := fresh rest })) ∧
    (c = .error → expectCommand (fun _ => true) t ex (some none) =
      .ok (.failed (some (some ⟨2, 1, some ((b!"Got ERROR command with message: " ++ cstr d).take 2047)⟩)),
        { t with inn := fresh rest })) ∧
    (c ≠ ex → c ≠ .error → ∃ e : Err, e.domain = 2 ∧ e.code = 1 ∧
      expectCommand (fun _ => true) t ex (some none) = .ok (.failed (some (some e)), { t with inn := fresh rest })) := by
  unfold expectCommand
  rw [ht, readCommand_command h]
  simp only [Res.bind_ok]
  refine ⟨?_, ?_, ?_⟩
  · rintro rfl
    rw [if_neg hex]
    simp
  · rintro rfl
    simp only [if_true, dataOf, CmdId.form]
    simp [errorSetData_ok, domainTool]
  · intro h1 h2
    simp only [h2, if_false, ne_eq, h1, not_false_eq_true, if_true, errorSet_ok, Res.bind_ok]
    exact ⟨_, rfl, rfl, rfl⟩

theorem expectCommand_broken {t : Tool} {evs rest : List Ev} (ht : t.inn = fresh evs)
    (h : Replies evs rest .broken) (ex : CmdId) :
    ∃ e, expectCommand (fun _ => true) t ex (some none) =
      .ok (.failed (some (some e)), { t with inn := fresh rest }) := by
  obtain ⟨e, he⟩ := readCommand_broken h
  unfold expectCommand
  rw [ht, he]
  exact ⟨e, rfl⟩

theorem expectCommands_command {t : Tool} {evs rest : List Ev} (ht : t.inn = fresh evs) {c : CmdId} {n : Int}
    {d : Bytes} (h : Replies evs rest (.command c n d)) (ex : CmdId) (more : List CmdId) :
    (c ∈ ex :: more → c ≠ .error → expectCommands (fun _ => true) t ex more (some none) =
      .ok (.success ⟨c, n, d.length, dataOf c d⟩ (some none), { t with inn := fresh rest })) ∧
    (c = .error → expectCommands (fun _ => true) t ex more (some none) =
      .ok (.failed (some (some ⟨2, 1, some ((b!"Got ERROR command with message: " ++ cstr d).take 2047)⟩)),
        { t with inn := fresh rest })) ∧
    (c ∉ ex :: more → c ≠ .error → ∃ e : Err, e.domain = 2 ∧ e.code = 1 ∧
      expectCommands (fun _ => true) t ex more (some none) = .ok (.failed (some (some e)), { t with inn := fresh rest })) := by
  unfold expectCommands
  rw [ht, readCommand_command h]
  simp only [Res.bind_ok]
  refine ⟨?_, ?_, ?_⟩
  · intro h1 h2
    rw [if_neg h2, if_pos h1]
  · rintro rfl
    simp only [if_true, dataOf, CmdId.form]
    simp [errorSetData_ok, domainTool]
  · intro h1 h2
    simp only [h2, if_false, h1, if_true, (expectedText_ok c ex more).1, Res.bind_ok, errorSetLiteral,
      errorNewLiteral]
    exact ⟨_, rfl, rfl, rfl⟩

theorem expectCommands_broken {t : Tool} {evs rest : List Ev} (ht : t.inn = fresh evs)
    (h : Replies evs rest .broken) (ex : CmdId) (more : List CmdId) :
    ∃ e, expectCommands (fun _ => true) t ex more (some none) =
      .ok (.failed (some (some e)), { t with inn := fresh rest }) := by
  obtain ⟨e, he⟩ := readCommand_broken h
  unfold expectCommands
  rw [ht, he]
  exact ⟨e, rfl⟩

/-- What is known after expecting a command, whatever arrives. -/
def ExpectInfo (evs : List Ev) (exs : List CmdId) (loc : ErrLoc) (r : ToolOut Command) : Prop :=
  (∀ l, r = .failed l → loc = some none → ∃ e, l = some (some e)) ∧
  (∀ cmd l, r = .success cmd l → cmd.id ∈ exs ∧ (loc = none ↔ l = none) ∧ ∃ b, NextRecord evs b ∧
      Accepts b.dropLast cmd.id cmd.number cmd.length)

theorem set_some {loc l loc' : ErrLoc}
    (h : (loc' = none ∧ l = none) ∨ (loc' = some none ∧ ∃ e, l = some (some e)))
    (hk : loc = none ↔ loc' = none) (hl : loc = some none) : ∃ e, l = some (some e) := by
  rcases h with ⟨h, -⟩ | ⟨-, h⟩
  · rw [← hk] at h; simp [h] at hl
  · exact h

theorem expectCommand_inv {t t' : Tool} {evs : List Ev} (ht : t.inn = fresh evs) {ex : CmdId} {loc : ErrLoc}
    {r : ToolOut Command} (h : expectCommand (fun _ => true) t ex loc = .ok (r, t')) :
    ExpectInfo evs [ex] loc r := by
  unfold expectCommand at h
  rw [ht] at h
  obtain ⟨⟨r1, c1⟩, h1, h⟩ := Res.bind_eq_ok.1 h
  obtain ⟨i1, i2⟩ := readCommand_inv h1
  unfold ExpectInfo
  simp only at h
  cases r1 with
  | blocked => simp at h; simp [← h.1]
  | fail l =>
    simp at h
    simp only [← h.1, ToolOut.failed.injEq, reduceCtorEq, false_implies, implies_true, and_true]
    rintro _ rfl hl
    exact i1 _ rfl hl
  | done cmd l1 =>
    obtain ⟨⟨b, hb, -, ha⟩, hk, -⟩ := i2 cmd l1 rfl
    simp only at h
    split at h
    · obtain ⟨l2, h2, h⟩ := Res.bind_eq_ok.1 h
      simp at h
      simp only [← h.1, ToolOut.failed.injEq, reduceCtorEq, false_implies, implies_true, and_true]
      rintro _ rfl hl
      exact set_some (errorSetData_inv h2) hk hl
    · rename_i hne
      split at h
      · obtain ⟨l2, h2, h⟩ := Res.bind_eq_ok.1 h
        simp at h
        simp only [← h.1, ToolOut.failed.injEq, reduceCtorEq, false_implies, implies_true, and_true]
        rintro _ rfl hl
        exact set_some (errorSet_inv h2) hk hl
      · rename_i hex
        simp at h hex
        simp only [← h.1, ToolOut.success.injEq, reduceCtorEq, false_implies, implies_true, true_and]
        rintro _ _ ⟨rfl, rfl⟩
        exact ⟨by simp [hex], hk, b, hb, ha⟩

theorem expectCommands_inv {t t' : Tool} {evs : List Ev} (ht : t.inn = fresh evs) {ex : CmdId}
    {more : List CmdId} {loc : ErrLoc}
    {r : ToolOut Command} (h : expectCommands (fun _ => true) t ex more loc = .ok (r, t')) :
    ExpectInfo evs (ex :: more) loc r := by
  unfold expectCommands at h
  rw [ht] at h
  obtain ⟨⟨r1, c1⟩, h1, h⟩ := Res.bind_eq_ok.1 h
  obtain ⟨i1, i2⟩ := readCommand_inv h1
  unfold ExpectInfo
  simp only at h
  cases r1 with
  | blocked => simp at h; simp [← h.1]
  | fail l =>
    simp at h
    simp only [← h.1, ToolOut.failed.injEq, reduceCtorEq, false_implies, implies_true, and_true]
    rintro _ rfl hl
    exact i1 _ rfl hl
  | done cmd l1 =>
    obtain ⟨⟨b, hb, -, ha⟩, hk, -⟩ := i2 cmd l1 rfl
    simp only at h
    split at h
    · obtain ⟨l2, h2, h⟩ := Res.bind_eq_ok.1 h
      simp at h
      simp only [← h.1, ToolOut.failed.injEq, reduceCtorEq, false_implies, implies_true, and_true]
      rintro _ rfl hl
      exact set_some (errorSetData_inv h2) hk hl
    · rename_i hne
      split at h
      · rename_i hex
        simp at h
        simp only [← h.1, ToolOut.success.injEq, reduceCtorEq, false_implies, implies_true, true_and]
        rintro _ _ ⟨rfl, rfl⟩
        exact ⟨hex, hk, b, hb, ha⟩
      · simp only [if_true, (expectedText_ok _ _ _).1, Res.bind_ok] at h
        obtain ⟨l2, h2, h⟩ := Res.bind_eq_ok.1 h
        simp at h
        simp only [← h.1, ToolOut.failed.injEq, reduceCtorEq, false_implies, implies_true, and_true]
        rintro _ rfl hl
        exact set_some (errorSetLiteral_inv h2) hk hl

/-! ### Sending -/

theorem write_returns {w : List WEv} (h : Returns w) (msg : Bytes) :
    ∃ n b r, sslWriteMessage msg w = (some (n, b), r) := by
  induction w with
  | nil => obtain ⟨e, he, -⟩ := h; simp at he
  | cons e w ih =>
    cases e with
    | written => exact ⟨_, _, _, rfl⟩
    | zero => exact ⟨_, _, _, rfl⟩
    | fail c => exact ⟨_, _, _, rfl⟩
    | wantWrite =>
      obtain ⟨x, hx, hne⟩ := h
      rcases List.mem_cons.1 hx with rfl | hx
      · exact absurd rfl hne
      · exact ih ⟨x, hx, hne⟩

theorem write_writes {w after : List WEv} (h : Writes w after) (msg : Bytes) :
    sslWriteMessage msg w = (some ((msg.length : Int), msg), after) := by
  obtain ⟨n, rfl⟩ := h
  induction n with
  | zero => simp [sslWriteMessage]
  | succ n ih => simpa [List.replicate_succ, sslWriteMessage] using ih

theorem toolSend_inn {m : Nat → Bool} {t t' : Tool} {c : CmdId} {s : Bytes} {b : Bool}
    (h : t.sendString m c s = .ok (b, t')) : t'.inn = t.inn := by
  unfold Tool.sendString Tool.write at h
  obtain ⟨r, -, h⟩ := Res.bind_eq_ok.1 h
  cases r with
  | none => simp at h; simp [← h.2]
  | some msg =>
    simp only at h
    rcases hw : sslWriteMessage msg t.wevs with ⟨_ | ⟨n, b⟩, r⟩ <;> simp [hw] at h <;> simp [← h.2]

theorem toolSend_returns {t : Tool} (h : Returns t.wevs) (c : CmdId) (s : Bytes) (hs : (cstr s).length < 2 ^ 63) :
    ∃ t', t.sendString (fun _ => true) c s = .ok (true, t') ∧ t'.inn = t.inn := by
  have hex : ∃ t', t.sendString (fun _ => true) c s = .ok (true, t') := by
    unfold Tool.sendString sendString Tool.write
    rw [send_length_aux c _ hs]
    simp only [if_true, Res.bind_ok]
    obtain ⟨n, b, r, hw⟩ := write_returns h (c.name ++ b!" " ++ decNat (cstr s).length ++ 10 :: cstr s)
    simp only [line2] at *
    have e : c.name ++ b!" " ++ decNat (cstr s).length ++ b!"\n" ++ cstr s =
      c.name ++ b!" " ++ decNat (cstr s).length ++ 10 :: cstr s := by simp
    rw [e, hw]
    exact ⟨_, rfl⟩
  obtain ⟨t', h'⟩ := hex
  exact ⟨t', h', toolSend_inn h'⟩

theorem toolSend_writes {t : Tool} {after : List WEv} (h : Writes t.wevs after) (c : CmdId) (s : Bytes)
    (hs : (cstr s).length < 2 ^ 63) :
    t.sendString (fun _ => true) c s =
      .ok (true, ⟨t.inn, after, t.wire ++ [line2 c.name (decNat (cstr s).length) ++ cstr s]⟩) := by
  unfold Tool.sendString sendString Tool.write
  rw [send_length_aux c _ hs]
  simp only [if_true, Res.bind_ok, write_writes h]
  rw [if_neg]
  simp [line2]

end Semla
