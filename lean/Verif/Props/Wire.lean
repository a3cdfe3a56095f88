import Verif.Lemmas.Wire

/-!
# Properties of the wire format: C01, C02, C03 (parser part), C04, C05, C06

The specification (`header`, `Denotes`, `Accepts`, `Rejected`, `IsNumeral`) is in
`Verif/Spec/Wire.lean`.
-/

set_option linter.unusedSimpArgs false

namespace Semla.Props

open Semla Semla.Spec

/-! ## C01 -/

/-- **C01.** For every received byte string, every error buffer of at least 100 bytes (all callers
use 4096) and every previous content of it: the parser accepts exactly the messages of the
published grammar, and what it hands back is exactly the command, number and length the message
denotes. -/
theorem c01_accept_iff (msg e : Bytes) (cap : Nat) (hcap : 100 ≤ cap) (cmd : Command) :
    (∃ m, parseCommand cap msg e = .ok (.valid, cmd, m)) ↔
      ∃ c n len, Accepts msg c n len ∧ cmd = ⟨c, n, len, none⟩ := by
  constructor
  · rintro ⟨m, h⟩
    rcases accepts_or_rejected msg with ⟨c, n, len, ha⟩ | ⟨g, hr, hg⟩
    · rw [parse_of_accepts ha] at h
      simp at h
      exact ⟨c, n, len, ha, h.1.symm⟩
    · obtain ⟨m', h', _⟩ := parse_of_rejected hr hcap e
      rw [h'] at h
      simp at h
      exact absurd h.1 hg
  · rintro ⟨c, n, len, ha, rfl⟩
    exact ⟨e, parse_of_accepts ha cap e⟩

/-- A message determines at most one command. -/
theorem c01_accept_unique (msg : Bytes) (c c' : CmdId) (n n' : Int) (len len' : Nat)
    (h : Accepts msg c n len) (h' : Accepts msg c' n' len') : c = c' ∧ n = n' ∧ len = len' := by
  have h1 := parse_of_accepts h 4096 []
  have h2 := parse_of_accepts h' 4096 []
  rw [h1] at h2
  simpa using h2

/-- Every message is either accepted or rejected, never both. -/
theorem c01_exclusive (msg : Bytes) (c : CmdId) (n : Int) (len : Nat) (g : Grammar)
    (h : Accepts msg c n len) : ¬ Rejected msg g := by
  intro hr
  have h1 := parse_of_accepts h 4096 []
  obtain ⟨m, h2, _⟩ := parse_of_rejected hr (cap := 4096) (by omega) []
  rw [h1] at h2
  simp [Command.zero] at h2
  have hc := h2.2.1.1
  subst hc
  cases h <;> simp [commands] at *

-- "LIB 3\nabc" is accepted as LIB with length 3; an unusual but accepted spelling:
example : Accepts b!"\n LIB +3x\nabc" .lib 0 3 :=
  .len (name := b!"LIB") (w := b!"+3x") (n := 3) (by decide) (by decide)
    ⟨[], b!"+", b!"3", b!"x", by decide, by simp, by simp, by simp, by decide, by decide, by decide⟩
    (by decide)
example : parseCommand 4096 b!"ERROR -7 2\nno" [] = .ok (.valid, ⟨.error, -7, 2, none⟩, []) := by
  decide
example : ∃ m, parseCommand 4096 b!"LIB x\n" [] = .ok (.notAnInt, .zero, m) := ⟨_, rfl⟩

/-! ## C02 -/

/-- **C02.** Every message that is not accepted is rejected with a diagnosis that depends on the
message alone (not on the error buffer or its size), and the command structure handed back is the
empty one. -/
theorem c02_reject (msg : Bytes) :
    (∃ c n len, Accepts msg c n len) ∨
    ∃ g, g ≠ .valid ∧ Rejected msg g ∧ ∀ (cap : Nat) (e : Bytes), 100 ≤ cap →
      ∃ m, parseCommand cap msg e = .ok (g, ⟨.undefined, 0, 0, none⟩, m) := by
  rcases accepts_or_rejected msg with h | ⟨g, hr, hg⟩
  · exact Or.inl h
  · refine Or.inr ⟨g, hg, hr, fun cap e hcap => ?_⟩
    obtain ⟨m, h, _⟩ := parse_of_rejected hr hcap e
    exact ⟨m, h⟩

/-- Whatever the diagnosis, if it is not "valid" the command is empty. -/
theorem c02_reject_empty (msg e m : Bytes) (cap : Nat) (hcap : 100 ≤ cap) (g : Grammar)
    (cmd : Command) (h : parseCommand cap msg e = .ok (g, cmd, m)) (hg : g ≠ .valid) :
    cmd = ⟨.undefined, 0, 0, none⟩ ∧ Rejected msg g := by
  rcases c02_reject msg with ⟨c, n, len, ha⟩ | ⟨g', _, hr, hall⟩
  · rw [parse_of_accepts ha] at h
    simp at h
    exact absurd h.1.symm hg
  · obtain ⟨m', h'⟩ := hall cap e hcap
    rw [h'] at h
    simp only [Res.ok.injEq, Prod.mk.injEq] at h
    obtain ⟨rfl, rfl, _⟩ := h
    exact ⟨rfl, hr⟩

example : Rejected b!"FILE 1 2\n" .tooManyTokens :=
  .many (c := .file) (name := b!"FILE") (sh := .len) (ws := [b!"1", b!"2"]) (by decide) (by decide)
    (by decide)
example : Rejected b!"LIB -1\n" .negativeLength :=
  .negative (c := .lib) (name := b!"LIB") (sh := .len) (ws := [b!"-1"]) (n := -1) (by decide)
    (by decide) (by decide) (by decide)
    (by
      intro w hw
      simp at hw
      subst hw
      exact ⟨-1, (scanLong_eq_val_iff _ _).1 (by decide)⟩)
    ⟨b!"-1", by decide, (scanLong_eq_val_iff _ _).1 (by decide)⟩ (by decide)

/-! ## C03, parser part -/

/-- **C03 (grammar errors).** Parsing any message never makes an out-of-bounds access, and the text
left in the error buffer always fits with its terminator, if the text in there before did. -/
theorem c03_parse_error_text_fits (msg e : Bytes) (cap : Nat) (hcap : 100 ≤ cap)
    (he : e.length < cap) :
    ∃ g cmd m, parseCommand cap msg e = .ok (g, cmd, m) ∧ m.length < cap := by
  rcases accepts_or_rejected msg with ⟨c, n, len, ha⟩ | ⟨g, hr, hg⟩
  · exact ⟨_, _, _, parse_of_accepts ha cap e, he⟩
  · obtain ⟨m, h, hm⟩ := parse_of_rejected hr hcap e
    refine ⟨_, _, _, h, ?_⟩
    rcases hm with rfl | hm <;> omega

example : ∃ m, parseCommand 100 (List.replicate 300 65) [] = .ok (.unknownCmd, .zero, m) ∧
    m.length = 99 := ⟨_, rfl, by decide⟩

/-! ## C04 and C05 -/

/-- **C05, simple form.** -/
theorem c05_simple_not_truncated (c : CmdId) : sendSimple c = c.name ++ b!"\n" := by
  cases c <;> decide

/-- **C05, number form**, for every `long`: the message is the command name, a space, a numeral of
the number and a newline, nothing missing. -/
theorem c05_number_not_truncated (c : CmdId) (n : Int) (h1 : -2 ^ 63 ≤ n) (h2 : n ≤ 2 ^ 63 - 1) :
    ∃ ds, IsNumeral n.natAbs ds ∧
      sendNumber c n = line2 c.name (if n < 0 then 45 :: ds else ds) := by
  refine ⟨decNat n.natAbs, decNat_numeral _, ?_⟩
  rw [send_number_aux c n (by unfold longMin; omega) (by unfold longMax; omega)]
  rfl

/-- **C05, length form**, for every data object (fewer than 2^63 bytes): either memory is refused
and nothing is sent, or the whole header and the whole data are sent; the buffer is never
overrun. -/
theorem c05_length_not_truncated (c : CmdId) (data : Bytes) (h : data.length < 2 ^ 63)
    (mallocOk : Nat → Bool) :
    (sendLength mallocOk c data = .ok none ∧ ∃ size, mallocOk size = false) ∨
    ∃ ds, IsNumeral data.length ds ∧
      sendLength mallocOk c data = .ok (some (line2 c.name ds ++ data)) := by
  rw [send_length_aux c data h]
  by_cases hm : mallocOk (numberBufSize + data.length + 1) = true
  · right; exact ⟨_, decNat_numeral _, by simp [hm]⟩
  · left; simp [hm]; exact ⟨_, by simpa using hm⟩

/-- **C05, number-and-length form.** -/
theorem c05_numlen_not_truncated (c : CmdId) (n : Int) (data : Bytes) (h1 : -2 ^ 63 ≤ n)
    (h2 : n ≤ 2 ^ 63 - 1) (h : data.length < 2 ^ 63) (mallocOk : Nat → Bool) :
    (sendNumberAndLength mallocOk c n data = .ok none ∧ ∃ size, mallocOk size = false) ∨
    ∃ ns ds, IsNumeral n.natAbs ns ∧ IsNumeral data.length ds ∧
      sendNumberAndLength mallocOk c n data =
        .ok (some (line3 c.name (if n < 0 then 45 :: ns else ns) ds ++ data)) := by
  rw [send_numlen_aux c n data (by unfold longMin; omega) (by unfold longMax; omega) h]
  by_cases hm : mallocOk (numberAndLengthBufSize + data.length + 1) = true
  · right; exact ⟨_, _, decNat_numeral _, decNat_numeral _, by simp [hm]; rfl⟩
  · left; simp [hm]; exact ⟨_, by simpa using hm⟩

-- the longest possible headers
example : sendNumber .returnFeature (-9223372036854775808) =
    b!"RETURNFEATURE -9223372036854775808\n" := by decide
example : sendNumberAndLength (fun _ => true) .error 7 b!"a\nb" =
    .ok (some b!"ERROR 7 3\na\nb") := by decide

/-- **C04, simple form.** -/
theorem c04_simple (c : CmdId) (hc : c.form = .simple) (view e : Bytes) (cap : Nat)
    (hv : Views (sendSimple c) view) :
    parseCommand cap view e = .ok (.valid, ⟨c, 0, 0, none⟩, e) := by
  rw [c05_simple_not_truncated] at hv
  have hm := mem_commands_of_form.1 hc
  refine parse_of_accepts (.plain hm ?_) cap e
  have key : ∀ rest : Bytes, rest = [] ∨ (∃ r, rest = 10 :: r) →
      header (c.name ++ rest) = [c.name] := fun rest hr => by
    rw [header_line (name_plain c).isLine (name_plain c).1 hr, words_single (name_plain c)]
  rcases hv with rfl | rfl
  · exact key _ (Or.inr ⟨_, rfl⟩)
  · rw [(dropLast_line c.name []).1]
    exact key _ (dropLast_line c.name []).2

/-- **C04, number form.** -/
theorem c04_number (c : CmdId) (hc : c.form = .number) (n : Int) (h1 : -2 ^ 63 ≤ n)
    (h2 : n ≤ 2 ^ 63 - 1) (view e : Bytes) (cap : Nat) (hv : Views (sendNumber c n) view) :
    parseCommand cap view e = .ok (.valid, ⟨c, n, 0, none⟩, e) := by
  have h1' : longMin ≤ n := by unfold longMin; omega
  have h2' : n ≤ longMax := by unfold longMax; omega
  rw [send_number_aux c n h1' h2'] at hv
  have hm := mem_commands_of_form.2.1 hc
  have key : ∀ rest : Bytes, rest = [] ∨ (∃ r, rest = 10 :: r) →
      header (c.name ++ b!" " ++ decInt n ++ rest) = [c.name, decInt n] := fun rest hr =>
    header_line2 (name_plain c) (decInt_plain n) hr
  refine parse_of_accepts (.num hm ?_ (decInt_denotes n h1' h2')) cap e
  unfold line2 at hv
  rcases hv with rfl | rfl
  · exact key _ (Or.inr ⟨_, rfl⟩)
  · rw [(dropLast_line _ []).1]; exact key _ (dropLast_line (c.name ++ b!" " ++ decInt n) []).2

/-- **C04, length form.** When memory is available, the message sent for `data` is parsed back (by
either side) as the same command with the length of `data`, and the data buffer extracted from it
holds exactly `data` (followed by the terminating NUL). -/
theorem c04_length (c : CmdId) (hc : c.form = .length) (data e : Bytes)
    (h : data.length < 2 ^ 63) (cap : Nat) :
    ∃ msg, sendLength (fun _ => true) c data = .ok (some msg) ∧
      (∀ view, Views msg view →
        parseCommand cap view e = .ok (.valid, ⟨c, 0, data.length, none⟩, e)) ∧
      extractData (fun _ => true) ⟨c, 0, data.length, none⟩ msg =
        .ok (⟨c, 0, data.length, some ⟨data.map some ++ [some 0]⟩⟩, data.length) := by
  refine ⟨_, by rw [send_length_aux c data h]; rfl, ?_, ?_⟩
  · intro view hv
    exact parse_of_accepts (accepts_len hc h hv) cap e
  · have : line2 c.name (decNat data.length) ++ data
        = (c.name ++ b!" " ++ decNat data.length) ++ 10 :: data := by simp [line2]
    rw [this, extractData_line (line2_isLine c _) _ h]
    simp [fillBuf_exact]

/-- **C04, number-and-length form.** -/
theorem c04_numlen (c : CmdId) (hc : c.form = .numberAndLength) (n : Int) (data e : Bytes)
    (h1 : -2 ^ 63 ≤ n) (h2 : n ≤ 2 ^ 63 - 1) (h : data.length < 2 ^ 63) (cap : Nat) :
    ∃ msg, sendNumberAndLength (fun _ => true) c n data = .ok (some msg) ∧
      (∀ view, Views msg view →
        parseCommand cap view e = .ok (.valid, ⟨c, n, data.length, none⟩, e)) ∧
      extractData (fun _ => true) ⟨c, n, data.length, none⟩ msg =
        .ok (⟨c, n, data.length, some ⟨data.map some ++ [some 0]⟩⟩, data.length) := by
  have h1' : longMin ≤ n := by unfold longMin; omega
  have h2' : n ≤ longMax := by unfold longMax; omega
  refine ⟨_, by rw [send_numlen_aux c n data h1' h2' h]; rfl, ?_, ?_⟩
  · intro view hv
    exact parse_of_accepts (accepts_numlen hc h1' h2' h hv) cap e
  · have : line3 c.name (decInt n) (decNat data.length) ++ data
        = (c.name ++ b!" " ++ decInt n ++ b!" " ++ decNat data.length) ++ 10 :: data := by
      simp [line3]
    rw [this, extractData_line (line3_isLine c n _) _ h]
    simp [fillBuf_exact]

-- data that looks like a header, with NUL and newline
example : ∃ msg, sendLength (fun _ => true) .file b!"LIB 3\n\u0000x" = .ok (some msg) ∧
    extractData (fun _ => true) ⟨.file, 0, 8, none⟩ msg =
      .ok (⟨.file, 0, 8, some ⟨b!"LIB 3\n\u0000x\u0000".map some⟩⟩, 8) := ⟨_, rfl, by decide⟩
example : (CmdId.fileCont).form = .length ∧ (CmdId.error).form = .numberAndLength ∧
  (CmdId.version).form = .number ∧ (CmdId.notSimple).form = .simple := by decide

/-! ## C06 -/

/-- **C06 is false**: a message that the parser accepts (7 bytes, any client can send it) makes data
extraction write past the end of its heap buffer. -/
theorem c06_extract_overflow_negated :
    ∃ msg cmd, parseCommand 4096 msg [] = .ok (.valid, cmd, []) ∧
      extractData (fun _ => true) cmd msg = .ub .oobWrite :=
  ⟨b!"LIB 0\nab", ⟨.lib, 0, 0, none⟩, by decide, by decide⟩

/-- **C06 is false** in a second way: an accepted message without a newline makes the search for the
data part read past the end of the receive buffer. -/
theorem c06_extract_overread_negated :
    ∃ msg cmd, parseCommand 4096 msg [] = .ok (.valid, cmd, []) ∧
      extractData (fun _ => true) cmd msg = .ub .oobRead :=
  ⟨b!"LIB 3", ⟨.lib, 0, 3, none⟩, by decide, by decide⟩

/-- **C06 is false** in a third way: when the message is shorter than declared, the command carries
bytes that do not come from the message at all (never written memory). -/
theorem c06_extract_uninit_negated :
    ∃ msg cmd buf k, parseCommand 4096 msg [] = .ok (.valid, cmd, []) ∧
      extractData (fun _ => true) cmd msg = .ok ({ cmd with data := some buf }, k) ∧
      readCells buf.cells cmd.length = .ub .uninit :=
  ⟨b!"LIB 3\na", ⟨.lib, 0, 3, none⟩, ⟨[some 97, none, none, some 0]⟩, 1, by decide, by decide,
    by decide⟩

/-- **C06, exact safety condition** (full statement: extraction is always safe and always yields the
declared bytes; false as shown above).  Extraction misbehaves if and only if the message contains
neither newline nor NUL, or its first line is followed by at least two bytes more than declared
while memory is available. -/
theorem c06_extract_safe_iff_partial (msg : Bytes) (cmd : Command) (hlen : cmd.length < 2 ^ 63)
    (mallocOk : Nat → Bool) :
    (∃ k, extractData mallocOk cmd msg = .ub k) ↔
      (∀ b ∈ msg, b ≠ 0 ∧ b ≠ 10) ∨
      ∃ line part, msg = line ++ b!"\n" ++ part ∧ (∀ b ∈ line, b ≠ 0 ∧ b ≠ 10) ∧
        mallocOk (cmd.length + 1) = true ∧ part.length > cmd.length + 1 := by
  cases hf : findNewline msg with
  | none =>
    have hl := findNewline_none.1 hf
    simp only [extractData, hf]
    exact ⟨fun _ => Or.inl hl, fun _ => ⟨_, rfl⟩⟩
  | some o =>
    cases o with
    | none =>
      obtain ⟨line, r, rfl, hl⟩ := findNewline_some_none hf
      simp only [extractData, hf]
      constructor
      · rintro ⟨k, hk⟩; simp at hk
      · rintro (h | ⟨line', part, h1, h2, _⟩)
        · exact absurd rfl (h 0 (by simp)).1
        · exfalso
          have h1' : line ++ 0 :: r = line' ++ 10 :: part := by simpa using h1
          rw [h1', findNewline_line h2] at hf
          simp at hf
    | some i =>
      obtain ⟨line, r, rfl, hl, rfl⟩ := findNewline_some hf
      rw [extractData_line hl cmd hlen]
      constructor
      · rintro ⟨k, hk⟩
        right
        refine ⟨line, r, by simp, hl, ?_⟩
        by_cases hm : mallocOk (cmd.length + 1) = true
        · refine ⟨hm, ?_⟩
          by_contra hp
          simp [hm, Nat.not_lt.1 hp] at hk
        · simp [hm] at hk
      · rintro (h | ⟨line', part, h1, h2, hm, hp⟩)
        · exact absurd rfl (h 10 (by simp)).2
        · have h1' : line ++ 10 :: r = line' ++ 10 :: part := by simpa using h1
          have hl1 := findNewline_line (r := r) hl
          rw [h1', findNewline_line h2] at hl1
          simp at hl1
          have := List.append_inj h1' hl1.symm
          simp at this
          obtain ⟨rfl, rfl⟩ := this
          have : ¬ r.length ≤ cmd.length + 1 := by omega
          simp [hm, this]

/-- **C06, what is extracted** when extraction is safe and the message is as long as declared: the
declared number of bytes after the first newline. -/
theorem c06_extract_data_partial (line part : Bytes) (hl : ∀ b ∈ line, b ≠ 0 ∧ b ≠ 10)
    (cmd : Command) (hlen : cmd.length < 2 ^ 63) (hp : cmd.length ≤ part.length)
    (hp2 : part.length ≤ cmd.length + 1) :
    ∃ buf, extractData (fun _ => true) cmd (line ++ b!"\n" ++ part) =
        .ok ({ cmd with data := some buf }, part.length) ∧
      buf.cells.length = cmd.length + 1 ∧
      readCells buf.cells cmd.length = .ok (part.take cmd.length) := by
  refine ⟨fillBuf cmd.length part, ?_, ?_, ?_⟩
  · have : line ++ b!"\n" ++ part = line ++ 10 :: part := by simp
    rw [this, extractData_line hl cmd hlen]
    simp [hp2]
  · simp [fillBuf]; omega
  · unfold fillBuf
    have : (part.map some ++ List.replicate (cmd.length + 1 - part.length) none).take cmd.length
        = (part.take cmd.length).map some := by
      rw [List.take_append_of_le_length (by simpa using hp), List.map_take]
    rw [this]
    have := readCells_map_some (part.take cmd.length) [some 0]
    simpa [Nat.min_eq_left hp] using this

example : ∃ k, extractData (fun _ => true) ⟨.file, 0, 1, none⟩ b!"FILE 1\nab" =
    .ok (⟨.file, 0, 1, some ⟨[some 97, some 0]⟩⟩, k) := ⟨2, by decide⟩

end Semla.Props
