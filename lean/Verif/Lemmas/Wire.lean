import Verif.Lemmas.Send

/-! # Lemmas for the send/parse round trip -/

set_option linter.unusedSimpArgs false

namespace Semla

open Spec

theorem send_number_aux (c : CmdId) (n : Int) (h1 : longMin ≤ n) (h2 : n ≤ longMax) :
    sendNumber c n = line2 c.name (decInt n) := by
  have hl := decInt_length n h1 h2
  have hc := name_length_le c
  unfold sendNumber snprintf line2
  rw [List.take_of_length_le, cstr_of_noNul]
  · intro x hx
    simp only [List.mem_append, List.mem_cons, List.not_mem_nil, or_false] at hx
    rcases hx with ((hx | rfl) | hx) | rfl
    · exact ((name_plain c).isLine x hx).1
    · decide
    · exact ((decInt_plain n).isLine x hx).1
    · decide
  · simp [numberBufSize, simpleBufSize, maxCmdLength] at *; omega

theorem send_length_aux (c : CmdId) (data : Bytes) (h : data.length < 2 ^ 63)
    (mallocOk : Nat → Bool) :
    sendLength mallocOk c data =
      if mallocOk (numberBufSize + data.length + 1) then
        .ok (some (line2 c.name (decNat data.length) ++ data)) else .ok none := by
  have hl := decNat_length_size data.length (by unfold sizeMod; omega)
  have hc := name_length_le c
  unfold sendLength composeWithData line2
  have hs : (numberBufSize + data.length + 1) % sizeMod = numberBufSize + data.length + 1 := by
    unfold numberBufSize simpleBufSize sizeMod; omega
  simp only [hs]
  split
  · rw [if_pos]
    · simp
    · simp [numberBufSize, simpleBufSize, maxCmdLength] at *
      omega
  · rfl

theorem send_numlen_aux (c : CmdId) (n : Int) (data : Bytes) (h1 : longMin ≤ n) (h2 : n ≤ longMax)
    (h : data.length < 2 ^ 63) (mallocOk : Nat → Bool) :
    sendNumberAndLength mallocOk c n data =
      if mallocOk (numberAndLengthBufSize + data.length + 1) then
        .ok (some (line3 c.name (decInt n) (decNat data.length) ++ data)) else .ok none := by
  have hl := decNat_length_size data.length (by unfold sizeMod; omega)
  have hl2 := decInt_length n h1 h2
  have hc := name_length_le c
  unfold sendNumberAndLength composeWithData line3
  have hs : (numberAndLengthBufSize + data.length + 1) % sizeMod
      = numberAndLengthBufSize + data.length + 1 := by
    unfold numberAndLengthBufSize numberBufSize simpleBufSize sizeMod; omega
  simp only [hs]
  split
  · rw [if_pos]
    · simp
    · simp [numberAndLengthBufSize, numberBufSize, simpleBufSize, maxCmdLength] at *
      omega
  · rfl

theorem header_line2 {name a rest : Bytes} (hn : Plain name) (ha : Plain a)
    (hr : rest = [] ∨ ∃ r, rest = 10 :: r) :
    header (name ++ b!" " ++ a ++ rest) = [name, a] := by
  rw [header_line ((hn.isLine.append isLine_space).append ha.isLine) (by simp [hn.1]) hr]
  have : name ++ b!" " ++ a = name ++ 32 :: a := by simp
  rw [this, words_cons hn, words_single ha]

theorem header_line3 {name a b rest : Bytes} (hn : Plain name) (ha : Plain a) (hb : Plain b)
    (hr : rest = [] ∨ ∃ r, rest = 10 :: r) :
    header (name ++ b!" " ++ a ++ b!" " ++ b ++ rest) = [name, a, b] := by
  rw [header_line ((((hn.isLine.append isLine_space).append ha.isLine).append isLine_space).append
    hb.isLine) (by simp [hn.1]) hr]
  have : name ++ b!" " ++ a ++ b!" " ++ b = name ++ 32 :: (a ++ 32 :: b) := by simp
  rw [this, words_cons hn, words_cons ha, words_single hb]

theorem dropLast_line (l d : Bytes) :
    (l ++ 10 :: d).dropLast = l ++ (10 :: d).dropLast ∧
    ((10 :: d).dropLast = [] ∨ ∃ r, (10 :: d).dropLast = 10 :: r) := by
  constructor
  · rw [List.dropLast_append_of_ne_nil (by simp)]
  · cases d with
    | nil => left; rfl
    | cons x xs => right; exact ⟨_, rfl⟩

theorem mem_commands_of_form {c : CmdId} :
    (c.form = .simple → (c, c.name, Shape.plain) ∈ commands) ∧
    (c.form = .number → (c, c.name, Shape.num) ∈ commands) ∧
    (c.form = .length → (c, c.name, Shape.len) ∈ commands) ∧
    (c.form = .numberAndLength → (c, c.name, Shape.numLen) ∈ commands) := by
  cases c <;> simp [CmdId.form, CmdId.name, commands]

theorem accepts_len {c : CmdId} (hc : c.form = .length) {data view : Bytes}
    (h : data.length < 2 ^ 63) (hv : Views (line2 c.name (decNat data.length) ++ data) view) :
    Accepts view c 0 data.length := by
  have hm := mem_commands_of_form.2.2.1 hc
  have hlen : ((data.length : Nat) : Int) ≤ longMax := by unfold longMax; omega
  have key : ∀ rest : Bytes, rest = [] ∨ (∃ r, rest = 10 :: r) →
      Accepts (c.name ++ b!" " ++ decNat data.length ++ rest) c 0 data.length := fun rest hr =>
    .len (n := data.length) hm (header_line2 (name_plain c) (decNat_plain _) hr)
      (decNat_denotes _ hlen) (by omega)
  have hv' : Views (c.name ++ b!" " ++ decNat data.length ++ 10 :: data) view := by
    simpa [line2] using hv
  rcases hv' with rfl | rfl
  · exact key _ (Or.inr ⟨_, rfl⟩)
  · rw [(dropLast_line _ data).1]
    exact key _ (dropLast_line (c.name ++ b!" " ++ decNat data.length) data).2

theorem accepts_numlen {c : CmdId} (hc : c.form = .numberAndLength) {n : Int} {data view : Bytes}
    (h1 : longMin ≤ n) (h2 : n ≤ longMax) (h : data.length < 2 ^ 63)
    (hv : Views (line3 c.name (decInt n) (decNat data.length) ++ data) view) :
    Accepts view c n data.length := by
  have hm := mem_commands_of_form.2.2.2 hc
  have hlen : ((data.length : Nat) : Int) ≤ longMax := by unfold longMax; omega
  have key : ∀ rest : Bytes, rest = [] ∨ (∃ r, rest = 10 :: r) →
      Accepts (c.name ++ b!" " ++ decInt n ++ b!" " ++ decNat data.length ++ rest) c n
        data.length := fun rest hr =>
    .numLen (m := data.length) hm (header_line3 (name_plain c) (decInt_plain _) (decNat_plain _) hr)
      (decInt_denotes _ h1 h2) (decNat_denotes _ hlen) (by omega)
  have hv' : Views (c.name ++ b!" " ++ decInt n ++ b!" " ++ decNat data.length ++ 10 :: data)
      view := by
    simpa [line3] using hv
  rcases hv' with rfl | rfl
  · exact key _ (Or.inr ⟨_, rfl⟩)
  · rw [(dropLast_line _ data).1]
    exact key _ (dropLast_line (c.name ++ b!" " ++ decInt n ++ b!" " ++ decNat data.length) data).2

theorem line2_isLine (c : CmdId) (k : Nat) : IsLine (c.name ++ b!" " ++ decNat k) :=
  ((name_plain c).isLine.append isLine_space).append (decNat_plain k).isLine

theorem line3_isLine (c : CmdId) (n : Int) (k : Nat) :
    IsLine (c.name ++ b!" " ++ decInt n ++ b!" " ++ decNat k) :=
  ((((name_plain c).isLine.append isLine_space).append (decInt_plain n).isLine).append
    isLine_space).append (decNat_plain k).isLine

theorem fillBuf_exact (data : Bytes) :
    fillBuf data.length data = ⟨data.map some ++ [some 0]⟩ := by
  unfold fillBuf
  congr 2
  rw [List.take_left' (by simp)]

theorem sendSimple_eq (c : CmdId) : sendSimple c = c.name ++ b!"\n" := by
  cases c <;> decide

theorem accepts_simple_view {c : CmdId} (hc : c.form = .simple) {view : Bytes}
    (hv : Views (sendSimple c) view) : Accepts view c 0 0 := by
  rw [sendSimple_eq] at hv
  have hm := mem_commands_of_form.1 hc
  refine .plain hm ?_
  have key : ∀ rest : Bytes, rest = [] ∨ (∃ r, rest = 10 :: r) →
      header (c.name ++ rest) = [c.name] := fun rest hr => by
    rw [header_line (name_plain c).isLine (name_plain c).1 hr, words_single (name_plain c)]
  rcases hv with rfl | rfl
  · exact key _ (Or.inr ⟨_, rfl⟩)
  · rw [(dropLast_line c.name []).1]
    exact key _ (dropLast_line c.name []).2

theorem accepts_number_view {c : CmdId} (hc : c.form = .number) {n : Int} (h1 : longMin ≤ n)
    (h2 : n ≤ longMax) {view : Bytes} (hv : Views (sendNumber c n) view) : Accepts view c n 0 := by
  rw [send_number_aux c n h1 h2] at hv
  have hm := mem_commands_of_form.2.1 hc
  have key : ∀ rest : Bytes, rest = [] ∨ (∃ r, rest = 10 :: r) →
      header (c.name ++ b!" " ++ decInt n ++ rest) = [c.name, decInt n] := fun rest hr =>
    header_line2 (name_plain c) (decInt_plain n) hr
  refine .num hm ?_ (decInt_denotes n h1 h2)
  unfold line2 at hv
  rcases hv with rfl | rfl
  · exact key _ (Or.inr ⟨_, rfl⟩)
  · rw [(dropLast_line _ []).1]; exact key _ (dropLast_line (c.name ++ b!" " ++ decInt n) []).2

theorem accepts_len_rest {c : CmdId} (hc : c.form = .length) {len : Nat} {rest : Bytes}
    (h : len < 2 ^ 63) (hr : rest = [] ∨ ∃ r, rest = 10 :: r) :
    Accepts (c.name ++ b!" " ++ decNat len ++ rest) c 0 len :=
  .len (n := len) (mem_commands_of_form.2.2.1 hc)
    (header_line2 (name_plain c) (decNat_plain _) hr)
    (decNat_denotes _ (by unfold longMax; omega)) (by omega)

theorem accepts_numlen_rest {c : CmdId} (hc : c.form = .numberAndLength) {n : Int} {len : Nat}
    {rest : Bytes} (h1 : longMin ≤ n) (h2 : n ≤ longMax)
    (h : len < 2 ^ 63) (hr : rest = [] ∨ ∃ r, rest = 10 :: r) :
    Accepts (c.name ++ b!" " ++ decInt n ++ b!" " ++ decNat len ++ rest) c n len :=
  .numLen (m := len) (mem_commands_of_form.2.2.2 hc)
    (header_line3 (name_plain c) (decInt_plain _) (decNat_plain _) hr)
    (decInt_denotes _ h1 h2) (decNat_denotes _ (by unfold longMax; omega)) (by omega)

theorem split_header {L data first rest : Bytes} (h : first ++ rest = L ++ 10 :: data)
    (hl : first.length ≥ L.length + 1) : ∃ d1, first = L ++ 10 :: d1 ∧ data = d1 ++ rest := by
  have h' : first ++ rest = (L ++ [10]) ++ data := by simpa using h
  rw [List.append_eq_append_iff] at h'
  rcases h' with ⟨as, h1, h2⟩ | ⟨bs, h1, h2⟩
  · have : as = [] := by
      have := congrArg List.length h1
      simp at this
      exact List.length_eq_zero_iff.1 (by omega)
    subst this
    refine ⟨[], ?_, ?_⟩
    · simpa using h1.symm
    · simpa using h2.symm
  · exact ⟨bs, by simpa using h1, h2⟩

theorem accepts_length_lt {msg : Bytes} {c : CmdId} {n : Int} {len : Nat}
    (h : Accepts msg c n len) : len < 2 ^ 63 := by
  have key : ∀ {w : Bytes} {m : Int}, Denotes w m → m.toNat < 2 ^ 63 := by
    rintro w m ⟨_, _, _, _, _, _, _, _, _, _, hm⟩
    omega
  cases h with
  | plain => decide
  | num => decide
  | len _ _ hd _ => exact key hd
  | numLen _ _ _ hd _ => exact key hd

end Semla
