import Verif.Lemmas.Ssl

/-!
# Properties of reading and writing over TLS: C07, C08, C09, C50, C51

`Delivers`, `Idle` and `fresh` are defined in `Verif/Spec/Tls.lean`.
-/

set_option linter.unusedSimpArgs false

namespace Semla.Props

open Semla Semla.Spec

/-! ## C07 -/

/-- **C07.** For every record content, every number of retries before it and every way `SSL_read`
portions it: one read returns exactly the bytes of the next non-empty record, in a buffer of exactly
that size, and leaves the later events untouched. -/
theorem c07_whole_record (pre rest : List Ev) (hq : ∀ e ∈ pre, Idle e) (b : Bytes) (hb : b ≠ [])
    (sizes : List Nat) :
    ∃ freed, sslReadMessage (fun _ => true) (fresh (pre ++ .record b sizes :: rest)) =
      .ok (.message (b.map some) b.length freed, fresh rest) := by
  obtain ⟨freed, h, _⟩ := sslReadMessage_record pre rest hq b hb sizes
  exact ⟨freed, h⟩

/-- **C07.** A failure of the connection before the next record is reported as failure, and without
any further data the read waits; it never returns an empty message. -/
theorem c07_failure (pre rest : List Ev) (hq : ∀ e ∈ pre, Idle e) (mallocOk : Nat → Bool)
    (code : Nat) (q : List Bytes) :
    sslReadMessage mallocOk (fresh (pre ++ .fail code q :: rest)) = .ok (.failed code q, fresh rest) ∧
    sslReadMessage mallocOk (fresh pre) = .ok (.blocked, fresh []) :=
  ⟨sslReadMessage_fail mallocOk pre rest hq code q, sslReadMessage_blocked mallocOk pre hq⟩

/-- **C07, memory safety**: whatever the peer sends, in whatever state the connection is, and however
the allocator behaves, reading a message never accesses memory out of bounds. -/
theorem c07_memory_safe (mallocOk : Nat → Bool) (c : Conn) :
    ∃ r, sslReadMessage mallocOk c = .ok r :=
  readLoop_defined mallocOk _ c none 0 0 [] (by simp)

-- two retries, an empty record, then 5 bytes in portions of 2, 1 and the rest
example : ∃ freed, sslReadMessage (fun _ => true)
    (fresh [.wantRead, .record [] [], .wantWrite, .record b!"abcde" [2, 1], .fail 5 []]) =
      .ok (.message (b!"abcde".map some) 5 freed, fresh [.fail 5 []]) := ⟨_, by rfl⟩

/-! ## C08 -/

/-- **C08, replies with data.** The reply consists of a header line and data; it arrives in any number
of records, cut anywhere after the header line, with any retries in between and read in any portions.
The tool gets the command with exactly the data sent, and consumes exactly the records of the reply. -/
theorem c08_reassembly_length (c : CmdId) (hc : c.form = .length) (data : Bytes)
    (h : data.length < 2 ^ 63) (msg first : Bytes) (more : List Bytes) (evs rest : List Ev)
    (hsend : sendLength (fun _ => true) c data = .ok (some msg))
    (hsplit : (first :: more).flatten = msg) (hd : Delivers evs (first :: more) rest)
    (hhdr : first.length ≥ msg.length - data.length) (hsize : first.length ≤ 16400)
    (loc : ErrLoc) :
    readCommand (fun _ => true) (fresh evs) loc =
      .ok (.done ⟨c, 0, data.length, some ⟨data.map some ++ [some 0]⟩⟩ loc, fresh rest) := by
  rw [send_length_aux c data h] at hsend
  simp only [if_true, Res.ok.injEq, Option.some.injEq] at hsend
  obtain ⟨d1, hf, hdat⟩ := split_header (L := c.name ++ b!" " ++ decNat data.length) (data := data)
    (first := first) (rest := more.flatten)
    (by rw [← hsend] at hsplit; simpa [line2] using hsplit)
    (by rw [← hsend] at hhdr; simp [line2] at hhdr ⊢; omega)
  subst hf
  exact readCommand_data (line2_isLine c _) (Or.inl hc) (by
      rw [(dropLast_line _ d1).1]
      exact accepts_len_rest hc h (dropLast_line (c.name ++ b!" " ++ decNat data.length) d1).2)
    hdat.symm hd hsize loc

/-- **C08, ERROR replies.** -/
theorem c08_reassembly_error (c : CmdId) (hc : c.form = .numberAndLength) (n : Int) (data : Bytes)
    (h1 : -2 ^ 63 ≤ n) (h2 : n ≤ 2 ^ 63 - 1)
    (h : data.length < 2 ^ 63) (msg first : Bytes) (more : List Bytes) (evs rest : List Ev)
    (hsend : sendNumberAndLength (fun _ => true) c n data = .ok (some msg))
    (hsplit : (first :: more).flatten = msg) (hd : Delivers evs (first :: more) rest)
    (hhdr : first.length ≥ msg.length - data.length) (hsize : first.length ≤ 16400)
    (loc : ErrLoc) :
    readCommand (fun _ => true) (fresh evs) loc =
      .ok (.done ⟨c, n, data.length, some ⟨data.map some ++ [some 0]⟩⟩ loc, fresh rest) := by
  have h1' : longMin ≤ n := by unfold longMin; omega
  have h2' : n ≤ longMax := by unfold longMax; omega
  rw [send_numlen_aux c n data h1' h2' h] at hsend
  simp only [if_true, Res.ok.injEq, Option.some.injEq] at hsend
  obtain ⟨d1, hf, hdat⟩ := split_header
    (L := c.name ++ b!" " ++ decInt n ++ b!" " ++ decNat data.length) (data := data)
    (first := first) (rest := more.flatten)
    (by rw [← hsend] at hsplit; simpa [line3] using hsplit)
    (by rw [← hsend] at hhdr; simp [line3] at hhdr ⊢; omega)
  subst hf
  exact readCommand_data (line3_isLine c n _) (Or.inr hc) (by
      rw [(dropLast_line _ d1).1]
      exact accepts_numlen_rest hc h1' h2' h
        (dropLast_line (c.name ++ b!" " ++ decInt n ++ b!" " ++ decNat data.length) d1).2)
    hdat.symm hd hsize loc

/-- **C08, replies without data** (they fit in one record). -/
theorem c08_reassembly_plain (c : CmdId) (hc : c.form = .simple) (n : Int) (c' : CmdId)
    (hc' : c'.form = .number) (h1 : -2 ^ 63 ≤ n) (h2 : n ≤ 2 ^ 63 - 1) (evs rest : List Ev)
    (loc : ErrLoc) :
    (Delivers evs [sendSimple c] rest →
      readCommand (fun _ => true) (fresh evs) loc = .ok (.done ⟨c, 0, 0, none⟩ loc, fresh rest)) ∧
    (Delivers evs [sendNumber c' n] rest →
      readCommand (fun _ => true) (fresh evs) loc = .ok (.done ⟨c', n, 0, none⟩ loc, fresh rest)) := by
  constructor
  · intro hd
    have hsz : (sendSimple c).length ≤ 16400 := by
      rw [sendSimple_eq]
      have := name_length_le c
      simp [maxCmdLength] at *; omega
    exact readCommand_plain hd hsz (accepts_simple_view hc (Or.inr rfl)) (by simp [hc]) loc
  · intro hd
    have h1' : longMin ≤ n := by unfold longMin; omega
    have h2' : n ≤ longMax := by unfold longMax; omega
    have hsz : (sendNumber c' n).length ≤ 16400 := by
      rw [send_number_aux c' n h1' h2']
      have := name_length_le c'
      have := decInt_length n h1' h2'
      simp [maxCmdLength, line2] at *; omega
    exact readCommand_plain hd hsz (accepts_number_view hc' h1' h2' (Or.inr rfl)) (by simp [hc']) loc

-- a reply cut into three records, with retries
example : readCommand (fun _ => true)
    (fresh [.wantRead, .record b!"FILECONT 5\nab" [], .record b!"c" [], .wantRead,
      .record b!"de" [1], .wantRead]) (some none) =
    .ok (.done ⟨.fileCont, 0, 5, some ⟨b!"abcde\u0000".map some⟩⟩ (some none), fresh [.wantRead]) := by
  rfl
example : Delivers [.wantRead, .record b!"ab" [], .record b!"c" [7], .wantRead] [b!"ab", b!"c"]
    [.wantRead] :=
  .cons (pre := [.wantRead]) (by simp [Idle]) (by simp) (.cons (pre := []) (by simp) (by simp) (.nil _))

/-! ## C09 -/

/-- **C09 is false**: a peer that announces 3 bytes, sends one and drops the connection makes the tool
copy with a length of (size_t)-1. -/
theorem c09_broken_connection_negated :
    readCommand (fun _ => true) (fresh [.record b!"FILECONT 3\na" [], .fail 5 []]) (some none) =
      .ub .oobWrite := by rfl

/-- **C09 is false**: a peer whose second record is longer than announced overruns the data buffer. -/
theorem c09_overlong_record_negated :
    readCommand (fun _ => true) (fresh [.record b!"FILECONT 3\na" [], .record b!"bcde" []])
      (some none) = .ub .oobWrite := by rfl

/-- **C09 is false**: a one-byte reply header without newline is searched past its end. -/
theorem c09_no_newline_negated :
    readCommand (fun _ => true) (fresh [.record b!"FILECONT 3x" []]) (some none) = .ub .oobRead := by
  rfl

/-- **C09 is false**: a reply with a NUL in the header line is returned as success although the data
pointer is null, with an error set at the same time. -/
theorem c09_success_without_data_negated :
    ∃ e, readCommand (fun _ => true) (fresh [.record b!"FILECONT 0\u0000\n" []]) (some none) =
      .ok (.done ⟨.fileCont, 0, 0, none⟩ (some (some e)), fresh []) := ⟨_, by rfl⟩

/-- **C09, what does hold** (full statement: for every sequence of records and failures the tool gets a
command with the declared data or an error, without memory corruption; false as shown above).  It holds
when the first record of the reply is: a failure or silence; malformed; a command without data; or a
complete data command (as many bytes after its first line as announced, or one more).  Missing: replies
whose data continues in a later record are covered by C08 when the peer conforms, and go wrong otherwise. -/
theorem c09_first_record_partial (evs : List Ev) :
    -- silence
    ((∀ e ∈ evs, Idle e) →
      readCommand (fun _ => true) (fresh evs) (some none) = .ok (.blocked, fresh [])) ∧
    -- failure
    (∀ pre code q rest, evs = pre ++ .fail code q :: rest → (∀ e ∈ pre, Idle e) →
      ∃ err, readCommand (fun _ => true) (fresh evs) (some none) =
        .ok (.fail (some (some err)), fresh rest)) ∧
    -- a record
    (∀ b rest, Delivers evs [b] rest →
      -- too long
      (16400 < b.length → ∃ err, readCommand (fun _ => true) (fresh evs) (some none) =
        .ok (.fail (some (some err)), fresh rest)) ∧
      -- malformed
      (∀ g, Rejected b.dropLast g → ∃ err, readCommand (fun _ => true) (fresh evs) (some none) =
        .ok (.fail (some (some err)), fresh rest)) ∧
      -- no data announced
      (∀ c n, b.length ≤ 16400 → Accepts b.dropLast c n 0 → (c.form = .simple ∨ c.form = .number) →
        readCommand (fun _ => true) (fresh evs) (some none) =
          .ok (.done ⟨c, n, 0, none⟩ (some none), fresh rest)) ∧
      -- complete data
      (∀ c n len line part, b.length ≤ 16400 → Accepts b.dropLast c n len →
        (c.form = .length ∨ c.form = .numberAndLength) → b = line ++ b!"\n" ++ part →
        (∀ x ∈ line, x ≠ 0 ∧ x ≠ 10) → len ≤ part.length → part.length ≤ len + 1 →
        readCommand (fun _ => true) (fresh evs) (some none) =
          .ok (.done ⟨c, n, len, some ⟨(part.take len).map some ++ [some 0]⟩⟩ (some none),
            fresh rest))) := by
  refine ⟨fun hq => ?_, ?_, fun b rest hd => ⟨?_, ?_, ?_, ?_⟩⟩
  · unfold readCommand fresh
    simp [sslReadMessage_blocked _ _ hq]
  · rintro pre code q rest rfl hq
    unfold readCommand fresh
    simp [sslReadMessage_fail _ _ _ hq, errorSetLiteral, errorNewLiteral]
  · intro hlen
    obtain ⟨freed, hr⟩ := sslReadMessage_delivers_one hd
    unfold readCommand fresh
    simp [hr, sslRecordSize, hlen, errorSetLiteral, errorNewLiteral]
  · intro g hg
    obtain ⟨freed, hr⟩ := sslReadMessage_delivers_one hd
    obtain ⟨m, hp, _⟩ := parse_of_rejected hg (cap := errorSize) (by decide) []
    have hv : g ≠ .valid := by cases hg <;> decide
    unfold readCommand fresh
    simp only [if_true, hr, Res.bind_ok, readCells_map_some', hp, hv, ne_eq, not_false_eq_true,
      errorSetLiteral, errorNewLiteral]
    split
    · exact ⟨_, rfl⟩
    · exact ⟨_, rfl⟩
  · intro c n hlen ha hf
    exact readCommand_plain hd hlen ha (by rcases hf with hf | hf <;> simp [hf]) _
  · rintro c n len line part hlen ha hf rfl hl h1 h2
    exact readCommand_complete hd hlen ha hf hl h1 h2 _

example : Delivers [.record b!"FILECONT 2\nab" []] [b!"FILECONT 2\nab"] [] :=
  .cons (pre := []) (by simp) (by simp) (.nil _)

/-! ## C50 -/

/-- **C50 is false, for every record of more than 1023 bytes**: on the way at least one buffer is
released, and every released buffer still starts with the received bytes. -/
theorem c50_not_scrubbed_negated (pre rest : List Ev) (hq : ∀ e ∈ pre, Idle e) (b : Bytes)
    (hb : 1023 < b.length) (sizes : List Nat) :
    ∃ freed, sslReadMessage (fun _ => true) (fresh (pre ++ .record b sizes :: rest)) =
        .ok (.message (b.map some) b.length freed, fresh rest) ∧
      freed ≠ [] ∧
      ∀ f ∈ freed, ∃ k, 1 ≤ k ∧ k ≤ b.length ∧ f.take k = (b.take k).map some := by
  obtain ⟨freed, h1, h2, h3⟩ := sslReadMessage_record pre rest hq b
    (by intro h; subst h; simp at hb) sizes
  exact ⟨freed, h1, h2 hb, h3⟩

/-- **C50, the part that holds**: a record read in one portion leaves no released copies. -/
theorem c50_short_record_partial (b : Bytes) (hb : b ≠ []) (hl : b.length ≤ 1023) (rest : List Ev) :
    sslReadMessage (fun _ => true) (fresh (.record b [] :: rest)) =
      .ok (.message (b.map some) b.length [], fresh rest) := by
  have hk : chunkSize readMax [] b = b.length := by
    have : 0 < b.length := List.length_pos_iff.2 hb
    unfold chunkSize readMax
    simp [Nat.max_def]; omega
  have hw : (⟨[], [], .record b [] :: rest⟩ : Conn).weight
      = (([] : Bytes).length + ((Ev.record b [] :: rest).map Ev.weight).sum) + 1 := rfl
  unfold sslReadMessage fresh
  rw [hw]
  unfold readLoop
  simp [sslRead, sslReadEvs, hb, hk, Conn.inRecord]

example : ∃ pre : List Ev, (∀ e ∈ pre, Idle e) ∧ 1023 < (List.replicate 2000 (65 : UInt8)).length :=
  ⟨[.wantRead], by simp [Idle], by rw [List.length_replicate]; omega⟩

/-! ## C51 -/

/-- **C51.** A message is written completely exactly once, or the write is reported as failed and
nothing was written; requests to repeat the write change nothing. -/
theorem c51_write_once (msg : Bytes) (n : Nat) (rest : List WEv) (code : Nat) :
    let waits := List.replicate n WEv.wantWrite
    sslWriteMessage msg (waits ++ .written :: rest) = (some ((msg.length : Int), msg), rest) ∧
    sslWriteMessage msg (waits ++ .fail code :: rest) = (some (-1, []), rest) ∧
    sslWriteMessage msg (waits ++ .zero :: rest) = (some (-1, []), rest) ∧
    sslWriteMessage msg waits = (none, []) := by
  induction n with
  | zero => simp [sslWriteMessage]
  | succ n ih => simpa [List.replicate_succ, sslWriteMessage] using ih

example : sslWriteMessage b!"YES\n" [.wantWrite, .wantWrite, .written] = (some (4, b!"YES\n"), []) := by
  decide

end Semla.Props
