import Verif.Model.ReadCommand
import Verif.Lemmas.Wire
import Verif.Spec.Tls

/-! # Lemmas about reading over TLS -/

set_option linter.unusedSimpArgs false

namespace Semla

open Spec

theorem chunkSize_pos {max : Nat} {sizes : List Nat} {cur : Bytes} (hm : 0 < max) (hc : cur ≠ []) :
    0 < chunkSize max sizes cur := by
  have : 0 < cur.length := List.length_pos_iff.2 hc
  unfold chunkSize
  have h1 : 1 ≤ Nat.max 1 (sizes.headD max) := Nat.le_max_left _ _
  omega

theorem chunkSize_le {max : Nat} {sizes : List Nat} {cur : Bytes} :
    chunkSize max sizes cur ≤ max ∧ chunkSize max sizes cur ≤ cur.length := by
  unfold chunkSize; omega

@[simp] theorem inRecord_cur (r : Bytes) (s : List Nat) (e : List Ev) :
    (Conn.inRecord r s e).cur = r := by
  unfold Conn.inRecord; split <;> simp_all

@[simp] theorem inRecord_evs (r : Bytes) (s : List Nat) (e : List Ev) :
    (Conn.inRecord r s e).evs = e := by
  unfold Conn.inRecord; split <;> simp_all

/-- A released buffer that still holds the start of `b`. -/
def Holds (b : Bytes) (f : List (Option UInt8)) : Prop :=
  ∃ k, 1 ≤ k ∧ k ≤ b.length ∧ f.take k = (b.take k).map some

theorem readLoop_in_record (fuel : Nat) (cur : Bytes) (sizes : List Nat) (evs : List Ev)
    (cells : List (Option UInt8)) (prev : Bytes) (ec : Nat) (freed : List (List (Option UInt8)))
    (hf : cur.length ≤ fuel) (hcur : cur ≠ []) (hprev : prev ≠ [])
    (hcells : cells.take prev.length = prev.map some) :
    ∃ freed', readLoop (fun _ => true) fuel ⟨cur, sizes, evs⟩ (some cells) prev.length ec freed =
      .ok (.message ((prev ++ cur).map some) (prev ++ cur).length (freed ++ freed'),
        ⟨[], [], evs⟩) ∧ freed' ≠ [] ∧ ∀ f ∈ freed', Holds (prev ++ cur) f := by
  induction fuel generalizing cur sizes cells prev freed with
  | zero => simp at hf; exact absurd hf hcur
  | succ fuel ih =>
    have hk := chunkSize_pos (max := readMax) (sizes := sizes) (by decide) hcur
    have hk2 := (chunkSize_le (max := readMax) (sizes := sizes) (cur := cur)).2
    unfold readLoop
    simp only [sslRead, hcur, if_false, inRecord_cur]
    generalize chunkSize readMax sizes cur = k at hk hk2
    have hcl : prev.length ≤ cells.length := by
      have := congrArg List.length hcells
      simp at this; omega
    have hold : Holds (prev ++ cur) cells := by
      refine ⟨prev.length, List.length_pos_iff.2 hprev, by simp, ?_⟩
      rw [hcells]; simp
    have hlen : (cur.take k).length = k := by simp; omega
    simp only [if_true, List.length_replicate, hlen, List.length_drop]
    rw [if_neg (by omega), if_neg (by omega)]
    have hfl : (cells.take prev.length ++ (List.replicate (prev.length + k + (cur.length - k))
        (none : Option UInt8)).drop prev.length).length = prev.length + k + (cur.length - k) := by
      simp; omega
    have hF : (cells.take prev.length ++ (List.replicate (prev.length + k + (cur.length - k))
        (none : Option UInt8)).drop prev.length).take prev.length = prev.map some := by
      rw [List.take_append_of_le_length (by simp; omega), hcells, List.take_of_length_le (by simp)]
    generalize (cells.take prev.length ++ (List.replicate (prev.length + k + (cur.length - k))
        (none : Option UInt8)).drop prev.length) = F at hfl hF
    simp only [hfl, hF]
    rw [if_pos (by omega)]
    by_cases hd : cur.drop k = []
    · rw [if_pos hd]
      have hkl : k = cur.length := by
        have := List.drop_eq_nil_iff.1 hd; omega
      have hFd : F.drop (prev.length + k) = [] := by rw [List.drop_eq_nil_iff]; omega
      refine ⟨[cells], ?_, by simp, by simpa using hold⟩
      rw [hFd]
      subst hkl
      simp [Conn.inRecord, hd]
    · rw [if_neg hd]
      have hconn : Conn.inRecord (cur.drop k) sizes.tail evs = ⟨cur.drop k, sizes.tail, evs⟩ := by
        simp [Conn.inRecord, hd]
      rw [hconn]
      have hpl : prev.length + k = (prev ++ cur.take k).length := by simp; omega
      rw [hpl]
      obtain ⟨freed', h1, h2, h3⟩ := ih (cur.drop k) sizes.tail
        (prev.map some ++ (cur.take k).map some ++ F.drop (prev ++ cur.take k).length)
        (prev ++ cur.take k) (freed ++ [cells])
        (by simp; omega) hd (by simp [hprev])
        (by
          rw [List.take_append_of_le_length (by simp), List.take_of_length_le (by simp)]
          simp)
      refine ⟨cells :: freed', ?_, by simp, ?_⟩
      · rw [h1]; simp
      · intro f hf
        rcases List.mem_cons.1 hf with rfl | hf
        · exact hold
        · simpa using h3 f hf

theorem readLoop_quiet (m : Nat → Bool) (pre rest : List Ev) (hq : ∀ e ∈ pre, Idle e)
    (ec : Nat) (freed : List (List (Option UInt8))) (fuel : Nat) (hf : pre.length ≤ fuel) :
    ∃ fuel' ec', fuel ≤ fuel' + pre.length ∧ fuel' ≤ fuel ∧
      readLoop m fuel ⟨[], [], pre ++ rest⟩ none 0 ec freed =
        readLoop m fuel' ⟨[], [], rest⟩ none 0 ec' freed := by
  induction pre generalizing fuel ec with
  | nil => exact ⟨fuel, ec, by simp, by omega, rfl⟩
  | cons e pre ih =>
    have hq' : ∀ e ∈ pre, Idle e := fun x hx => hq x (by simp [hx])
    have he := hq e (by simp)
    obtain ⟨fuel, rfl⟩ : ∃ f, fuel = f + 1 := ⟨fuel - 1, by simp at hf; omega⟩
    simp at hf
    cases e with
    | fail c q => exact absurd he (by simp [Idle])
    | wantRead =>
      obtain ⟨f', e', h1, h2, h3⟩ := ih hq' 2 fuel (by omega)
      refine ⟨f', e', by simp; omega, by omega, ?_⟩
      rw [← h3]
      conv_lhs => unfold readLoop
      simp [sslRead, sslReadEvs]
    | wantWrite =>
      obtain ⟨f', e', h1, h2, h3⟩ := ih hq' 3 fuel (by omega)
      refine ⟨f', e', by simp; omega, by omega, ?_⟩
      rw [← h3]
      conv_lhs => unfold readLoop
      simp [sslRead, sslReadEvs]
    | record b s =>
      simp only [Idle] at he
      subst he
      obtain ⟨f', e', h1, h2, h3⟩ := ih hq' ec (fuel + 1) (by omega)
      refine ⟨f', e', by simp; omega, by omega, ?_⟩
      rw [← h3]
      conv_lhs => unfold readLoop
      conv_rhs => unfold readLoop
      simp [sslRead, sslReadEvs]

theorem weight_def (cur : Bytes) (s : List Nat) (evs : List Ev) :
    (⟨cur, s, evs⟩ : Conn).weight = cur.length + (evs.map Ev.weight).sum + 1 := rfl

theorem weight_quiet {pre : List Ev} (hq : ∀ e ∈ pre, Idle e) :
    (pre.map Ev.weight).sum = pre.length := by
  induction pre with
  | nil => rfl
  | cons e pre ih =>
    have := ih fun x hx => hq x (by simp [hx])
    have he := hq e (by simp)
    cases e <;> simp_all [Ev.weight, Idle] <;> omega

/-- One successful read: the whole record. -/
theorem sslReadMessage_record (pre rest : List Ev) (hq : ∀ e ∈ pre, Idle e) (b : Bytes)
    (hb : b ≠ []) (sizes : List Nat) :
    ∃ freed, sslReadMessage (fun _ => true) ⟨[], [], pre ++ .record b sizes :: rest⟩ =
      .ok (.message (b.map some) b.length freed, ⟨[], [], rest⟩) ∧
      (readMax < b.length → freed ≠ []) ∧ ∀ f ∈ freed, Holds b f := by
  unfold sslReadMessage
  rw [weight_def]
  obtain ⟨f', e', h1, h2, h3⟩ := readLoop_quiet (fun _ => true) pre (.record b sizes :: rest) hq 0 []
    (([] : Bytes).length + ((pre ++ .record b sizes :: rest).map Ev.weight).sum + 1)
    (by simp [weight_quiet hq]; omega)
  rw [h3]
  simp [weight_quiet hq, Ev.weight] at h1
  obtain ⟨f, rfl⟩ : ∃ f, f' = f + 1 := ⟨f' - 1, by omega⟩
  have hk := chunkSize_pos (max := readMax) (sizes := sizes) (by decide) hb
  have hk1 := (chunkSize_le (max := readMax) (sizes := sizes) (cur := b)).1
  have hk2 := (chunkSize_le (max := readMax) (sizes := sizes) (cur := b)).2
  unfold readLoop
  simp only [sslRead, sslReadEvs, if_true, hb, if_false, inRecord_cur]
  generalize chunkSize readMax sizes b = k at hk hk1 hk2
  have hlen : (b.take k).length = k := by simp; omega
  simp only [hlen, List.length_replicate, List.length_drop, Nat.zero_add, List.take_zero,
    List.nil_append]
  rw [if_pos (by omega)]
  by_cases hd : b.drop k = []
  · rw [if_pos hd]
    have hkl : k = b.length := by have := List.drop_eq_nil_iff.1 hd; omega
    subst hkl
    refine ⟨[], ?_, ?_, by simp⟩
    · simp [Conn.inRecord, hd]
    · intro h; omega
  · rw [if_neg hd]
    have hlt : k < b.length := by
      by_contra h
      exact hd (List.drop_eq_nil_iff.2 (by omega))
    have hconn : Conn.inRecord (b.drop k) sizes.tail rest = ⟨b.drop k, sizes.tail, rest⟩ := by
      simp [Conn.inRecord, hd]
    rw [hconn]
    obtain ⟨freed, g1, g2, g3⟩ := readLoop_in_record f (b.drop k) sizes.tail rest
      ((b.take k).map some ++ (List.replicate (k + (b.length - k)) none).drop k) (b.take k) e' []
      (by simp; omega) hd (by simp [hb]; omega)
      (by rw [hlen, List.take_append_of_le_length (by simp; omega), List.take_of_length_le (by simp)])
    rw [hlen] at g1
    refine ⟨freed, ?_, fun _ => g2, by simpa using g3⟩
    rw [g1]
    simp

theorem sslReadMessage_fail (m : Nat → Bool) (pre rest : List Ev) (hq : ∀ e ∈ pre, Idle e)
    (code : Nat) (q : List Bytes) :
    sslReadMessage m ⟨[], [], pre ++ .fail code q :: rest⟩ =
      .ok (.failed code q, ⟨[], [], rest⟩) := by
  unfold sslReadMessage
  rw [weight_def]
  obtain ⟨f', e', h1, h2, h3⟩ := readLoop_quiet m pre (.fail code q :: rest) hq 0 []
    (([] : Bytes).length + ((pre ++ .fail code q :: rest).map Ev.weight).sum + 1)
    (by simp [weight_quiet hq]; omega)
  rw [h3]
  simp [weight_quiet hq, Ev.weight] at h1
  obtain ⟨f, rfl⟩ : ∃ f, f' = f + 1 := ⟨f' - 1, by omega⟩
  simp [readLoop, sslRead, sslReadEvs]

theorem sslReadMessage_blocked (m : Nat → Bool) (pre : List Ev) (hq : ∀ e ∈ pre, Idle e) :
    sslReadMessage m ⟨[], [], pre⟩ = .ok (.blocked, ⟨[], [], []⟩) := by
  unfold sslReadMessage
  rw [weight_def]
  obtain ⟨f', e', h1, h2, h3⟩ := readLoop_quiet m pre [] hq 0 []
    (([] : Bytes).length + (pre.map Ev.weight).sum + 1)
    (by simp [weight_quiet hq])
  simp only [List.append_nil] at h3
  rw [h3]
  cases f' with
  | zero => rfl
  | succ f => simp [readLoop, sslRead, sslReadEvs]

/-- Every event list is quiet events followed by nothing, a failure, or a non-empty record. -/
theorem evs_cases (evs : List Ev) :
    (∀ e ∈ evs, Idle e) ∨
    (∃ pre code q rest, evs = pre ++ .fail code q :: rest ∧ ∀ e ∈ pre, Idle e) ∨
    (∃ pre b sizes rest, evs = pre ++ .record b sizes :: rest ∧ b ≠ [] ∧ ∀ e ∈ pre, Idle e) := by
  induction evs with
  | nil => left; simp
  | cons e evs ih =>
    by_cases he : Idle e
    · have hc : ∀ pre : List Ev, (∀ e ∈ pre, Idle e) → ∀ x ∈ e :: pre, Idle x := by
        intro pre hp x hx
        rcases List.mem_cons.1 hx with rfl | hx
        · exact he
        · exact hp x hx
      rcases ih with h | ⟨pre, c, q, rest, rfl, h⟩ | ⟨pre, b, s, rest, rfl, hb, h⟩
      · exact Or.inl (hc _ h)
      · exact Or.inr (Or.inl ⟨e :: pre, c, q, rest, rfl, hc _ h⟩)
      · exact Or.inr (Or.inr ⟨e :: pre, b, s, rest, rfl, hb, hc _ h⟩)
    · cases e with
      | record b s => exact Or.inr (Or.inr ⟨[], b, s, evs, rfl, he, by simp⟩)
      | wantRead => exact absurd trivial he
      | wantWrite => exact absurd trivial he
      | fail c q => exact Or.inr (Or.inl ⟨[], c, q, evs, rfl, by simp⟩)

/-- No memory misuse in the read loop, whatever the allocator and the peer do. -/
theorem readLoop_defined (m : Nat → Bool) (fuel : Nat) (c : Conn)
    (buffer : Option (List (Option UInt8))) (total ec : Nat) (freed : List (List (Option UInt8)))
    (hb : ∀ old, buffer = some old → total ≤ old.length) :
    ∃ r, readLoop m fuel c buffer total ec freed = .ok r := by
  induction fuel generalizing c buffer total ec freed with
  | zero => exact ⟨_, rfl⟩
  | succ fuel ih =>
    unfold readLoop
    rcases h : sslRead readMax c with ⟨r, c'⟩
    cases r with
    | block => exact ⟨_, rfl⟩
    | again code => exact ih _ _ _ _ _ hb
    | err code q => exact ⟨_, rfl⟩
    | data b =>
      simp only
      by_cases hm : m (total + b.length + c'.cur.length) = true
      · rw [if_pos hm]
        cases buffer with
        | none =>
          simp only [List.length_replicate]
          rw [if_pos (by omega)]
          split
          · exact ⟨_, rfl⟩
          · apply ih
            intro old ho
            simp at ho
            subst ho
            simp; omega
        | some old =>
          have := hb old rfl
          simp only [List.length_replicate]
          rw [if_neg (by omega), if_neg (by omega), if_pos (by simp; omega)]
          split
          · exact ⟨_, rfl⟩
          · apply ih
            intro old' ho
            simp only [Option.some.injEq] at ho
            subst ho
            simp; omega
      · rw [if_neg hm]; exact ⟨_, rfl⟩

theorem readCells_map_some' (b : Bytes) : readCells (b.map some) b.length = .ok b := by
  simpa using readCells_map_some b []

/-- The continuation loop with conforming records. -/
theorem moreLoop_delivers {evs rest : List Ev} {bs : List Bytes} (hd : Delivers evs bs rest)
    (fuel : Nat) (cmd : Command) (cells : List (Option UInt8)) (got : Bytes)
    (hfuel : cmd.length - got.length ≤ fuel)
    (hdata : cmd.data = some ⟨cells⟩) (hlen : (got ++ bs.flatten).length = cmd.length)
    (hcells : cells.take got.length = got.map some) (hcl : cells.length = cmd.length + 1)
    (hlast : cells.drop cmd.length = [some 0]) :
    moreLoop (fun _ => true) fuel ⟨[], [], evs⟩ cmd got.length =
      .ok (some { cmd with data := some ⟨(got ++ bs.flatten).map some ++ [some 0]⟩ },
        ⟨[], [], rest⟩) := by
  induction hd generalizing fuel cmd cells got with
  | nil evs =>
    have hl : got.length = cmd.length := by simpa using hlen
    have hc : cells = got.map some ++ [some 0] := by
      rw [← List.take_append_drop cmd.length cells, hlast, ← hl, hcells]
    have hcmd : cmd = { cmd with data := some ⟨(got ++ ([] : List Bytes).flatten).map some ++ [some 0]⟩ } := by
      cases cmd; simp at hdata; subst hdata; simp [hc]
    cases fuel with
    | zero => simp only [moreLoop]; rw [← hcmd]
    | succ fuel => simp only [moreLoop, hl, Nat.lt_irrefl, if_false]; rw [← hcmd]
  | @cons pre evs b sizes bs rest hq hb hd ih =>
    have hbl : 0 < b.length := List.length_pos_iff.2 hb
    have hlt : got.length + b.length ≤ cmd.length := by
      simp at hlen; omega
    obtain ⟨fuel, rfl⟩ : ∃ f, fuel = f + 1 := ⟨fuel - 1, by omega⟩
    unfold moreLoop
    rw [if_pos (by omega)]
    obtain ⟨freed, h1, _⟩ := sslReadMessage_record pre evs hq b hb sizes
    rw [h1]
    simp only [Res.bind_ok]
    rw [readCells_map_some']
    simp only [Res.bind_ok, hdata]
    unfold writeCells
    rw [if_pos (by omega)]
    simp only [Res.bind_ok]
    have hgl : got.length + b.length = (got ++ b).length := by simp
    rw [hgl]
    rw [ih fuel _ _ (got ++ b) (by simp; omega) rfl (by simpa using hlen)
      (by
        rw [hcells, List.take_append_of_le_length (by simp), List.take_of_length_le (by simp)]
        simp)
      (by simp; omega)
      (by
        have hA : (cells.take got.length ++ b.map some).length = (got ++ b).length := by
          simp; omega
        rw [List.drop_append, List.drop_eq_nil_iff.2 (by rw [hA]; simp; omega), hA, List.drop_drop,
          List.nil_append, ← hlast]
        congr 1
        simp; omega)]
    simp

theorem sslReadMessage_delivers {evs rest : List Ev} {b : Bytes} {bs : List Bytes}
    (hd : Delivers evs (b :: bs) rest) :
    ∃ freed evs', sslReadMessage (fun _ => true) ⟨[], [], evs⟩ =
      .ok (.message (b.map some) b.length freed, ⟨[], [], evs'⟩) ∧ Delivers evs' bs rest := by
  cases hd with
  | @cons pre evs' _ sizes _ _ hq hb hd =>
    obtain ⟨freed, h, _⟩ := sslReadMessage_record pre evs' hq b hb sizes
    exact ⟨freed, evs', h, hd⟩

theorem sslReadMessage_delivers_one {evs rest : List Ev} {b : Bytes}
    (hd : Delivers evs [b] rest) :
    ∃ freed, sslReadMessage (fun _ => true) ⟨[], [], evs⟩ =
      .ok (.message (b.map some) b.length freed, ⟨[], [], rest⟩) := by
  obtain ⟨freed, evs', h, hd'⟩ := sslReadMessage_delivers hd
  cases hd'
  exact ⟨freed, h⟩

theorem readCommand_plain {evs rest : List Ev} {b : Bytes} {c : CmdId} {n : Int} {len : Nat}
    (hd : Delivers evs [b] rest) (hsz : b.length ≤ 16400) (ha : Accepts b.dropLast c n len)
    (hf : ¬ (c.form = .length ∨ c.form = .numberAndLength)) (loc : ErrLoc) :
    readCommand (fun _ => true) ⟨[], [], evs⟩ loc = .ok (.done ⟨c, n, len, none⟩ loc, ⟨[], [], rest⟩) := by
  obtain ⟨freed, hr⟩ := sslReadMessage_delivers_one hd
  unfold readCommand
  have : ¬ (b.length > sslRecordSize) := by unfold sslRecordSize; omega
  simp only [if_true, hr, Res.bind_ok, readCells_map_some', this, if_false, parse_of_accepts ha,
    ne_eq, not_true_eq_false, hf]

theorem readCommand_first {evs rest : List Ev} {L part : Bytes} {c : CmdId} {n : Int} {len : Nat}
    {bs : List Bytes} (hl : IsLine L)
    (hf : c.form = .length ∨ c.form = .numberAndLength)
    (ha : Accepts (L ++ 10 :: part).dropLast c n len)
    (hd : Delivers evs ((L ++ 10 :: part) :: bs) rest) (hsz : (L ++ 10 :: part).length ≤ 16400)
    (hp : part.length ≤ len + 1) (loc : ErrLoc) :
    ∃ evs', Delivers evs' bs rest ∧
    readCommand (fun _ => true) ⟨[], [], evs⟩ loc =
      ((moreLoop (fun _ => true) (len - part.length) ⟨[], [], evs'⟩
          ⟨c, n, len, some (fillBuf len part)⟩ part.length) >>= fun r =>
        match r.1 with
        | none => .ok (.blocked, r.2)
        | some cmd => .ok (.done cmd loc, r.2)) := by
  obtain ⟨freed, evs', hr, hd'⟩ := sslReadMessage_delivers hd
  refine ⟨evs', hd', ?_⟩
  unfold readCommand
  have : ¬ ((L ++ 10 :: part).length > sslRecordSize) := by unfold sslRecordSize; omega
  simp only [if_true, hr, Res.bind_ok, readCells_map_some', this, if_false, parse_of_accepts ha,
    ne_eq, not_true_eq_false, hf]
  have he := extractData_line (part := part) hl ⟨c, n, len, none⟩ (accepts_length_lt ha) (fun _ => true)
  simp only [if_true, hp] at he
  rw [he]
  rfl

theorem readCommand_data {evs rest : List Ev} {L d1 data : Bytes} {c : CmdId} {n : Int}
    {bs : List Bytes} (hl : IsLine L)
    (hf : c.form = .length ∨ c.form = .numberAndLength)
    (ha : Accepts (L ++ 10 :: d1).dropLast c n data.length)
    (hdat : d1 ++ bs.flatten = data)
    (hd : Delivers evs ((L ++ 10 :: d1) :: bs) rest) (hsz : (L ++ 10 :: d1).length ≤ 16400)
    (loc : ErrLoc) :
    readCommand (fun _ => true) ⟨[], [], evs⟩ loc =
      .ok (.done ⟨c, n, data.length, some ⟨data.map some ++ [some 0]⟩⟩ loc, ⟨[], [], rest⟩) := by
  have hle : d1.length ≤ data.length := by rw [← hdat]; simp
  obtain ⟨evs', hd', heq⟩ := readCommand_first hl hf ha hd hsz (by omega) loc
  rw [heq]
  have := moreLoop_delivers hd' (data.length - d1.length) ⟨c, n, data.length, some (fillBuf data.length d1)⟩
    (fillBuf data.length d1).cells d1 (by simp) rfl (by rw [hdat])
    (by
      unfold fillBuf
      simp only
      rw [List.take_append_of_le_length (by simp; omega), List.take_take,
        Nat.min_eq_left hle, List.take_append_of_le_length (by simp),
        List.take_of_length_le (by simp)])
    (by unfold fillBuf; simp; omega)
    (by
      have hn : ((d1.map some ++ List.replicate (data.length + 1 - d1.length) none).take
          data.length).length = data.length := by simp; omega
      unfold fillBuf
      rw [List.drop_append, List.drop_eq_nil_iff.2 (by simp only [hn]; exact Nat.le_refl _), hn]
      simp)
  rw [this, hdat]
  rfl

theorem readCommand_complete {evs rest : List Ev} {L part : Bytes} {c : CmdId} {n : Int} {len : Nat}
    (hd : Delivers evs [L ++ b!"\n" ++ part] rest) (hsz : (L ++ b!"\n" ++ part).length ≤ 16400)
    (ha : Accepts (L ++ b!"\n" ++ part).dropLast c n len)
    (hf : c.form = .length ∨ c.form = .numberAndLength)
    (hl : IsLine L) (h1 : len ≤ part.length) (h2 : part.length ≤ len + 1) (loc : ErrLoc) :
    readCommand (fun _ => true) ⟨[], [], evs⟩ loc =
      .ok (.done ⟨c, n, len, some ⟨(part.take len).map some ++ [some 0]⟩⟩ loc, ⟨[], [], rest⟩) := by
  have e : L ++ b!"\n" ++ part = L ++ 10 :: part := by simp
  rw [e] at hd hsz ha
  obtain ⟨evs', hd', heq⟩ := readCommand_first hl hf ha hd hsz h2 loc
  rw [heq, Nat.sub_eq_zero_of_le h1]
  cases hd'
  simp only [moreLoop, Res.bind_ok]
  unfold fillBuf
  rw [List.take_append_of_le_length (by simpa using h1), List.map_take]

end Semla
