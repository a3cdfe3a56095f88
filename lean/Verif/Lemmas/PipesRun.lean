import Verif.Lemmas.Pipes
import Verif.Props.LveAnswers
import Verif.Props.LveSafe

/-!
# A client and the vendor executable take turns
-/

set_option linter.unusedSimpArgs false

namespace Semla

open Semla.Spec Semla.Props

/-! ## Records that arrive -/

theorem delivers_records {recs : List Bytes} (h : ∀ x ∈ recs, x ≠ []) (more : List Bytes) :
    Delivers (recordEvs (recs ++ more)) recs (recordEvs more) := by
  induction recs with
  | nil => exact .nil _
  | cons x recs ih =>
    have := Delivers.cons (pre := []) (sizes := []) (by simp) (h x (by simp)) (ih fun y hy => h y (by simp [hy]))
    simpa [recordEvs] using this

theorem delivers_records_unique {recs bs : List Bytes} (h : ∀ x ∈ recs, x ≠ [])
    (hd : Delivers (recordEvs recs) bs []) : bs = recs := by
  induction recs generalizing bs with
  | nil =>
    generalize he : recordEvs [] = evs at hd
    cases hd with
    | nil => rfl
    | cons _ _ _ => simp [recordEvs] at he
  | cons x recs ih =>
    generalize he : recordEvs (x :: recs) = evs at hd
    cases hd with
    | nil => simp [recordEvs] at he
    | @cons pre evs b sizes bs _ hq hb hd =>
      cases pre with
      | nil =>
        simp only [recordEvs, List.map_cons, List.nil_append, List.cons.injEq, Ev.record.injEq] at he
        obtain ⟨⟨rfl, rfl⟩, rfl⟩ := he
        rw [ih (fun y hy => h y (by simp [hy])) hd]
      | cons e pre =>
        simp only [recordEvs, List.map_cons, List.cons_append, List.cons.injEq] at he
        obtain ⟨rfl, -⟩ := he
        exact absurd (hq (.record x []) (by simp)) (h x (by simp))

theorem arrives_cut {r : Bytes} (h0 : r ≠ []) (more : List Bytes) :
    Arrives (recordEvs (cutRecords r ++ more)) r (recordEvs more) := by
  cases hc : cutRecords r with
  | nil => exact absurd hc (cutRecords_ne_nil h0)
  | cons x xs =>
    have hx := cutRecords_first hc
    refine ⟨x, xs, by rw [← hc, cutRecords_flatten], ?_, ?_, ?_⟩
    · rw [hx, List.length_take]; unfold maxPlain; omega
    · rw [hx, List.length_take]; unfold maxPlain; omega
    · exact delivers_records (fun y hy => (cutRecords_mem (hc ▸ hy)).1) more

/-- The continuation loop when the records run out. -/
theorem moreLoop_blocks {evs : List Ev} {bs : List Bytes} (hd : Delivers evs bs [])
    (fuel : Nat) (cmd : Command) (cells : List (Option UInt8)) (got : Nat)
    (hfuel : cmd.length - got ≤ fuel)
    (hdata : cmd.data = some ⟨cells⟩) (hlen : got + bs.flatten.length < cmd.length)
    (hcl : cells.length = cmd.length + 1) :
    moreLoop (fun _ => true) fuel ⟨[], [], evs⟩ cmd got = .ok (none, ⟨[], [], []⟩) := by
  generalize hr : ([] : List Ev) = rest at hd
  induction hd generalizing fuel cmd cells got with
  | nil evs =>
    subst hr
    simp only [List.flatten_nil, List.length_nil] at hlen
    obtain ⟨fuel, rfl⟩ : ∃ f, fuel = f + 1 := ⟨fuel - 1, by omega⟩
    unfold moreLoop
    rw [if_pos (by omega), sslReadMessage_blocked _ _ (by simp)]
    rfl
  | @cons pre evs b sizes bs rest hq hb hd ih =>
    have hbl : 0 < b.length := List.length_pos_iff.2 hb
    have hlt : got + b.length ≤ cmd.length := by simp at hlen; omega
    obtain ⟨fuel, rfl⟩ : ∃ f, fuel = f + 1 := ⟨fuel - 1, by omega⟩
    unfold moreLoop
    rw [if_pos (by omega)]
    obtain ⟨freed, h1, _⟩ := sslReadMessage_record pre evs hq b hb sizes
    rw [h1]
    simp only [Res.bind_ok]
    rw [readCells_map_some']
    simp only [Res.bind_ok, hdata]
    unfold writeCells
    rw [if_pos (by omega)]
    simp only [Res.bind_ok]
    exact ih fuel _ _ (got + b.length) (by simp only; omega) rfl (by simp at hlen ⊢; omega) (by simp; omega) hr

/-- A reply of which the last record is missing. -/
theorem readCommand_waits {recs : List Bytes} (hne : ∀ x ∈ recs, x ≠ []) {c : CmdId} {n : Int} {d : Bytes}
    (h : Replies (recordEvs recs) [] (.command c n d)) {pre suf : List Bytes} (he : pre ++ suf = recs) (hs : suf ≠ [])
    (loc : ErrLoc) : ∃ c', readCommand (fun _ => true) (fresh (recordEvs pre)) loc = .ok (.blocked, c') := by
  have empty : ∃ c', readCommand (fun _ => true) (fresh (recordEvs [])) loc = .ok (.blocked, c') := by
    refine ⟨⟨[], [], []⟩, ?_⟩
    unfold readCommand
    have := sslReadMessage_blocked (fun _ => true) [] (by simp)
    simp [fresh, recordEvs, this]
  have single : ∀ b, Delivers (recordEvs recs) [b] [] → ∃ c', readCommand (fun _ => true) (fresh (recordEvs pre)) loc = .ok (.blocked, c') := by
    intro b hd
    have h1 := delivers_records_unique hne hd
    cases pre with
    | nil => exact empty
    | cons y pre =>
      rw [← he] at h1
      have h2 := congrArg List.length h1
      have := List.length_pos_iff.2 hs
      simp only [List.length_cons, List.length_append, List.length_nil] at h2; omega
  cases h with
  | plain hd => exact single _ hd
  | extra hd => exact single _ hd
  | @pieces line part more _ _ _ hd hl hline ha hf hdat =>
    have h1 := delivers_records_unique hne hd
    cases pre with
    | nil => exact empty
    | cons y pre =>
      rw [← he, List.cons_append] at h1
      injection h1 with h1 h2
      have e : line ++ b!"\n" ++ part = line ++ 10 :: part := by simp
      rw [e] at hl ha h1
      subst h1
      have hd' := delivers_records (recs := (line ++ 10 :: part) :: pre) (fun x hx => hne x (by rw [← he]; exact List.mem_append_left _ hx)) []
      rw [List.append_nil] at hd'
      have hlen : part.length + pre.flatten.length < d.length := by
        have : suf.flatten ≠ [] := by
          obtain ⟨z, zs, rfl⟩ := List.exists_cons_of_ne_nil hs
          have := hne z (by rw [← he]; simp)
          simp [this]
        have := List.length_pos_iff.2 this
        rw [← hdat, h2, List.flatten_append, List.length_append, List.length_append]; omega
      obtain ⟨evs', h3, h4⟩ := readCommand_first (rest := recordEvs []) hline hf ha hd' hl (by omega) loc
      refine ⟨⟨[], [], []⟩, ?_⟩
      rw [show fresh (recordEvs ((line ++ 10 :: part) :: pre)) = ⟨[], [], recordEvs ((line ++ 10 :: part) :: pre)⟩ from rfl, h4,
        moreLoop_blocks h3 _ _ (fillBuf d.length part).cells _ (by simp) rfl (by simpa using hlen) (by unfold fillBuf; simp; omega)]
      rfl

/-! ## Replies of the vendor executable -/

theorem accepts_sent {A : CmdId → Bytes → Prop} {m : Bytes} (h : Sent A m) :
    ∃ c n len, Accepts m c n len ∧ (c = .version ∨ c ∈ CmdId.lib :: licenseStage) := by
  rcases h with ⟨n, h⟩ | ⟨k, s, hk, ⟨line, part, n, -, -, h, -⟩, -⟩
  · exact ⟨_, _, _, h, Or.inl rfl⟩
  · exact ⟨_, _, _, h, Or.inr hk⟩

theorem version_reply {conf : LveConf} {w : World} {st st' : LveSt} {m : Bytes} {out : List Bytes} (hw : Ample w)
    (h : lveStep conf w st m = .ok (st', out)) {n : Int} {len : Nat} (ha : Accepts m .version n len) :
    ∃ r, out = [r] ∧ ((∃ code text, code < 2 ^ 31 ∧ ErrorReply code text r) ∨ r = b!"VERSION 1\n") := by
  cases step_effect h with
  | refused _ ho =>
    obtain ⟨r, h1, h2⟩ := (reply_error (code := 1) ho).resolve_right fun h => h.2 hw
    exact ⟨r, h1, Or.inl ⟨_, _, by decide, h2⟩⟩
  | low _ _ _ ho =>
    obtain ⟨r, h1, h2⟩ := (reply_error (code := 2) ho).resolve_right fun h => h.2 hw
    exact ⟨r, h1, Or.inl ⟨_, _, by decide, h2⟩⟩
  | version => exact ⟨_, rfl, Or.inr (by decide)⟩
  | tools _ hb => exact absurd (accepts_unique ha hb).1 (by decide)
  | lib _ hb => exact absurd (accepts_unique ha hb).1 (by decide)
  | feature _ hb => exact absurd (accepts_unique ha hb).1 (by decide)
  | returnFeature _ hb => exact absurd (accepts_unique ha hb).1 (by decide)
  | license _ hc hb =>
    have := (accepts_unique ha hb).1
    subst this
    simp at hc
  | file _ hb => exact absurd (accepts_unique ha hb).1 (by decide)

/-- A message of a proper call gets one reply, which the tool understands. -/
theorem reply_understood {conf : LveConf} {k : Option Bytes} {turns : List (World × Bytes)} {st st' : LveSt}
    {replies : List (List Bytes)} (hs : Session conf k turns st replies) {w : World} (hw : Ample w)
    {A : CmdId → Bytes → Prop} (hA : ∀ s, A .lib s → s ≠ []) {m : Bytes} (hm : Sent A m) {out : List Bytes}
    (h : lveStep conf w st m = .ok (st', out)) (hlen : ∀ r ∈ out, (Payload r).length < 2 ^ 63) :
    ∃ r, out = [r] ∧ r ≠ [] ∧ ∃ c n d, ∀ evs rest, Arrives evs r rest → Replies evs rest (.command c n d) := by
  obtain ⟨h1, h2⟩ := c13_one_reply_partial hs hw h
  have hne : out ≠ [] := by
    intro h0
    obtain ⟨n, len, -, ha, hb⟩ := h2.1 h0
    rcases hm with ⟨n', h'⟩ | ⟨k, s, hk, ⟨line, part, n', hline, rfl, h', -, -⟩, hs⟩
    · exact absurd (accepts_unique ha h').1 (by decide)
    · obtain ⟨rfl, -, rfl⟩ := accepts_unique ha h'
      rcases hb with hb | ⟨l2, r, he, hl2⟩
      · exact hA s hs (List.length_eq_zero_iff.1 hb)
      · have hp := congrArg (List.takeWhile fun b => b != 0 && b != 10) he
        have e1 : (line ++ b!"\n" ++ part).takeWhile (fun b => b != 0 && b != 10) = line := by
          rw [List.append_assoc, List.takeWhile_append_of_pos (by simpa using hline)]
          simp
        have e2 : (l2 ++ 0 :: r).takeWhile (fun b => b != 0 && b != 10) = l2 := by
          rw [List.takeWhile_append_of_pos (by simpa using hl2)]
          simp
        rw [e1, e2] at hp
        subst hp
        simp at he
  obtain ⟨r, rfl⟩ : ∃ r, out = [r] := h1.resolve_right hne
  have hl := hlen r (by simp)
  obtain ⟨c, n, len, ha, hc⟩ := accepts_sent hm
  have err : ∀ {code text}, code < 2 ^ 31 → ErrorReply code text r → r ≠ [] ∧ ∃ c n d, ∀ evs rest, Arrives evs r rest →
      Replies evs rest (.command c n d) := by
    intro code text hcode he
    have hlt : text.length < 2 ^ 63 := by rwa [← Props.errorReply_payload he]
    refine ⟨?_, .error, code, text, fun evs rest h => arrives_error hcode he hlt h⟩
    obtain ⟨ns, ds, -, -, rfl⟩ := he
    simp [line3]
  have dat : ∀ {c : CmdId} {d}, c.form = .length → DataReply c.name d r → r ≠ [] ∧ ∃ c n d, ∀ evs rest, Arrives evs r rest →
      Replies evs rest (.command c n d) := by
    intro c d hc he
    have hlt : d.length < 2 ^ 63 := by rwa [← Props.dataReply_payload he]
    refine ⟨?_, c, 0, d, fun evs rest h => arrives_data hc he hlt h⟩
    obtain ⟨ds, -, rfl⟩ := he
    simp [line2]
  have sim : ∀ {c : CmdId}, c.form = .simple → r = sendSimple c → r ≠ [] ∧ ∃ c n d, ∀ evs rest, Arrives evs r rest →
      Replies evs rest (.command c n d) := by
    rintro c hc rfl
    refine ⟨?_, c, 0, [], fun evs rest h => arrives_simple hc h⟩
    rw [sendSimple_eq]; simp
  refine ⟨r, rfl, ?_⟩
  have ans := c68_answers_partial hs h ha (r := r) (by simp)
  rcases ans with ans | ⟨code, text, hea, he⟩ | ⟨rfl, -⟩ | ⟨-, hr⟩
  · cases ans with
    | version hv =>
      obtain ⟨r', h1, h2⟩ := version_reply hw h ha
      injection h1 with h1
      subst h1
      rcases h2 with ⟨code, text, h2, h3⟩ | h2
      · exact err h2 h3
      · rw [h2]
        exact ⟨by simp, .version, 1, [], fun evs rest h => arrives_version h⟩
    | tools => simp at hc; exact absurd hc (by decide)
    | lib => exact sim (c := .yes) rfl (by decide)
    | feature => exact sim (c := .yes) rfl (by decide)
    | returnFeature => exact sim (c := .yes) rfl (by decide)
    | license => exact sim (c := .yes) rfl (by decide)
    | returnLicense => exact sim (c := .yes) rfl (by decide)
    | notSimple => exact sim (c := .notSimple) rfl (by decide)
    | noFeature h => exact dat (c := .no) rfl h
    | noLicense h => exact dat (c := .no) rfl h
    | file h => exact dat (c := .fileCont) rfl h
  · refine err ?_ he
    cases hea <;> decide
  · simp at hc; exact absurd hc (by decide)
  · exact sim (c := .notSimple) rfl (hr.trans (by decide))

/-! ## The vendor executable as a program -/

theorem turnsOf_snoc (worlds : Nat → World) (msgs : List Bytes) (m : Bytes) :
    turnsOf worlds (msgs ++ [m]) = turnsOf worlds msgs ++ [(worlds msgs.length, m)] := by
  simp [turnsOf, List.zipIdx_append]

theorem turnsOf_msgs (worlds : Nat → World) (msgs : List Bytes) : (turnsOf worlds msgs).map (·.2) = msgs := by
  induction msgs using List.reverseRecOn with
  | nil => rfl
  | append_singleton msgs m ih => rw [turnsOf_snoc, List.map_append, ih]; rfl

theorem turnsOf_worlds (worlds : Nat → World) (msgs : List Bytes) :
    (turnsOf worlds msgs).map (fun t => (t.1, false)) = (List.range msgs.length).map fun i => (worlds i, false) := by
  induction msgs using List.reverseRecOn with
  | nil => rfl
  | append_singleton msgs m ih => rw [turnsOf_snoc, List.map_append, ih]; simp [List.range_succ]

theorem turnsOf_ample {worlds : Nat → World} (h : ∀ i, Ample (worlds i)) {msgs : List Bytes} :
    ∀ t ∈ turnsOf worlds msgs, Ample t.1 := by
  intro t ht
  obtain ⟨x, -, rfl⟩ := List.mem_map.1 ht
  exact h _

/-- The loop when the messages run out. -/
theorem receive_waits {conf : LveConf} (turns : List (World × Bytes)) (ht : ∀ t ∈ turns, Ample t.1) (w : World)
    {evs : List Ev} (hd : Delivers evs (turns.map (·.2)) []) (st : LveSt) :
    lveReceive conf st (turns.map (fun t => (t.1, false)) ++ [(w, false)]) (fresh evs) = lveRun conf st turns := by
  induction turns generalizing evs st with
  | nil =>
    generalize hr : ([] : List Ev) = rest at hd
    cases hd
    subst hr
    simp only [List.map_nil, List.nil_append, lveReceive, lveRun, fresh]
    rw [sslReadMessage_blocked _ _ (by simp)]
    rfl
  | cons t ts ih =>
    obtain ⟨w, msg⟩ := t
    obtain ⟨freed, evs', h1, h2⟩ := sslReadMessage_delivers hd
    have hm := ample_malloc (ht (w, msg) (by simp))
    simp only at hm h1
    simp only [List.map_cons, List.cons_append, lveReceive, lveRun]
    rw [show fresh evs = ⟨[], [], evs⟩ from rfl, hm, h1]
    simp only [Res.bind_ok, readCells_map_some', Bool.false_eq_true, if_false]
    have := fun s => ih (fun t h => ht t (by simp [h])) h2 s
    simp only [fresh] at this
    simp only [this]

theorem lveProgram_run {conf : LveConf} {st0 st : LveSt} {worlds : Nat → World} (hw : ∀ i, Ample (worlds i))
    {msgs : List Bytes} (hne : ∀ m ∈ msgs, m ≠ []) {replies : List (List Bytes)}
    (h : lveRun conf st0 (turnsOf worlds msgs) = .ok (st, replies)) :
    lveProgram conf st0 worlds msgs = (replies.flatten, false) := by
  have hd := delivers_records hne []
  rw [List.append_nil] at hd
  have := receive_waits (conf := conf) (turnsOf worlds msgs) (turnsOf_ample hw) (worlds msgs.length) (evs := recordEvs msgs)
    (by rw [turnsOf_msgs]; exact hd) st0
  unfold lveProgram
  rw [List.range_succ, List.map_append, ← turnsOf_worlds]
  simp only [List.map_cons, List.map_nil]
  rw [show (⟨[], [], recordEvs msgs⟩ : Conn) = fresh (recordEvs msgs) from rfl, this, h]

/-! ## The conversation -/

theorem callMessage_sent {A : CmdId → Bytes → Prop} {c : Call} (hp : Proper A c) :
    callMessage c ≠ [] ∧ (callMessage c).length ≤ maxPlain ∧ Sent A (callMessage c) := by
  have arg : ∀ k s, Argument c = some (k, s) → k ∈ CmdId.lib :: licenseStage → k.form = .length →
      line2 k.name (decNat s.length) ++ s ≠ [] ∧ (line2 k.name (decNat s.length) ++ s).length ≤ maxPlain ∧
      Sent A (line2 k.name (decNat s.length) ++ s) := by
    intro k s h hk hf
    obtain ⟨-, -, h1, h2⟩ := proper_arg hp h
    exact ⟨by simp [line2], sent_length h1, Or.inr ⟨k, s, hk, carries_sent hf (by omega), h2⟩⟩
  cases c with
  | version a b =>
    obtain ⟨h1, h2⟩ := hp.1 a b rfl
    have h3 := send_number_aux .version b (by unfold longMin; omega) (by unfold longMax; omega)
    refine ⟨version_ne_nil h1 h2, ?_, Or.inl ⟨b, ?_⟩⟩
    · have := decInt_length b (by unfold longMin; omega) (by unfold longMax; omega)
      simp only [callMessage, h3]
      simp [line2, CmdId.name, maxPlain]; omega
    · exact accepts_number_view (c := .version) rfl (by unfold longMin; omega) (by unfold longMax; omega) (Or.inl rfl)
  | libpath s => exact arg .lib s rfl (by decide) rfl
  | feature s => exact arg .feature s rfl (by decide) rfl
  | returnFeature s => exact arg .returnFeature s rfl (by decide) rfl
  | license s => exact arg .license s rfl (by decide) rfl
  | returnLicense s => exact arg .returnLicense s rfl (by decide) rfl
  | file s => exact arg .file s rfl (by decide) rfl

theorem flatten_singles (l : List Bytes) : (l.map fun r => [r]).flatten = l := by
  induction l with
  | nil => rfl
  | cons x l ih => simp [ih]

/-- A run after some calls. -/
def afterCalls (results : List CallOut) (r : Res (List CallOut × Bool × Tool)) : Res (List CallOut × Bool × Tool) :=
  r >>= fun x => .ok (results ++ x.1, x.2.1, x.2.2)

theorem afterCalls_cons (results : List CallOut) (o : CallOut) (r : Res (List CallOut × Bool × Tool)) :
    afterCalls results (r >>= fun x => .ok (o :: x.1, x.2.1, x.2.2)) = afterCalls (results ++ [o]) r := by
  cases r <;> simp [afterCalls]

theorem replicate_written {n m : Nat} (h : n = m + 1) :
    List.replicate n WEv.written = .written :: List.replicate m .written := by subst h; rfl

theorem client_dialogue {conf : LveConf} {k : Option Bytes} {st0 : LveSt} (hst0 : lveStart conf k = .ok st0)
    {worlds : Nat → World} (hw : ∀ i, Ample (worlds i)) {A : CmdId → Bytes → Prop} (hA : ∀ s, A .lib s → s ≠ [])
    (hsurv : Survives conf k worlds A) {cl0 cl : Client} (hcl : ProperClient A cl) {a msgs replies : List Bytes} {results : List CallOut}
    {st : LveSt} (hlen : msgs.length ≤ a.length) (hres : results.length = msgs.length)
    (hmsgs : ∀ m ∈ msgs, m ≠ [] ∧ Sent A m)
    (hrun : lveRun conf st0 (turnsOf worlds msgs) = .ok (st, replies.map fun r => [r]))
    (hinv : ∀ more, cl0.run (toolOn (a ++ more)) = afterCalls results
      (cl.run ⟨fresh (recordEvs more), List.replicate (a.length + more.length + 1 - msgs.length) .written, msgs⟩)) :
    ∃ xs st' results' t, Dialogue (toolProgram cl0) (lveProgram conf st0 worlds) a msgs msgs replies xs ∧
      lveRun conf st0 (turnsOf worlds (msgs ++ xs.map (·.1))) = .ok (st', (replies ++ xs.map (·.2)).map fun r => [r]) ∧
      cl0.run (toolOn (a ++ xs.flatMap fun x => cutRecords x.2)) = .ok (results', true, t) ∧
      results'.length = (msgs ++ xs.map (·.1)).length ∧ t.wire = msgs ++ xs.map (·.1) := by
  induction hcl generalizing a msgs replies results st with
  | stop =>
    have h := hinv []
    simp only [Client.run, afterCalls, Res.bind_ok, List.append_nil] at h
    refine ⟨[], st, results, _, ?_, by simpa using hrun, by simpa using h, by simpa using hres, by simp⟩
    simp [Dialogue, toolProgram, h]
  | @call c next hp _ ih =>
    obtain ⟨m0, ml, ms⟩ := callMessage_sent hp
    have hsent : ∀ x ∈ msgs ++ [callMessage c], x ≠ [] ∧ Sent A x := by
      intro x hx
      rcases List.mem_append.1 hx with hx | hx
      · exact hmsgs x hx
      · simp only [List.mem_singleton] at hx; subst hx; exact ⟨m0, ms⟩
    obtain ⟨st2, reps, ⟨st0', h0, h1⟩, h2⟩ := hsurv (msgs ++ [callMessage c]) fun x hx => (hsent x hx).2
    obtain rfl : st0' = st0 := by rw [hst0] at h0; injection h0 with h0; exact h0.symm
    have h1' := h1
    rw [turnsOf_snoc, run_append, hrun] at h1
    simp only [Res.bind_ok, lveRun] at h1
    rw [Res.bind_eq_ok] at h1
    obtain ⟨⟨st3, o3⟩, h3, h4⟩ := h1
    rw [Res.bind_eq_ok] at h3
    obtain ⟨⟨st4, out⟩, h5, h6⟩ := h3
    simp only [Res.ok.injEq, Prod.mk.injEq] at h6 h4
    obtain ⟨rfl, rfl⟩ := h6
    obtain ⟨rfl, rfl⟩ := h4
    obtain ⟨r, rfl, hr0, id, n, d, hrep⟩ := reply_understood (turns := turnsOf worlds msgs) ⟨st0', hst0, hrun⟩ (hw msgs.length) hA ms h5
      fun r hr => h2 out (by simp) r hr
    obtain ⟨o, ho, hdone⟩ := call_done hp id n d
    have hcut := cutRecords_ne_nil hr0
    have hcl := List.length_pos_iff.2 hcut
    have hall : Replies (recordEvs (cutRecords r)) [] (.command id n d) := by
      have := hrep _ _ (arrives_cut hr0 [])
      simpa [recordEvs] using this
    have hwait : ∀ pre suf, pre ++ suf = cutRecords r → suf ≠ [] →
        toolProgram cl0 (a ++ pre) = (msgs ++ [callMessage c], false) := by
      intro pre suf he hs
      obtain ⟨c', hb⟩ := readCommand_waits (fun x hx => (cutRecords_mem hx).1) hall he hs (some none)
      have := hinv pre
      rw [replicate_written (m := a.length + pre.length - msgs.length) (by omega)] at this
      simp only [Client.run, call_blocked hp _ _ hb, Res.bind_ok, if_true, afterCalls] at this
      simp only [toolProgram, this]
    have hmore : ∀ more, cl0.run (toolOn (a ++ cutRecords r ++ more)) = afterCalls (results ++ [o])
        ((next o).run ⟨fresh (recordEvs more), List.replicate ((a ++ cutRecords r).length + more.length + 1 -
          (msgs ++ [callMessage c]).length) .written, msgs ++ [callMessage c]⟩) := by
      intro more
      have := hinv (cutRecords r ++ more)
      rw [replicate_written (m := (a ++ cutRecords r).length + more.length + 1 - (msgs ++ [callMessage c]).length)
        (by simp; omega)] at this
      have hc := hdone _ _ (List.replicate ((a ++ cutRecords r).length + more.length + 1 -
          (msgs ++ [callMessage c]).length) .written) msgs
        (readCommand_command (hrep _ _ (arrives_cut hr0 more)) (some none))
      simp only [Client.run, hc, Res.bind_ok, if_neg ho] at this
      rw [List.append_assoc, this, ← afterCalls_cons]
    obtain ⟨xs, st', results', t, g1, g2, g3, g4, g5⟩ := ih o (a := a ++ cutRecords r) (msgs := msgs ++ [callMessage c])
      (replies := replies ++ [r]) (results := results ++ [o]) (st := st4) (by simp; omega) (by simp [hres]) hsent
      (by rw [h1']; simp) hmore
    refine ⟨(callMessage c, r) :: xs, st', results', t, ⟨m0, ml, hr0, hwait, ?_, ?_, g1⟩, ?_, ?_, ?_, ?_⟩
    · rw [lveProgram_run hw (fun m hm => (hmsgs m hm).1) hrun, flatten_singles]
    · rw [lveProgram_run hw (fun m hm => (hsent m hm).1) h1']; simp [flatten_singles]
    · simpa using g2
    · simpa using g3
    · simpa using g4
    · simpa using g5

/-- A client that runs to its end against the vendor executable, in terms of what both have received. -/
theorem client_ends {conf : LveConf} {k : Option Bytes} {worlds : Nat → World} (hw : ∀ i, Ample (worlds i))
    {A : CmdId → Bytes → Prop} (hA : ∀ s, A .lib s → s ≠ []) (hsurv : Survives conf k worlds A) {cl : Client}
    (hcl : ProperClient A cl) :
    Completes conf k worlds cl := by
  obtain ⟨st, reps, ⟨st0, hst0, hr0⟩, -⟩ := hsurv [] (by simp)
  have hrun : lveRun conf st0 (turnsOf worlds []) = .ok (st0, ([] : List Bytes).map fun r => [r]) := rfl
  obtain ⟨xs, st', results, t, h1, h2, h3, h4, h5⟩ := client_dialogue hst0 hw hA hsurv (cl0 := cl) hcl (a := [])
    (msgs := []) (replies := []) (results := []) (st := st0) (by simp) rfl (by simp) hrun
    (by intro more
        simp only [List.nil_append, List.length_nil, toolOn, fresh, afterCalls, recordEvs, Nat.zero_add, Nat.sub_zero]
        cases cl.run _ with
        | ub e => rfl
        | ok x => rfl)
  have hflat : (xs.map (·.2)).flatMap cutRecords = xs.flatMap fun x => cutRecords x.2 := by
    simp [List.flatMap_map]
  refine ⟨st0, st', xs.map (·.1), xs.map (·.2), results, t, hst0, ⟨st0, hst0, by simpa using h2⟩, ?_, by simpa using h5,
    by simpa using h4, by simp, fun size cap hcap => ?_⟩
  · rw [hflat]; simpa using h3
  · rw [hflat]
    exact dialogue_ends hcap (by rw [lveProgram_run hw (by simp) hrun]; rfl) h1

end Semla
