import Verif.Lemmas.Tool
import Verif.Props.LveSafe
import Verif.Props.Wire
import Verif.Spec.EndToEnd

/-! # Helper lemmas: both programs together -/

set_option linter.unusedSimpArgs false

namespace Semla

open Semla.Spec Semla.Props

theorem ample_malloc {w : World} (hw : Ample w) : w.malloc = fun _ => true := funext hw

/-- The loop on a connection that delivers the messages is the run over the messages. -/
theorem receive_run {conf : LveConf} (turns : List (World × Bytes)) (ht : ∀ t ∈ turns, Ample t.1)
    {evs rest : List Ev} (hd : Delivers evs (turns.map (·.2)) rest) (st : LveSt) :
    lveReceive conf st (turns.map fun t => (t.1, false)) (fresh evs) = lveRun conf st turns := by
  induction turns generalizing evs st with
  | nil => rfl
  | cons t ts ih =>
    obtain ⟨w, msg⟩ := t
    obtain ⟨freed, evs', h1, h2⟩ := sslReadMessage_delivers hd
    have hm := ample_malloc (ht (w, msg) (by simp))
    simp only at hm h1
    simp only [List.map_cons, lveReceive, lveRun]
    rw [show fresh evs = ⟨[], [], evs⟩ from rfl, hm, h1]
    simp only [Res.bind_ok, readCells_map_some', Bool.false_eq_true, if_false]
    have := fun s => ih (fun t h => ht t (by simp [h])) h2 s
    simp only [fresh] at this
    simp only [this]

theorem arrives_short {evs rest : List Ev} {r : Bytes} (h : Arrives evs r rest) (hlen : r.length ≤ 100) :
    Delivers evs [r] rest := by
  obtain ⟨first, more, h1, h2, h3, h4⟩ := h
  rw [Nat.min_eq_left hlen] at h2
  have : more = [] ∧ first = r := by
    have hl := congrArg List.length h1
    simp only [List.flatten_cons, List.length_append] at hl
    have hm : more.flatten = [] := List.length_eq_zero_iff.1 (by omega)
    constructor
    · cases more with
      | nil => rfl
      | cons b bs =>
        cases h4 with
        | cons _ _ h5 =>
          cases h5 with
          | cons _ hb _ => simp at hm; exact absurd hm.1 hb
    · rw [List.flatten_cons, hm] at h1; simpa using h1
  obtain ⟨rfl, rfl⟩ := this
  exact h4

theorem arrives_simple {c : CmdId} (hc : c.form = .simple) {evs rest : List Ev}
    (h : Arrives evs (sendSimple c) rest) : Replies evs rest (.command c 0 []) := by
  have hlen : (sendSimple c).length ≤ 100 := by rw [sendSimple_eq]; cases c <;> decide
  exact .plain (arrives_short h hlen) (by omega) (accepts_simple_view hc (Or.inr rfl)) (Or.inl hc)

theorem arrives_version {evs rest : List Ev} (h : Arrives evs b!"VERSION 1\n" rest) :
    Replies evs rest (.command .version 1 []) :=
  .plain (arrives_short h (by decide)) (by decide)
    (accepts_number_view (c := .version) (n := 1) rfl (by decide) (by decide) (Or.inr (by decide))) (Or.inr rfl)

theorem decNat_length_le {n : Nat} (h : n < 2 ^ 64) : (decNat n).length ≤ 20 :=
  decNat_length n 19 (by omega)

/-- A reply with data arrives as a reply with this data. -/
theorem arrives_data {evs rest : List Ev} {c : CmdId} (hc : c.form = .length) {data r : Bytes}
    (hr : DataReply c.name data r) (hl : data.length < 2 ^ 63) (h : Arrives evs r rest) :
    Replies evs rest (.command c 0 data) := by
  obtain ⟨ds, h1, rfl⟩ := hr
  obtain rfl := numeral_unique h1 (decNat_numeral _)
  obtain ⟨first, more, h2, h3, h4, h5⟩ := h
  have hd := decNat_length_le (n := data.length) (by omega)
  have hn : c.name.length ≤ 20 := by cases c <;> decide
  obtain ⟨d1, rfl, h7⟩ := split_header (L := c.name ++ b!" " ++ decNat data.length) (data := data)
    (first := first) (rest := more.flatten) (by simpa [line2] using h2)
    (by simp [line2] at h3 ⊢; omega)
  have e : c.name ++ b!" " ++ decNat data.length ++ b!"\n" ++ d1 =
    c.name ++ b!" " ++ decNat data.length ++ 10 :: d1 := by simp
  refine .pieces (line := c.name ++ b!" " ++ decNat data.length) (part := d1) (more := more) ?_ ?_
    (line2_isLine c _) ?_ (Or.inl hc) h7.symm
  · rw [e]; exact h5
  · rw [e]; exact h4
  · rw [e, (dropLast_line _ d1).1]
    exact accepts_len_rest hc hl (dropLast_line (c.name ++ b!" " ++ decNat data.length) d1).2

theorem arrives_error {evs rest : List Ev} {code : Nat} (hcode : code < 2 ^ 31) {text r : Bytes}
    (hr : ErrorReply code text r) (hl : text.length < 2 ^ 63) (h : Arrives evs r rest) :
    Replies evs rest (.command .error code text) := by
  obtain ⟨ns, ds, h0, h1, rfl⟩ := hr
  obtain rfl := numeral_unique h1 (decNat_numeral _)
  obtain rfl := numeral_unique h0 (decNat_numeral _)
  obtain ⟨first, more, h2, h3, h4, h5⟩ := h
  have hd := decNat_length_le (n := text.length) (by omega)
  have hn := decNat_length_le (n := code) (by omega)
  have e0 : decInt (code : Int) = decNat code := by
    unfold decInt
    rw [if_neg (by omega)]
    congr 1
  have hline := line3_isLine .error code text.length
  rw [e0] at hline
  obtain ⟨d1, rfl, h7⟩ := split_header (L := CmdId.error.name ++ b!" " ++ decNat code ++ b!" " ++ decNat text.length)
    (data := text) (first := first) (rest := more.flatten) (by simpa [line3, CmdId.name] using h2)
    (by simp [line3, CmdId.name] at h3 ⊢; omega)
  have e : CmdId.error.name ++ b!" " ++ decNat code ++ b!" " ++ decNat text.length ++ b!"\n" ++ d1 =
    CmdId.error.name ++ b!" " ++ decNat code ++ b!" " ++ decNat text.length ++ 10 :: d1 := by simp
  refine .pieces (line := CmdId.error.name ++ b!" " ++ decNat code ++ b!" " ++ decNat text.length) (part := d1)
    (more := more) ?_ ?_ hline ?_ (Or.inr rfl) h7.symm
  · rw [e]; exact h5
  · rw [e]; exact h4
  · rw [e, (dropLast_line _ d1).1, ← e0]
    exact accepts_numlen_rest (c := .error) rfl (by unfold longMin; omega) (by unfold longMax; omega) hl
      (dropLast_line (CmdId.error.name ++ b!" " ++ decInt code ++ b!" " ++ decNat text.length) d1).2

/-! ## Calls of the tool -/

theorem version_ok {evs rest : List Ev} {wevs after : List WEv} (wire : List Bytes)
    (hr : Replies evs rest (.command .version 1 [])) (hw : Writes wevs after) {minV maxV : Int}
    (h1 : minV ≤ 1) (h2 : 1 ≤ maxV) (h3 : maxV ≤ longMax) :
    toolVersion (fun _ => true) ⟨fresh evs, wevs, wire⟩ minV maxV (some none) =
      .ok (.success () (some none), ⟨fresh rest, after, wire ++ [sendNumber .version maxV]⟩) := by
  unfold toolVersion Tool.write
  rw [write_writes hw]
  simp only
  rw [if_neg (by omega), if_neg (by rw [send_number_aux _ _ (by unfold longMin; omega) h3]; simp [line2])]
  have := (expectCommand_command (t := ⟨fresh evs, after, wire ++ [sendNumber .version maxV]⟩) rfl hr .version
    (by decide)).1 rfl
  simp only [this, Res.bind_ok]
  rw [if_neg (by omega), if_neg (by omega)]

theorem libpath_ok {evs rest : List Ev} {wevs after : List WEv} (wire : List Bytes) {n : Int} {d : Bytes}
    (hr : Replies evs rest (.command .yes n d)) (hw : Writes wevs after) {path : Bytes}
    (hs : (cstr path).length < 2 ^ 63) :
    toolLibpath (fun _ => true) ⟨fresh evs, wevs, wire⟩ path (some none) =
      .ok (.success () (some none), ⟨fresh rest, after,
        wire ++ [line2 b!"LIB" (decNat (cstr path).length) ++ cstr path]⟩) := by
  unfold toolLibpath sendExpectYes
  rw [toolSend_writes (after := after) (by exact hw) _ _ hs]
  simp only [Res.bind_ok]
  have := (expectCommand_command
    (t := ⟨fresh evs, after, wire ++ [line2 CmdId.lib.name (decNat (cstr path).length) ++ cstr path]⟩) rfl hr .yes
    (by decide)).1 rfl
  rw [this]
  rfl

theorem file_ok {evs rest : List Ev} {wevs after : List WEv} (wire : List Bytes) {d : Bytes}
    (hr : Replies evs rest (.command .fileCont 0 d)) (hw : Writes wevs after) {path : Bytes}
    (hs : (cstr path).length < 2 ^ 63) :
    toolFile (fun _ => true) ⟨fresh evs, wevs, wire⟩ path (some none) =
      .ok (.success ⟨d.length, 0, some ⟨d.map some ++ [some 0]⟩⟩ (some none), ⟨fresh rest, after,
        wire ++ [line2 b!"FILE" (decNat (cstr path).length) ++ cstr path]⟩) := by
  unfold toolFile
  rw [toolSend_writes (after := after) (by exact hw) _ _ hs]
  simp only [Res.bind_ok]
  have := (expectCommand_command
    (t := ⟨fresh evs, after, wire ++ [line2 CmdId.file.name (decNat (cstr path).length) ++ cstr path]⟩) rfl hr
    .fileCont (by decide)).1 rfl
  rw [this]
  rfl

/-- The error object for an ERROR reply with this text. -/
def errorGot (text : Bytes) : Err := ⟨2, 1, some ((b!"Got ERROR command with message: " ++ cstr text).take 2047)⟩

theorem feature_ok {evs rest : List Ev} {wevs after : List WEv} (wire : List Bytes) {c : CmdId} {n : Int} {d : Bytes}
    (hr : Replies evs rest (.command c n d)) (hw : Writes wevs after) {f : Bytes}
    (hs : (cstr f).length < 2 ^ 63) :
    (c = .yes → toolFeature (fun _ => true) ⟨fresh evs, wevs, wire⟩ f (some none) =
      .ok (.success () (some none), ⟨fresh rest, after,
        wire ++ [line2 b!"FEATURE" (decNat (cstr f).length) ++ cstr f]⟩)) ∧
    (c = .no → toolFeature (fun _ => true) ⟨fresh evs, wevs, wire⟩ f (some none) =
      .ok (.failed (some (some ⟨2, 3, some ((cstr d).take 2047)⟩)), ⟨fresh rest, after,
        wire ++ [line2 b!"FEATURE" (decNat (cstr f).length) ++ cstr f]⟩)) ∧
    (c = .error → toolFeature (fun _ => true) ⟨fresh evs, wevs, wire⟩ f (some none) =
      .ok (.failed (some (some (errorGot d))), ⟨fresh rest, after,
        wire ++ [line2 b!"FEATURE" (decNat (cstr f).length) ++ cstr f]⟩)) := by
  unfold toolFeature
  rw [toolSend_writes (after := after) (by exact hw) _ _ hs]
  simp only [Res.bind_ok]
  obtain ⟨g1, g2, -⟩ := expectCommands_command
    (t := ⟨fresh evs, after, wire ++ [line2 CmdId.feature.name (decNat (cstr f).length) ++ cstr f]⟩) rfl hr .yes [.no]
  refine ⟨?_, ?_, ?_⟩
  · rintro rfl
    rw [g1 (by simp) (by decide)]
    rfl
  · rintro rfl
    rw [g1 (by simp) (by decide)]
    simp only [Res.bind_ok, reduceCtorEq, if_false, if_true, dataOf, CmdId.form, true_or,
        errorSetData_ok, List.nil_append, domainTool, codeNoLicense, CmdId.name]
  · rintro rfl
    rw [g2 rfl]
    rfl

theorem expectYes_ok {c : CmdId} {evs rest : List Ev} {wevs after : List WEv} (wire : List Bytes) {c' : CmdId}
    {n : Int} {d : Bytes} (hr : Replies evs rest (.command c' n d)) (hw : Writes wevs after) {f : Bytes}
    (hs : (cstr f).length < 2 ^ 63) :
    (c' = .yes → sendExpectYes (fun _ => true) ⟨fresh evs, wevs, wire⟩ c f (some none) =
      .ok (.success () (some none), ⟨fresh rest, after,
        wire ++ [line2 c.name (decNat (cstr f).length) ++ cstr f]⟩)) ∧
    (c' = .error → sendExpectYes (fun _ => true) ⟨fresh evs, wevs, wire⟩ c f (some none) =
      .ok (.failed (some (some (errorGot d))), ⟨fresh rest, after,
        wire ++ [line2 c.name (decNat (cstr f).length) ++ cstr f]⟩)) := by
  unfold sendExpectYes
  rw [toolSend_writes (after := after) (by exact hw) _ _ hs]
  simp only [Res.bind_ok]
  obtain ⟨g1, g2, -⟩ := expectCommand_command
    (t := ⟨fresh evs, after, wire ++ [line2 c.name (decNat (cstr f).length) ++ cstr f]⟩) rfl hr .yes (by decide)
  constructor
  · rintro rfl
    rw [g1 rfl]
    rfl
  · rintro rfl
    rw [g2 rfl]
    rfl

/-! ## Messages of the tool as the executable reads them -/

theorem carries_sent {c : CmdId} (hc : c.form = .length) {d : Bytes} (h : d.length < 2 ^ 63) :
    Carries (line2 c.name (decNat d.length) ++ d) c d :=
  ⟨c.name ++ b!" " ++ decNat d.length, d, 0, line2_isLine c _, by simp [line2],
    accepts_len hc h (Or.inl rfl), by simp, by omega⟩

theorem sent_length {c : CmdId} {d : Bytes} (h : d.length ≤ 16000) :
    (line2 c.name (decNat d.length) ++ d).length ≤ 16384 := by
  have := decNat_length_le (n := d.length) (by omega)
  have hn : c.name.length ≤ 20 := by cases c <;> decide
  simp [line2]; omega

theorem honest_sent {jobs : List Job} {p : Bytes} (hp : p.length < 2 ^ 62)
    (h : IsMoc (cstr p) → ∃ j ∈ jobs, cstr p = j.path ++ b!"c") :
    Honest jobs (line2 b!"FILE" (decNat p.length) ++ p) :=
  fun _ _ _ => ⟨p, carries_sent (c := .file) rfl (by omega), hp, h⟩

theorem honest_accepts {jobs : List Job} {msg : Bytes} {c : CmdId} {n : Int} {len : Nat}
    (h : Accepts msg c n len) (hc : c ≠ .file) : Honest jobs msg := by
  intro n' len' h'
  exact absurd (c01_accept_unique msg _ _ _ _ _ _ h h').1 hc

/-! ## Opening -/

/-- LIB with a directory for which there is a license. -/
theorem lib_step {conf : LveConf} {w : World} (hw : Ample w) {d root msg : Bytes} (hd : IsRootOf d root)
    (hnul : (0 : UInt8) ∉ d) (hst : w.stat root = some true) (hlic : Licensed conf root)
    (hc : Carries msg .lib d) {st : LveSt} (hp : st.proto = .tools) (ha : st.approved = true)
    (hcalls : st.calls = []) (hm : st.hasMgr = false) :
    ∃ st', lveStep conf w st msg = .ok (st', [sendSimple .yes]) ∧ st'.approved = true ∧
      st'.libpath = some root := by
  have hne : d ≠ [] := by
    obtain ⟨seps, rfl, -, h, -⟩ := hd
    simp [h]
  have htrim : trimLoop d d.length = root := isRootOf_unique (trimLoop_isRootOf hne) hd
  have hcr : cstr root = root := by
    refine cstr_of_noNul fun b hb h0 => hnul ?_
    obtain ⟨seps, rfl, -⟩ := hd
    subst h0; simp [hb]
  have hg : ∃ st1, globalLicense conf (withRoot st root) = (st1, .success) ∧ st1.approved = true ∧
      st1.libpath = some root := by
    unfold globalLicense
    rcases hlic with h | ⟨g, h, h1, h2⟩
    · rw [h]; exact ⟨_, rfl, ha, rfl⟩
    · rw [h]
      simp only [withRoot, ha, if_true, setupLicensing, hm, Bool.false_eq_true, if_false, callManager, hcalls,
        Option.map_some, hcr, List.nil_append, h1]
      exact ⟨_, by rw [show [LicCall.new (some root)] ++ [LicCall.checkout g] =
        [.new (some root), .checkout g] from rfl, h2], rfl, rfl⟩
  obtain ⟨st1, hg1, hg2, hg3⟩ := hg
  have hlen : d.length ≠ 0 := by simpa using hne
  have hlib : lveLibpath conf w false st ⟨.lib, 0, d.length, some ⟨d.map some ++ [some 0]⟩⟩ =
      .ok (st1, [sendSimple .yes], true) := by
    unfold lveLibpath
    simp only [hw _, not_true_eq_false, if_false, readCells_map_some, Res.bind_ok, hlen, htrim]
    change (match globalLicense conf (withRoot st root) with
            | (_, .failure none) => _ | (st, .failure (some m)) => _ | (st, .success) => _) = _
    rw [hg1]
    simp only [validateDirectory, hg3, Option.getD_some, hcr, hst, Bool.false_eq_true, if_false]
  rw [step_forward (next := .license) hw rfl hc (by rw [hp]; rfl)]
  unfold dispatch
  rw [hp]
  simp only [hlib, Res.bind_ok]
  exact ⟨_, rfl, hg2, hg3⟩

end Semla
