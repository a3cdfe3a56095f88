import Verif.Lemmas.LveInv
import Verif.Props.Crypt

/-!
# Properties of sessions with the vendor executable: order, replies, approval

C03 (state errors), C10, C11, C12, C13, C14 (executable side), C15, C16, C19, C25 (executable side).
-/

set_option linter.unusedSimpArgs false

namespace Semla.Props

open Semla Semla.Spec

/-! ## Concrete sessions for the examples -/

/-- A build with toy cryptography. -/
def toyConf (trusted : List Bytes) (global : Option Bytes) (lm : List LicCall → LicAnswer) : LveConf :=
  ⟨toy, (List.range 32).map UInt8.ofNat, 32, trusted, global, lm⟩

/-- A world with these files and directories and enough memory. -/
def roomy (files : List (Bytes × Bytes)) (dirs : List Bytes) : World :=
  ⟨fun p => match files.find? (fun f => f.1 == p) with
    | some f => .stream f.2.length f.2 none
    | none => .noOpen b!"No such file or directory",
   fun p => if p ∈ dirs then some true else if files.any (fun f => f.1 == p) then some false else none,
   fun _ => true⟩

theorem roomy_ample (files : List (Bytes × Bytes)) (dirs : List Bytes) : Ample (roomy files dirs) := fun _ => rfl

/-- A license manager that grants everything. -/
def generous : List LicCall → LicAnswer := fun _ => .success

/-- A small library at /l. -/
def lib1 : World := roomy [(b!"/l/a.mo", b!"model a end a;")] [b!"/l"]

/-- Messages all handled in the same world. -/
def inWorld (w : World) (msgs : List Bytes) : List (World × Bytes) := msgs.map fun m => (w, m)

/-- The replies of a session, for evaluation. -/
def repliesOf (r : Res (LveSt × List (List Bytes))) : Option (List (List Bytes)) :=
  match r with
  | .ok (_, o) => some o
  | .ub _ => none

/-- A complete session, from the start. -/
def session (conf : LveConf) (k : Option Bytes) (turns : List (World × Bytes)) : Res (LveSt × List (List Bytes)) := do
  let st ← lveStart conf k
  lveRun conf st turns

theorem session_iff {conf : LveConf} {k : Option Bytes} {turns : List (World × Bytes)} {st : LveSt}
    {replies : List (List Bytes)} :
    Session conf k turns st replies ↔ session conf k turns = .ok (st, replies) := by
  unfold Session session
  rw [Res.bind_eq_ok]

/-! ## C03: errors about the protocol state -/

/-- **C03, protocol state.** Whatever the state and the command, composing the text about a command that
is not valid never leaves the buffers involved, and the text fits the caller's buffer with its NUL. -/
theorem c03_state_error_text_fits (cap : Nat) (hcap : 1 ≤ cap) (s : LveState) (c : CmdId) (e : Bytes)
    (hc : c ≠ .undefined) (he : e.length < cap) :
    ∃ next m, nextState cap s c e = .ok (next, m) ∧ m.length < cap := by
  cases hv : validNext c s with
  | none =>
    obtain ⟨m, h1, h2⟩ := nextState_none cap e hc hv
    exact ⟨none, m, h1, by omega⟩
  | some n => exact ⟨some n, e, nextState_some hc hv, he⟩

example : nextState 4096 .license .lib [] = .ok (none, b!"Protocol error: Command LIB is not valid in this state, expected command is one of FEATURE, FILE, LICENSE, RETURNFEATURE, RETURNLICENSE.") := by
  decide +kernel
example : nextState 30 .license .lib [] = .ok (none, b!"Protocol error: Command LIB i") := by decide +kernel

/-- The error text of every reachable session fits the error buffer. -/
theorem c03_session_error_text_fits {conf : LveConf} {k : Option Bytes} {turns : List (World × Bytes)}
    {st : LveSt} {replies : List (List Bytes)} (h : Session conf k turns st replies) :
    st.errMsg.length < lveErrorSize := by
  obtain ⟨st0, h1, h2⟩ := h
  have h0 : st0.errMsg.length < lveErrorSize := by
    rcases start_eq h1 with rfl | rfl <;> decide
  clear h1
  induction turns generalizing st0 replies with
  | nil =>
    simp only [lveRun, Res.ok.injEq, Prod.mk.injEq] at h2
    rw [← h2.1]; exact h0
  | cons t ts ih =>
    obtain ⟨w, msg⟩ := t
    obtain ⟨st1, out, outs', h3, h4, -⟩ := run_cons h2
    refine ih st1 h4 ?_
    -- one step
    unfold lveStep at h3
    split at h3
    · cases h3
    rcases accepts_or_rejected msg with ⟨c, n, len, ha⟩ | ⟨g, hr, hg⟩
    · rw [parse_of_accepts ha] at h3
      simp only [Res.bind_ok, if_true] at h3
      change handleCommand conf w st0 ⟨c, n, len, none⟩ msg = _ at h3
      have hcd := accepts_defined ha
      cases hv : validNext c st0.proto with
      | none =>
        obtain ⟨m, h5, h6⟩ := nextState_none lveErrorSize st0.errMsg hcd hv
        unfold handleCommand at h3
        simp only [h5, Res.bind_ok] at h3
        rw [Res.bind_eq_ok] at h3
        obtain ⟨o, -, h7⟩ := h3
        simp only [Res.ok.injEq, Prod.mk.injEq] at h7
        rw [← h7.1]
        simp only [lveErrorSize] at h6 ⊢; omega
      | some next =>
        have he := step_effect (conf := conf) (w := w) (st := st0) (msg := msg) (st' := st1) (out := out) (by
          unfold lveStep
          rename_i hm
          rw [if_neg hm, parse_of_accepts ha]
          simpa using h3)
        have hal : ¬ Refusable st0.proto msg := by
          rw [refusable_iff ha, allowed_iff, hv]; simp
        cases he with
        | refused hr => exact absurd hr hal
        | low hp hb hn =>
          obtain ⟨rfl, rfl, -⟩ := accepts_unique ha hb
          unfold handleCommand at h3
          rw [nextState_some hcd hv] at h3
          simp only [Res.bind_ok, CmdId.form, reduceCtorEq, if_false] at h3
          unfold dispatch at h3
          simp only [hp, hn, if_true] at h3
          rw [Res.bind_eq_ok] at h3
          obtain ⟨o, -, h7⟩ := h3
          simp only [Res.ok.injEq, Prod.mk.injEq, LveSt.mk.injEq] at h7
          simp only
          rw [← h7.1.2.1]
          decide
        | version => exact h0
        | tools => exact h0
        | lib _ _ _ h => have := (lib_frame h).1; simp only at this ⊢; rw [this]; exact h0
        | feature _ _ _ h => obtain ⟨b, cs, rfl⟩ := feature_frame h; exact h0
        | returnFeature _ _ _ h => obtain ⟨b, cs, rfl⟩ := returnFeature_frame h; exact h0
        | license => exact h0
        | file _ _ _ h => obtain ⟨t, rfl⟩ := file_frame h; exact h0
    · obtain ⟨m, h5, h6⟩ := parse_of_rejected hr (cap := lveErrorSize) (by decide) st0.errMsg
      rw [h5] at h3
      simp only [Res.bind_ok, if_neg hg] at h3
      rw [Res.bind_eq_ok] at h3
      obtain ⟨o, -, h7⟩ := h3
      simp only [Res.ok.injEq, Prod.mk.injEq] at h7
      rw [← h7.1]
      simp only
      rcases h6 with rfl | h6
      · exact h0
      · simp only [lveErrorSize] at h6 ⊢; omega

example : (repliesOf (session (toyConf [b!"k"] none generous) (some b!"k")
    (inWorld lib1 [b!"FILE 4\na.mo"]))).map (·.map (·.map List.length)) = some [[93]] := by decide +kernel

/-! ## C11 -/

/-- **C11, first half.** A malformed or untimely message changes nothing in the session, whatever the world
is like. -/
theorem c11_unchanged {conf : LveConf} {w : World} {st st' : LveSt} {msg : Bytes} {out : List Bytes}
    (hr : Refusable st.proto msg) (h : lveStep conf w st msg = .ok (st', out)) : SameSession st st' := by
  have key : ∀ {c n len}, Accepts msg c n len → Allowed st.proto c → False := fun ha hal =>
    (refusable_iff ha).1 hr hal
  cases step_effect h with
  | refused => rfl
  | low hp ha => exact (key ha (by rw [hp]; exact .version)).elim
  | version hp ha => exact (key ha (by rw [hp]; exact .version)).elim
  | tools hp ha => exact (key ha (by rw [hp]; exact .tools)).elim
  | lib hp ha =>
    refine (key ha ?_).elim
    rcases hp with hp | hp <;> rw [hp]
    · exact .lib1
    · exact .lib2
  | feature hp ha => exact (key ha (by rw [hp]; exact .stage (by decide))).elim
  | returnFeature hp ha => exact (key ha (by rw [hp]; exact .stage (by decide))).elim
  | license hp hc ha =>
    refine (key ha ?_).elim
    rw [hp]
    rcases hc with rfl | rfl <;> exact .stage (by decide)
  | file hp ha => exact (key ha (by rw [hp]; exact .stage (by decide))).elim

/-- **C11.** In every session state (with text in the error buffer that fits it) and for every message that
is malformed or not valid in this state, the executable sends exactly one reply, `ERROR 1` with a text that
fits the buffer, and the session is as before. -/
theorem c11_refused {conf : LveConf} {w : World} (hw : Ample w) {st : LveSt} {msg : Bytes}
    (hb : st.errMsg.length < lveErrorSize) (hr : Refusable st.proto msg) :
    ∃ st' r text, lveStep conf w st msg = .ok (st', [r]) ∧ ErrorReply 1 text r ∧ text.length < 4096 ∧
      SameSession st st' := by
  have hcl : ∀ b : Bytes, (cstr b).length ≤ b.length := fun b => by
    unfold cstr; exact (List.takeWhile_sublist _).length_le
  have hlong : longMin ≤ (1 : Int) ∧ (1 : Int) ≤ longMax := by decide
  have fin : ∀ t : Bytes, t.length < lveErrorSize → ∃ r, reply false (sendError w.malloc 1 (some t)) = .ok [r] ∧
      ErrorReply 1 (cstr t) r ∧ (cstr t).length < 4096 := by
    intro t ht
    have hf : (cstr t).length < 4096 := by have := hcl t; unfold lveErrorSize at ht; omega
    have := reply_error_ok hw hlong.1 hlong.2 (t := t) (by have := hcl t; unfold lveErrorSize at ht; omega)
    rcases reply_error (code := 1) this with ⟨r, hr, he⟩ | ⟨h, -⟩
    · exact ⟨r, by rw [hr] at this; exact this, he, hf⟩
    · simp at h
  rcases hr with ⟨g, hg⟩ | ⟨c, n, len, ha, hn⟩
  · obtain ⟨m, h1, h2⟩ := parse_of_rejected hg (cap := lveErrorSize) (by decide) st.errMsg
    have hm : m.length < lveErrorSize := by
      rcases h2 with rfl | h2
      · exact hb
      · unfold lveErrorSize at h2 ⊢; omega
    obtain ⟨r, h3, h4, h5⟩ := fin (if g = .unknownError then b!"Internal error in parsing." else m) (by
      split
      · decide
      · exact hm)
    refine ⟨{ st with errMsg := m }, r, _, ?_, h4, h5, rfl⟩
    unfold lveStep
    rw [if_neg (by simp [hw _]), h1]
    simp only [Res.bind_ok, if_neg (rejected_ne_valid hg)]
    change (do let out ← reply false (sendError w.malloc 1 _); Res.ok (_, out)) = _
    rw [h3]; rfl
  · have hv : validNext c st.proto = none := by
      rw [allowed_iff] at hn; simpa using hn
    obtain ⟨m, h1, h2⟩ := nextState_none lveErrorSize st.errMsg (accepts_defined ha) hv
    obtain ⟨r, h3, h4, h5⟩ := fin m (by unfold lveErrorSize at h2 ⊢; omega)
    refine ⟨{ st with errMsg := m }, r, _, ?_, h4, h5, rfl⟩
    unfold lveStep
    rw [if_neg (by simp [hw _]), parse_of_accepts ha]
    simp only [Res.bind_ok, if_true]
    change handleCommand conf w st ⟨c, n, len, none⟩ msg = _
    unfold handleCommand
    simp only [h1, Res.bind_ok]
    change (do let out ← reply false (sendError w.malloc 1 _); Res.ok (_, out)) = _
    rw [h3]; rfl

example : Refusable .version b!"FILE 4\na.mo" := by
  refine Or.inr ⟨.file, 0, 4, ?_, ?_⟩
  · have : Denotes b!"4" 4 := ⟨[], [], b!"4", [], by decide, by simp, by simp, by simp, by decide, by simp,
      by decide⟩
    exact .len (name := b!"FILE") (w := b!"4") (n := 4) (by decide) (by decide) this (by decide)
  · rw [allowed_iff]; decide
example : (repliesOf (session (toyConf [b!"k"] none generous) (some b!"k") (inWorld lib1 [b!"HELLO\n"]))).map
    (·.map (·.map fun r => r.take 8)) = some [[b!"ERROR 1 "]] := by decide +kernel

/-! ## C10 -/

/-- What the rest of a session has to look like from a given state on. -/
def OrderFrom : LveState → List (CmdId × Int) → Prop
  | .license, cs => ∀ x ∈ cs, x.1 ∈ licenseStage
  | .lib, cs => cs = [] ∨ ∃ l rest, cs = l :: rest ∧ l.1 = .lib ∧ ∀ x ∈ rest, x.1 ∈ licenseStage
  | .tools, cs => cs = [] ∨ ∃ tools l rest, (cs = tools ++ l :: rest ∧ l.1 = .lib ∧ (∀ x ∈ rest, x.1 ∈ licenseStage) ∨
      cs = tools) ∧ (tools = [] ∨ ∃ n, tools = [(.tools, n)])
  | .version, cs => LegalOrder cs

theorem orderFrom_legal {s : LveState} {cs : List (CmdId × Int)} (v : CmdId × Int) (hv : v.1 = .version ∧ 1 ≤ v.2)
    (hs : s = .tools) (h : OrderFrom s cs) : LegalOrder (v :: cs) := by
  subst hs
  rcases h with rfl | ⟨tools, l, rest, (⟨rfl, hl, hr⟩ | rfl), ht⟩
  · exact ⟨[(.lib, 0)], [], v, [], (.lib, 0), [], by simp, by simp, hv, Or.inl rfl, rfl, by simp⟩
  · exact ⟨[], [], v, tools, l, rest, by simp, by simp, hv, ht, hl, hr⟩
  · exact ⟨[(.lib, 0)], [], v, cs, (.lib, 0), [], by simp, by simp, hv, ht, rfl, by simp⟩

theorem order_step {conf : LveConf} {w : World} {st st' : LveSt} {msg : Bytes} {out : List Bytes} {c : CmdId}
    {n : Int} {len : Nat} {cs : List (CmdId × Int)} (he : Effect conf w st msg st' out) (ha : Accepts msg c n len)
    (hall : Allowed st.proto c) (h : OrderFrom st'.proto cs) : OrderFrom st.proto ((c, n) :: cs) := by
  cases he with
  | refused hr => exact absurd hall ((refusable_iff ha).1 hr)
  | low hp hb hn =>
    obtain ⟨rfl, rfl, -⟩ := accepts_unique ha hb
    simp only at h
    rw [hp] at h ⊢
    obtain ⟨more, lows, v, tools, l, rest, h1, h2, h3, h4, h5, h6⟩ := h
    refine ⟨more, (.version, n) :: lows, v, tools, l, rest, by simp [h1], ?_, h3, h4, h5, h6⟩
    intro x hx
    simp only [List.mem_cons] at hx
    rcases hx with rfl | hx
    · exact ⟨rfl, hn⟩
    · exact h2 x hx
  | version hp hb hn =>
    obtain ⟨rfl, rfl, -⟩ := accepts_unique ha hb
    rw [hp]
    exact orderFrom_legal (.version, n) ⟨rfl, hn⟩ rfl h
  | tools hp hb =>
    obtain ⟨rfl, rfl, -⟩ := accepts_unique ha hb
    rw [hp]
    rcases h with rfl | ⟨l, rest, rfl, hl, hr⟩
    · exact Or.inr ⟨[(.tools, n)], (.lib, 0), [], Or.inr rfl, Or.inr ⟨n, rfl⟩⟩
    · exact Or.inr ⟨[(.tools, n)], l, rest, Or.inl ⟨by simp, hl, hr⟩, Or.inr ⟨n, rfl⟩⟩
  | lib hp hb =>
    obtain ⟨rfl, rfl, -⟩ := accepts_unique ha hb
    rcases hp with hp | hp <;> rw [hp]
    · exact Or.inr ⟨[], (.lib, n), cs, Or.inl ⟨by simp, rfl, h⟩, Or.inl rfl⟩
    · exact Or.inr ⟨(.lib, n), cs, rfl, rfl, h⟩
  | feature hp hb =>
    obtain ⟨rfl, rfl, -⟩ := accepts_unique ha hb
    rw [hp]
    intro x hx; simp only [List.mem_cons] at hx
    rcases hx with rfl | hx
    · simp [licenseStage]
    · exact h x hx
  | returnFeature hp hb =>
    obtain ⟨rfl, rfl, -⟩ := accepts_unique ha hb
    rw [hp]
    intro x hx; simp only [List.mem_cons] at hx
    rcases hx with rfl | hx
    · simp [licenseStage]
    · exact h x hx
  | license hp hc hb =>
    obtain ⟨rfl, rfl, -⟩ := accepts_unique ha hb
    rw [hp]
    intro x hx; simp only [List.mem_cons] at hx
    rcases hx with rfl | hx
    · rcases hc with rfl | rfl <;> simp [licenseStage]
    · exact h x hx
  | file hp hb =>
    obtain ⟨rfl, rfl, -⟩ := accepts_unique ha hb
    rw [hp]
    intro x hx; simp only [List.mem_cons] at hx
    rcases hx with rfl | hx
    · simp [licenseStage]
    · exact h x hx

theorem orderFrom_nil (s : LveState) : OrderFrom s [] := by
  cases s with
  | version => exact ⟨[(.version, 1), (.lib, 0)], [], (.version, 1), [], (.lib, 0), [], by simp, by simp,
      by simp, Or.inl rfl, rfl, by simp⟩
  | tools => exact Or.inl rfl
  | lib => exact Or.inl rfl
  | license => intro x hx; simp at hx

/-- A step that was not refused answers without `ERROR 1`, and one that was refused with exactly that. -/
theorem effect_refusal {conf : LveConf} {w : World} (hw : Ample w) {st st' : LveSt} {msg : Bytes} {out : List Bytes}
    (hi : ErrInv st) (he : Effect conf w st msg st' out) :
    (Refusable st.proto msg ∧ st'.proto = st.proto ∧ ∃ r t, out = [r] ∧ ErrorReply 1 t r) ∨
    (NotRefusal out ∧ ∃ c n len, Accepts msg c n len ∧ Allowed st.proto c) := by
  cases he with
  | refused hr h =>
    rcases reply_error (code := 1) h with ⟨r, rfl, h'⟩ | ⟨-, h⟩
    · exact Or.inl ⟨hr, rfl, r, _, rfl, h'⟩
    · exact absurd hw h
  | low hp ha _ h =>
    exact Or.inr ⟨(reply_error (code := 2) h).notRefusal (by decide), _, _, _, ha, by rw [hp]; exact .version⟩
  | version hp ha _ =>
    exact Or.inr ⟨number_notRefusal (by decide) (by decide) (by decide), _, _, _, ha, by rw [hp]; exact .version⟩
  | tools hp ha =>
    exact Or.inr ⟨number_notRefusal (by decide) (by decide) (by decide), _, _, _, ha, by rw [hp]; exact .tools⟩
  | lib hp ha _ h =>
    refine Or.inr ⟨(lib_out h).1, _, _, _, ha, ?_⟩
    rcases hp with hp | hp <;> rw [hp]
    · exact .lib1
    · exact .lib2
  | feature hp ha _ h => exact Or.inr ⟨(feature_out h).1, _, _, _, ha, by rw [hp]; exact .stage (by decide)⟩
  | returnFeature hp ha _ h =>
    exact Or.inr ⟨(returnFeature_out h).1, _, _, _, ha, by rw [hp]; exact .stage (by decide)⟩
  | license hp hc ha _ =>
    refine Or.inr ⟨simple_notRefusal (by decide), _, _, _, ha, ?_⟩
    rw [hp]; rcases hc with rfl | rfl <;> exact .stage (by decide)
  | file hp ha _ h =>
    exact Or.inr ⟨(file_out hi h).1, _, _, _, ha, by rw [hp]; exact .stage (by decide)⟩

/-- **C10.** In every session, the messages that were handled (those not answered by `ERROR 1`) form the
beginning of a legal sequence: VERSION (after any number of versions that are too low), at most one TOOLS,
LIB, then commands of the license stage only. -/
theorem c10_order {conf : LveConf} {k : Option Bytes} {turns : List (World × Bytes)} {st : LveSt}
    {replies : List (List Bytes)} (h : Session conf k turns st replies) (hw : ∀ t ∈ turns, Ample t.1) :
    (∃ cs, Handled turns replies cs) ∧ ∀ cs, Handled turns replies cs → LegalOrder cs := by
  have key : ∀ (turns : List (World × Bytes)) (st0 : LveSt) (replies : List (List Bytes)), ErrInv st0 →
      (∀ t ∈ turns, Ample t.1) → lveRun conf st0 turns = .ok (st, replies) →
      (∃ cs, Handled turns replies cs) ∧ ∀ cs, Handled turns replies cs → OrderFrom st0.proto cs := by
    intro turns
    induction turns with
    | nil =>
      intro st0 replies _ _ hr
      simp only [lveRun, Res.ok.injEq, Prod.mk.injEq] at hr
      obtain ⟨-, rfl⟩ := hr
      refine ⟨⟨[], .nil⟩, ?_⟩
      intro cs hc
      cases hc
      exact orderFrom_nil _
    | cons t ts ih =>
      intro st0 replies hi hw hr
      obtain ⟨w, msg⟩ := t
      obtain ⟨st1, out, outs', h1, h2, rfl⟩ := run_cons hr
      have he := step_effect h1
      have hw0 : Ample w := hw (w, msg) (by simp)
      obtain ⟨⟨cs1, hc1⟩, h3⟩ := ih st1 outs' (errInv_step hi he) (fun t ht => hw t (by simp [ht])) h2
      rcases effect_refusal hw0 hi he with ⟨-, hp, r, t, rfl, h4⟩ | ⟨h4, c, n, len, ha, hal⟩
      · refine ⟨⟨cs1, .refused h4 hc1⟩, ?_⟩
        intro cs hc
        cases hc with
        | refused _ hc => rw [← hp]; exact h3 _ hc
        | handled hn _ _ => exact absurd h4 (hn r (by simp) t)
      · refine ⟨⟨_, .handled h4 ha hc1⟩, ?_⟩
        intro cs hc
        cases hc with
        | refused hh _ => exact absurd hh (h4 _ (by simp) _)
        | handled _ hb hc =>
          obtain ⟨rfl, rfl, -⟩ := accepts_unique ha hb
          exact order_step he ha hal (h3 _ hc)
  obtain ⟨st0, h1, h2⟩ := h
  obtain ⟨ha, hb⟩ := key turns st0 replies (errInv_start h1) hw h2
  refine ⟨ha, fun cs hc => ?_⟩
  have := hb cs hc
  have hp : st0.proto = .version := by rcases start_eq h1 with rfl | rfl <;> rfl
  rw [hp] at this
  exact this

/-- A session in which every kind of message occurs. -/
def fullSession : List Bytes :=
  [b!"LIB 2\n/l", b!"VERSION 0\n", b!"VERSION 2\n", b!"TOOLS\n", b!"TOOLS\n", b!"LIB 3\n/l/",
   b!"FEATURE 1\nf", b!"FILE 4\na.mo", b!"FILE 4\nb.mo", b!"LICENSE 1\nx", b!"RETURNLICENSE 1\nx",
   b!"RETURNFEATURE 1\nf", b!"VERSION 1\n", b!"YES\n"]

example : (repliesOf (session (toyConf [b!"k"] none generous) (some b!"k") (inWorld lib1 fullSession))).map
    (·.map (·.map fun r => r.take 8)) =
    some [[b!"ERROR 1 "], [b!"ERROR 2 "], [b!"VERSION "], [b!"VERSION "], [b!"ERROR 1 "], [b!"YES\n"], [b!"YES\n"],
      [b!"FILECONT"], [b!"ERROR 6 "], [b!"NOTSIMPL"], [b!"NOTSIMPL"], [b!"YES\n"], [b!"ERROR 1 "],
      [b!"ERROR 1 "]] := by decide +kernel
example : ∀ t ∈ inWorld lib1 fullSession, Ample t.1 := by
  intro t ht; simp only [inWorld, List.mem_map] at ht; obtain ⟨m, -, rfl⟩ := ht; exact roomy_ample _ _

/-- The messages still needed before the license stage, from a given state on. -/
def Needs : LveState → List (World × Bytes) → Prop
  | .license, _ => True
  | .lib, ts => ∃ (k : Nat) (t : World × Bytes) (n : Int) (len : Nat), ts[k]? = some t ∧ Accepts t.2 .lib n len
  | .tools, ts => ∃ (k : Nat) (t : World × Bytes) (n : Int) (len : Nat), ts[k]? = some t ∧ Accepts t.2 .lib n len
  | .version, ts => ∃ (j k : Nat) (s t : World × Bytes) (v n : Int) (l len : Nat), j < k ∧
      ts[j]? = some s ∧ Accepts s.2 .version v l ∧ 1 ≤ v ∧ ts[k]? = some t ∧ Accepts t.2 .lib n len

theorem needs_of_run {conf : LveConf} : ∀ {turns : List (World × Bytes)} {st st' : LveSt} {outs : List (List Bytes)},
    lveRun conf st turns = .ok (st', outs) → st'.proto = .license → Needs st.proto turns := by
  intro turns
  induction turns with
  | nil =>
    intro st st' outs h hp
    simp only [lveRun, Res.ok.injEq, Prod.mk.injEq] at h
    rw [← h.1] at hp; rw [hp]; trivial
  | cons t ts ih =>
    intro st st' outs h hp
    obtain ⟨w, msg⟩ := t
    obtain ⟨st1, out, outs', h1, h2, rfl⟩ := run_cons h
    have hn := ih h2 hp
    have shift : ∀ s, Needs s ts → Needs s ((w, msg) :: ts) := by
      intro s hs
      cases s with
      | license => trivial
      | lib => obtain ⟨k, t, n, len, h1, h2⟩ := hs; exact ⟨k + 1, t, n, len, by simpa using h1, h2⟩
      | tools => obtain ⟨k, t, n, len, h1, h2⟩ := hs; exact ⟨k + 1, t, n, len, by simpa using h1, h2⟩
      | version =>
        obtain ⟨j, k, s, t, v, n, l, len, hjk, h1, h2, h3, h4, h5⟩ := hs
        exact ⟨j + 1, k + 1, s, t, v, n, l, len, by omega, by simpa using h1, h2, h3, by simpa using h4, h5⟩
    cases step_effect h1 with
    | refused => exact shift _ hn
    | low => exact shift _ hn
    | version hp1 ha hv =>
      rw [hp1]
      obtain ⟨k, t, n, len, h3, h4⟩ := hn
      exact ⟨0, k + 1, (w, msg), t, _, n, _, len, by omega, rfl, ha, hv, by simpa using h3, h4⟩
    | tools hp1 ha =>
      rw [hp1]
      exact shift .tools hn
    | lib hp1 ha =>
      rcases hp1 with hp1 | hp1 <;> rw [hp1] <;> exact ⟨0, (w, msg), _, _, rfl, ha⟩
    | feature hp1 => rw [hp1]; trivial
    | returnFeature hp1 => rw [hp1]; trivial
    | license hp1 => rw [hp1]; trivial
    | file hp1 => rw [hp1]; trivial

/-- Replies only given in the license stage. -/
def StageReply (r : Bytes) : Prop := OfKind b!"FILECONT" r ∨ OfKind b!"NO" r ∨ OfKind b!"NOTSIMPLE" r

theorem stageReply_not {c : CmdId} (h1 : c ≠ .fileCont) (h2 : c ≠ .no) (h3 : c ≠ .notSimple) {r : Bytes}
    (h : OfKind c.name r) : ¬ StageReply r := by
  rintro (h' | h' | h')
  · exact h1 (kind_unique h (b := .fileCont) h')
  · exact h2 (kind_unique h (b := .no) h')
  · exact h3 (kind_unique h (b := .notSimple) h')

/-- **C10, second form**, whatever the memory situation: a FILECONT, NO or NOTSIMPLE reply to message `i`
means that among the messages before there was a VERSION of at least 1 and, after it, a LIB. -/
theorem c10_served {conf : LveConf} {k : Option Bytes} {turns : List (World × Bytes)} {st : LveSt}
    {replies : List (List Bytes)} (h : Session conf k turns st replies) {i : Nat} {out : List Bytes} {r : Bytes}
    (hi : replies[i]? = some out) (hr : r ∈ out) (hs : StageReply r) :
    ∃ (j l : Nat) (s t : World × Bytes) (v n : Int) (a b : Nat), j < l ∧ l < i ∧ turns[j]? = some s ∧
      Accepts s.2 .version v a ∧ 1 ≤ v ∧ turns[l]? = some t ∧ Accepts t.2 .lib n b := by
  obtain ⟨st0, h1, h2⟩ := h
  have hlen := run_length h2
  have hlt : i < turns.length := by
    have := (List.getElem?_eq_some_iff.1 hi).1; omega
  have hsplit : turns = turns.take i ++ turns[i] :: turns.drop (i + 1) := by
    rw [List.getElem_cons_drop, List.take_append_drop]
  rw [hsplit, run_append, Res.bind_eq_ok] at h2
  obtain ⟨⟨st1, o1⟩, h3, h4⟩ := h2
  rw [Res.bind_eq_ok] at h4
  obtain ⟨⟨st2, o2⟩, h4, h5⟩ := h4
  simp only [Res.ok.injEq, Prod.mk.injEq] at h5
  obtain ⟨rfl, rfl⟩ := h5
  have hl1 : o1.length = i := by rw [run_length h3]; simp; omega
  have hti : turns[i] = (turns[i].1, turns[i].2) := rfl
  rw [hti] at h4
  obtain ⟨st3, out', outs', h6, -, rfl⟩ := run_cons h4
  have : out' = out := by
    rw [List.getElem?_append_right (by omega), hl1] at hi
    simpa using hi
  subst this
  have hp : st1.proto = .license := by
    have hno : ∀ {c : CmdId}, OfKind c.name r → c ≠ .fileCont → c ≠ .no → c ≠ .notSimple → False :=
      fun hk h1 h2 h3 => stageReply_not h1 h2 h3 hk hs
    have herr : OfKind b!"ERROR" r → False := fun hk =>
      hno (c := .error) hk (by decide) (by decide) (by decide)
    cases step_effect h6 with
    | refused _ h => exact (herr (errOut_kind (reply_error (code := 1) h) r hr)).elim
    | low _ _ _ h => exact (herr (errOut_kind (reply_error (code := 2) h) r hr)).elim
    | version =>
      simp only [List.mem_singleton] at hr; subst hr
      exact (hno (number_kind (n := 1) (by decide) (by decide) .version) (by decide) (by decide) (by decide)).elim
    | tools =>
      simp only [List.mem_singleton] at hr; subst hr
      exact (hno (number_kind (n := 4) (by decide) (by decide) .version) (by decide) (by decide) (by decide)).elim
    | lib _ _ _ h =>
      rcases (lib_out h).2.2.2 r hr with h | h
      · exact (herr h).elim
      · exact (hno (c := .yes) h (by decide) (by decide) (by decide)).elim
    | feature hp => exact hp
    | returnFeature hp => exact hp
    | license hp => exact hp
    | file hp => exact hp
  have hp0 : st0.proto = .version := by rcases start_eq h1 with rfl | rfl <;> rfl
  have hn := needs_of_run h3 hp
  rw [hp0] at hn
  obtain ⟨j, l, s, t, v, n, a, b, hjl, h7, h8, h9, h10, h11⟩ := hn
  have hli : l < i := by
    have := (List.getElem?_eq_some_iff.1 h10).1; simp at this; omega
  refine ⟨j, l, s, t, v, n, a, b, hjl, hli, ?_, h8, h9, ?_, h11⟩
  · rw [List.getElem?_take_of_lt (by omega)] at h7; exact h7
  · rw [List.getElem?_take_of_lt (by omega)] at h10; exact h10

example : OfKind b!"FILECONT" b!"FILECONT 14\nmodel a end a;" := Or.inl (by decide)

/-! ## C12 -/

/-- **C12.** Once LIB has been handled (the session is in the license stage), no history of messages changes
the library root. -/
theorem c12_root_fixed {conf : LveConf} {st st' : LveSt} {turns : List (World × Bytes)} {outs : List (List Bytes)}
    (hp : st.proto = .license) (h : lveRun conf st turns = .ok (st', outs)) :
    st'.libpath = st.libpath ∧ st'.pathSize = st.pathSize ∧ st'.proto = .license := by
  refine run_inv (conf := conf)
    (P := fun s => s.libpath = st.libpath ∧ s.pathSize = st.pathSize ∧ s.proto = .license) ?_ ⟨rfl, rfl, hp⟩ h
  rintro w s msg s' out ⟨h1, h2, h3⟩ he
  cases he with
  | refused => exact ⟨h1, h2, h3⟩
  | low => exact ⟨h1, h2, h3⟩
  | version hp => rw [h3] at hp; cases hp
  | tools hp => rw [h3] at hp; cases hp
  | lib hp => rw [h3] at hp; rcases hp with hp | hp <;> cases hp
  | feature _ _ _ h => obtain ⟨b, cs, rfl⟩ := feature_frame h; exact ⟨h1, h2, rfl⟩
  | returnFeature _ _ _ h => obtain ⟨b, cs, rfl⟩ := returnFeature_frame h; exact ⟨h1, h2, rfl⟩
  | license => exact ⟨h1, h2, rfl⟩
  | file _ _ _ h => obtain ⟨t, rfl⟩ := file_frame h; exact ⟨h1, h2, rfl⟩

/-- Every LIB that is handled leads to the license stage, so `c12_root_fixed` applies from then on. -/
theorem c12_lib_is_final {conf : LveConf} {w : World} {st st' : LveSt} {msg : Bytes} {out : List Bytes} {n : Int}
    {len : Nat} (ha : Accepts msg .lib n len) (hal : Allowed st.proto .lib)
    (h : lveStep conf w st msg = .ok (st', out)) : st'.proto = .license := by
  cases step_effect h with
  | refused hr => exact absurd hal ((refusable_iff ha).1 hr)
  | low _ hb => exact absurd (accepts_unique ha hb).1 (by decide)
  | version _ hb => exact absurd (accepts_unique ha hb).1 (by decide)
  | tools _ hb => exact absurd (accepts_unique ha hb).1 (by decide)
  | lib => rfl
  | feature => rfl
  | returnFeature => rfl
  | license => rfl
  | file => rfl

/-- State of a session, for evaluation. -/
def stateOf (r : Res (LveSt × List (List Bytes))) : Option LveSt :=
  match r with
  | .ok (s, _) => some s
  | .ub _ => none

example : (stateOf (session (toyConf [b!"k"] none generous) (some b!"k")
    (inWorld lib1 [b!"VERSION 1\n", b!"LIB 3\n/l/", b!"LIB 2\n/m", b!"FILE 4\na.mo", b!"LIB 0\n"]))).map
      (·.libpath) = some (some b!"/l") := by decide +kernel

/-! ## C13 -/

/-- **C13 is false**: a LIB with an empty path gets no reply at all. -/
theorem c13_empty_lib_not : ∃ st', session (toyConf [b!"k"] none generous) (some b!"k")
    (inWorld lib1 [b!"VERSION 1\n", b!"LIB 0\n"]) = .ok (st', [[b!"VERSION 1\n"], []]) :=
  ⟨_, by rfl⟩

/-- **C13, what holds** (full statement: every message gets exactly one reply; false as shown above).  With
enough memory, every message of a session that the executable survives gets exactly one reply, with one
exception: a LIB in one of the states where it is allowed, whose declared length is 0 or whose header line
contains a NUL, gets none.  Messages that make the executable misbehave are the subject of C24. -/
theorem c13_one_reply_partial {conf : LveConf} {k : Option Bytes} {turns : List (World × Bytes)} {st st' : LveSt}
    {replies : List (List Bytes)} (hs : Session conf k turns st replies) {w : World} (hw : Ample w)
    {msg : Bytes} {out : List Bytes} (h : lveStep conf w st msg = .ok (st', out)) :
    ((∃ r, out = [r]) ∨ out = []) ∧
    (out = [] ↔ ∃ n len, (st.proto = .tools ∨ st.proto = .lib) ∧ Accepts msg .lib n len ∧
      (len = 0 ∨ ∃ line r, msg = line ++ 0 :: r ∧ ∀ b ∈ line, b ≠ 0 ∧ b ≠ 10)) := by
  have hi := errInv_session hs
  have one : ∀ {o}, OneOut w o → ∃ r, o = [r] := by
    rintro o (h | ⟨-, h⟩)
    · exact h
    · exact absurd hw h
  have fin : ∀ {c n len}, Accepts msg c n len → c ≠ .lib → (∃ r, out = [r]) →
      ((∃ r, out = [r]) ∨ out = []) ∧
      (out = [] ↔ ∃ n len, (st.proto = .tools ∨ st.proto = .lib) ∧ Accepts msg .lib n len ∧
      (len = 0 ∨ ∃ line r, msg = line ++ 0 :: r ∧ ∀ b ∈ line, b ≠ 0 ∧ b ≠ 10)) := by
    rintro c n len ha hc ⟨r, rfl⟩
    refine ⟨Or.inl ⟨r, rfl⟩, by simp, ?_⟩
    rintro ⟨n', len', -, hb, -⟩
    exact absurd (accepts_unique ha hb).1 hc
  cases step_effect h with
  | refused hr ho =>
    obtain ⟨r, rfl⟩ := one (reply_error (code := 1) ho).one
    refine ⟨Or.inl ⟨r, rfl⟩, by simp, ?_⟩
    rintro ⟨n, len, hp, ha, -⟩
    refine absurd ?_ ((refusable_iff ha).1 hr)
    rcases hp with hp | hp <;> rw [hp]
    · exact .lib1
    · exact .lib2
  | low _ ha _ ho => exact fin ha (by decide) (one (reply_error (code := 2) ho).one)
  | version _ ha => exact fin ha (by decide) ⟨_, rfl⟩
  | tools _ ha => exact fin ha (by decide) ⟨_, rfl⟩
  | lib hp ha hx ho =>
    obtain ⟨-, h1, h2, -⟩ := lib_out ho
    have hlen := (extractData_id hx).2.2
    have hd := extract_data_none hw hx
    simp only at hlen
    constructor
    · rcases h1 with h1 | ⟨h1, -⟩
      · exact Or.inl (one h1)
      · exact Or.inr h1
    · constructor
      · rintro rfl
        refine ⟨_, _, hp, ha, ?_⟩
        rcases h1 with h1 | ⟨-, h1⟩
        · obtain ⟨r, h1⟩ := one h1; simp at h1
        · rcases h1 with h1 | h1
          · exact Or.inr (hd.1 h1)
          · exact Or.inl (by rw [← hlen]; exact h1)
      · rintro ⟨n', len', -, hb, hc⟩
        obtain ⟨-, -, rfl⟩ := accepts_unique ha hb
        rcases hc with hc | hc
        · exact h2 (Or.inr (by rw [hlen]; exact hc))
        · exact h2 (Or.inl (hd.2 hc))
  | feature _ ha _ ho => exact fin ha (by decide) (one (feature_out ho).2.1)
  | returnFeature _ ha _ ho => exact fin ha (by decide) (one (returnFeature_out ho).2.1)
  | license _ hc ha => exact fin ha (by rcases hc with rfl | rfl <;> decide) ⟨_, rfl⟩
  | file _ ha _ ho => exact fin ha (by decide) (one (file_out hi ho).2.1)

example : (repliesOf (session (toyConf [b!"k"] none generous) (some b!"k") (inWorld lib1 fullSession))).map
    (·.map List.length) = some (List.replicate 14 1) := by decide +kernel

/-! ## C14, vendor executable -/

/-- **C14, executable side.** Before a version is agreed on, VERSION v with v at least 1 is answered by
`VERSION 1` and the session proceeds; a smaller v is answered by one `ERROR 2` that gives the
lowest version, and the session still accepts nothing but VERSION. -/
theorem c14_lve_version {conf : LveConf} {w : World} (hw : Ample w) {st : LveSt} (hp : st.proto = .version)
    {msg : Bytes} {v : Int} {len : Nat} (ha : Accepts msg .version v len) :
    (1 ≤ v → lveStep conf w st msg = .ok ({ st with proto := .tools }, [b!"VERSION 1\n"])) ∧
    (v < 1 → ∃ st' r, lveStep conf w st msg = .ok (st', [r]) ∧
      ErrorReply 2 b!"Minimum supported protocol version is 1" r ∧ SameSession st st' ∧ ∀ c, Allowed st'.proto c ↔ c = .version) := by
  have hstep : lveStep conf w st msg = dispatch conf w st .tools ⟨.version, v, len, none⟩ := by
    unfold lveStep
    rw [if_neg (by simp [hw _]), parse_of_accepts ha]
    simp only [Res.bind_ok, if_true]
    change handleCommand conf w st ⟨.version, v, len, none⟩ msg = _
    unfold handleCommand
    rw [nextState_some (next := .tools) (by simp) (by rw [hp]; rfl)]
    simp [CmdId.form]
  constructor
  · intro hv
    rw [hstep]
    unfold dispatch
    simp only [hp]
    rw [if_neg (by omega)]
    rfl
  · intro hv
    have hr := reply_error_ok hw (code := 2) (by decide) (by decide)
      (t := snprintf lveErrorSize b!"Minimum supported protocol version is 1") (by decide)
    rcases reply_error (code := 2) hr with ⟨r, h1, h2⟩ | ⟨h1, -⟩
    · refine ⟨{ st with errMsg := snprintf lveErrorSize b!"Minimum supported protocol version is 1" }, r, ?_,
        h2, rfl, ?_⟩
      · rw [hstep]
        unfold dispatch
        simp only [hp]
        rw [if_pos hv]
        rw [h1] at hr
        change (do let out ← reply false (sendError w.malloc 2 _); Res.ok (_, out)) = _
        rw [hr]; rfl
      · intro c
        simp only [hp]
        constructor
        · intro h; cases h; rfl
        · rintro rfl; exact .version
    · simp at h1

example : session (toyConf [b!"k"] none generous) (some b!"k") (inWorld lib1 [b!"VERSION 7\n"]) =
    .ok ({ LveSt.initial with proto := .tools, approved := true }, [[b!"VERSION 1\n"]]) := by rfl
example : repliesOf (session (toyConf [b!"k"] none generous) (some b!"k") (inWorld lib1 [b!"VERSION -3\n"])) =
    some [[b!"ERROR 2 39\nMinimum supported protocol version is 1"]] := by decide +kernel

/-! ## C15 -/

/-- **C15.** If the tool's key is not one of the trusted keys, no history of messages yields any file
contents, and every FILE is answered by ERROR messages only; with enough memory by exactly one. -/
theorem c15_untrusted {conf : LveConf} {k : Option Bytes} {turns : List (World × Bytes)} {st : LveSt}
    {replies : List (List Bytes)} (hk : ∀ key ∈ k, ∀ t ∈ conf.trusted, cstr t ≠ cstr key)
    (h : Session conf k turns st replies) :
    List.Forall₂ (fun t out => (∀ r ∈ out, ¬ OfKind b!"FILECONT" r) ∧
      ∀ n len, Accepts t.2 .file n len → (∀ r ∈ out, OfKind b!"ERROR" r) ∧ (Ample t.1 → ∃ r, out = [r]))
      turns replies := by
  obtain ⟨st0, h1, h2⟩ := h
  have hap : st0.approved = false := by
    unfold lveStart validatePubkey at h1
    rw [Res.bind_eq_ok] at h1
    obtain ⟨b, h3, h1⟩ := h1
    have hb : b = false := by
      revert h3
      generalize conf.trusted = ts at hk
      induction ts with
      | nil => intro h3; simp only [validate, Res.ok.injEq] at h3; exact h3.symm
      | cons t ts ih =>
        intro h3
        cases k with
        | none => simp [validate] at h3
        | some key =>
          have := hk key (by simp) t (by simp)
          unfold validate at h3
          simp only [if_neg (Ne.symm this)] at h3
          exact ih (fun key' hk' t' ht' => hk key' hk' t' (by simp [ht'])) h3
    subst hb
    simp only [Bool.false_eq_true, if_false, Res.ok.injEq] at h1
    rw [← h1]
  refine (run_forall (conf := conf) (P := fun s => s.approved = false ∧ ErrInv s)
    (Q := fun t out => (∀ r ∈ out, ¬ OfKind b!"FILECONT" r) ∧
      ∀ n len, Accepts t.2 .file n len → (∀ r ∈ out, OfKind b!"ERROR" r) ∧ (Ample t.1 → ∃ r, out = [r]))
    ?_ ⟨hap, errInv_start h1⟩ h2).2
  rintro w s msg s' out ⟨ha, hi⟩ he
  refine ⟨⟨?_, errInv_step hi he⟩, ?_⟩
  · cases he with
    | refused => exact ha
    | low => exact ha
    | version => exact ha
    | tools => exact ha
    | lib _ _ _ h =>
      have := (lib_frame h).2.1
      cases hb : ({ (_ : LveSt) with proto := LveState.license } : LveSt).approved
      · rfl
      · rw [this hb] at ha; cases ha
    | feature _ _ _ h => obtain ⟨b, cs, rfl⟩ := feature_frame h; exact ha
    | returnFeature _ _ _ h => obtain ⟨b, cs, rfl⟩ := returnFeature_frame h; exact ha
    | license => exact ha
    | file _ _ _ h => obtain ⟨t, rfl⟩ := file_frame h; exact ha
  · have nofc : ∀ {c : CmdId} {r}, OfKind c.name r → c ≠ .fileCont → ¬ OfKind b!"FILECONT" r :=
      fun hk hc hf => hc (kind_unique hk (b := .fileCont) hf)
    have err : ∀ {c t}, ErrOut w c t out → (∀ r ∈ out, ¬ OfKind b!"FILECONT" r) ∧ ∀ n len,
        Accepts msg .file n len → (∀ r ∈ out, OfKind b!"ERROR" r) ∧ (Ample w → ∃ r, out = [r]) := by
      intro c t h
      refine ⟨fun r hr => nofc (c := .error) (errOut_kind h r hr) (by decide), fun _ _ _ => ⟨errOut_kind h, ?_⟩⟩
      intro hw
      rcases h.one with h | ⟨-, h⟩
      · exact h
      · exact absurd hw h
    have not : ∀ {c n len}, Accepts msg c n len → c ≠ .file → (∀ r ∈ out, ¬ OfKind b!"FILECONT" r) →
        (∀ r ∈ out, ¬ OfKind b!"FILECONT" r) ∧ ∀ n len,
        Accepts msg .file n len → (∀ r ∈ out, OfKind b!"ERROR" r) ∧ (Ample w → ∃ r, out = [r]) :=
      fun ha hc h => ⟨h, fun _ _ hb => absurd (accepts_unique ha hb).1 hc⟩
    cases he with
    | refused _ h => exact err (reply_error (code := 1) h)
    | low _ _ _ h => exact err (reply_error (code := 2) h)
    | version _ hb =>
      refine not hb (by decide) ?_
      intro r hr; simp only [List.mem_singleton] at hr; subst hr
      exact nofc (number_kind (n := 1) (by decide) (by decide) .version) (by decide)
    | tools _ hb =>
      refine not hb (by decide) ?_
      intro r hr; simp only [List.mem_singleton] at hr; subst hr
      exact nofc (number_kind (n := 4) (by decide) (by decide) .version) (by decide)
    | lib _ hb _ h =>
      refine not hb (by decide) ?_
      intro r hr
      rcases (lib_out h).2.2.2 r hr with h | h
      · exact nofc (c := .error) h (by decide)
      · exact nofc (c := .yes) h (by decide)
    | feature _ hb _ h =>
      refine not hb (by decide) ?_
      intro r hr
      rcases (feature_out h).2.2 r hr with h | h | h
      · exact nofc (c := .error) h (by decide)
      · exact nofc (c := .yes) h (by decide)
      · exact nofc (c := .no) h (by decide)
    | returnFeature _ hb _ h =>
      refine not hb (by decide) ?_
      intro r hr
      rcases (returnFeature_out h).2.2 r hr with h | h
      · exact nofc (c := .error) h (by decide)
      · exact nofc (c := .yes) h (by decide)
    | license _ hc hb =>
      refine not hb (by rcases hc with rfl | rfl <;> decide) ?_
      intro r hr; simp only [List.mem_singleton] at hr; subst hr
      exact nofc (simple_kind .notSimple) (by decide)
    | file _ _ _ h =>
      obtain ⟨-, h3, h4, -⟩ := file_out hi h
      refine ⟨fun r hr => nofc (c := .error) (h4 ha r hr) (by decide), fun _ _ _ => ⟨h4 ha, fun hw => ?_⟩⟩
      rcases h3 with h | ⟨-, h⟩
      · exact h
      · exact absurd hw h

example : (repliesOf (session (toyConf [b!"k", b!"m"] none generous) (some b!"evil")
    (inWorld lib1 [b!"VERSION 1\n", b!"LIB 2\n/l", b!"FEATURE 1\nf", b!"FILE 4\na.mo"]))).map (·.map (·.map (·.take 8))) =
    some [[b!"VERSION "], [b!"YES\n"], [b!"YES\n"], [b!"ERROR 5 "]] := by decide +kernel

/-! ## C16 -/

/-- **C16.** A tool that presents a key is approved if and only if the key equals one of the trusted keys.
(Keys are C strings, so they contain no NUL.) -/
theorem c16_approved_iff (conf : LveConf) (key : Bytes) (hk : (0 : UInt8) ∉ key)
    (ht : ∀ t ∈ conf.trusted, (0 : UInt8) ∉ t) :
    ∃ st, lveStart conf (some key) = .ok st ∧ (st.approved = true ↔ key ∈ conf.trusted) := by
  have key' : ∀ ts : List Bytes, (∀ t ∈ ts, (0 : UInt8) ∉ t) →
      validate ts (some key) = .ok (decide (key ∈ ts)) := by
    intro ts
    induction ts with
    | nil => intro _; simp [validate]
    | cons t ts ih =>
      intro h
      unfold validate
      have h1 : cstr key = key := cstr_of_noNul fun c hc h0 => hk (h0 ▸ hc)
      have h2 : cstr t = t := cstr_of_noNul fun c hc h0 => h t (by simp) (h0 ▸ hc)
      simp only [h1, h2]
      by_cases hh : key = t
      · simp [hh]
      · rw [if_neg hh, ih (fun t ht => h t (by simp [ht]))]
        simp [hh]
  unfold lveStart validatePubkey
  rw [key' _ ht]
  by_cases hm : key ∈ conf.trusted
  · simp [hm]
  · simp [hm]

example : b!"30" ∈ (toyConf [b!"10", b!"30"] none generous).trusted ∧ (0 : UInt8) ∉ b!"30" ∧
    ∀ t ∈ (toyConf [b!"10", b!"30"] none generous).trusted, (0 : UInt8) ∉ t := by decide

/-- **C16 is false for a client without a certificate**: with at least one trusted key the executable
compares a null pointer. -/
theorem c16_no_certificate_not (conf : LveConf) (ht : conf.trusted ≠ []) :
    lveStart conf none = .ub .nullDeref := by
  unfold lveStart validatePubkey
  cases h : conf.trusted with
  | nil => exact absurd h ht
  | cons t ts => simp [validate]

/-! ## C19 -/

theorem trimLoop_root (path : Bytes) : ∀ n, 1 ≤ n → n ≤ path.length → IsRootOf (path.take n) (trimLoop path n) := by
  intro n
  induction n with
  | zero => omega
  | succ n ih =>
    intro h1 h2
    have hlt : n < path.length := by omega
    have htake : path.take (n + 1) = path.take n ++ [path[n]] := by
      rw [List.take_add_one, List.getElem?_eq_getElem hlt]; rfl
    have hg : path.getD n 0 = path[n] := by simp [List.getD, List.getElem?_eq_getElem hlt]
    unfold trimLoop
    rw [hg]
    by_cases hc : 1 < n + 1 ∧ (path[n] = 92 ∨ path[n] = 47)
    · rw [if_pos hc]
      obtain ⟨seps, e1, e2, e3, e4⟩ := ih (by omega) (by omega)
      refine ⟨seps ++ [path[n]], by rw [htake, ← List.append_assoc, ← e1], ?_, e3, e4⟩
      intro b hb
      simp only [List.mem_append, List.mem_singleton] at hb
      rcases hb with hb | rfl
      · exact e2 b hb
      · exact hc.2.symm
    · rw [if_neg hc]
      refine ⟨[], by simp, by simp, ?_, ?_⟩
      · intro h; have := congrArg List.length h; simp only [List.length_take, List.length_nil] at this; omega
      · by_cases hn : n = 0
        · subst hn; left; simp; omega
        · right
          intro b hb
          rw [htake, List.getLast?_append] at hb
          simp only [List.getLast?_singleton, Option.some_or, Option.mem_def, Option.some.injEq] at hb
          subst hb
          intro hs
          exact hc ⟨by omega, hs.symm⟩

/-- The description determines the root. -/
theorem isRootOf_unique {data r1 r2 : Bytes} (h1 : IsRootOf data r1) (h2 : IsRootOf data r2) : r1 = r2 := by
  have key : ∀ {a b : Bytes}, IsRootOf data a → IsRootOf data b → a.length ≤ b.length → a = b := by
    rintro a b ⟨s1, e1, p1, n1, q1⟩ ⟨s2, e2, p2, n2, q2⟩ hle
    have h : a ++ s1 = b ++ s2 := by rw [← e1, ← e2]
    obtain ⟨x, rfl⟩ : ∃ x, b = a ++ x := by
      have : a <+: b := List.prefix_of_prefix_length_le (l₃ := a ++ s1) (List.prefix_append _ _)
        (by rw [h]; exact List.prefix_append _ _) hle
      obtain ⟨x, rfl⟩ := this; exact ⟨x, rfl⟩
    by_cases hx : x = []
    · simp [hx]
    · exfalso
      have hal : 1 ≤ a.length := by cases a with
        | nil => exact absurd rfl n1
        | cons => simp
      have hxl : 1 ≤ x.length := by cases x with
        | nil => exact absurd rfl hx
        | cons => simp
      rcases q2 with q2 | q2
      · simp at q2; omega
      · have hs1 : s1 = x ++ s2 := by
          rw [List.append_assoc] at h; exact List.append_cancel_left h
        obtain ⟨y, z, rfl⟩ : ∃ y z, x = y ++ [z] := ⟨_, _, (List.dropLast_append_getLast hx).symm⟩
        exact q2 z (by simp) (p1 z (by rw [hs1]; simp))
  rcases Nat.le_total r1.length r2.length with h | h
  · exact key h1 h2 h
  · exact (key h2 h1 h).symm

/-- **C19.** When LIB with non-empty data is handled, the library root of the session is the data without
trailing separators, a path of separators only keeping its first character. -/
theorem c19_root {conf : LveConf} {w : World} {st st' : LveSt} {msg data : Bytes} {out : List Bytes}
    (hal : Allowed st.proto .lib) (hc : Carries msg .lib data) (hne : data ≠ []) (hm : w.malloc (data.length + 1) = true)
    (h : lveStep conf w st msg = .ok (st', out)) :
    ∃ root, st'.libpath = some root ∧ st'.pathSize = root.length ∧ IsRootOf data root := by
  obtain ⟨n, k, ha, hx⟩ := carries_extract (m := w.malloc) hc hm
  have hlt := accepts_length_lt ha
  cases step_effect h with
  | refused hr => exact absurd hal ((refusable_iff ha).1 hr)
  | low _ hb => exact absurd (accepts_unique ha hb).1 (by decide)
  | version _ hb => exact absurd (accepts_unique ha hb).1 (by decide)
  | tools _ hb => exact absurd (accepts_unique ha hb).1 (by decide)
  | lib _ hb hx' hl =>
    obtain ⟨-, rfl, rfl⟩ := accepts_unique ha hb
    rw [hx] at hx'
    simp only [Res.ok.injEq, Prod.mk.injEq] at hx'
    obtain ⟨rfl, rfl⟩ := hx'
    have hdl : data.length ≠ 0 := by
      intro h0; exact hne (List.length_eq_zero_iff.1 h0)
    have hroot := trimLoop_root data data.length (by omega) (Nat.le_refl _)
    rw [List.take_length] at hroot
    refine ⟨trimLoop data data.length, ?_⟩
    have hgl : ∀ {s s' : LveSt} {a}, globalLicense conf s = (s', a) →
        s'.libpath = s.libpath ∧ s'.pathSize = s.pathSize := by
      intro s s' a hg
      rcases global_cases hg with ⟨-, rfl, -⟩ | ⟨m, -, -, -, -, -, rfl⟩ | ⟨g, cs, -, -, -, rfl, -⟩ <;> simp
    rcases lib_cases hl with ⟨hn, -⟩ | ⟨buf, d, hd, -, hr, h3⟩
    · simp [hdl] at hn
    · simp only [Option.some.injEq] at hd
      subst hd
      have hread := readCells_map_some data [some 0]
      simp only at hr
      rw [hread] at hr
      simp only [Res.ok.injEq] at hr
      subst hr
      rcases h3 with ⟨-, -, -, rfl⟩ | ⟨st1, m, hg, -, -, rfl⟩ | ⟨st1, hg, -, hv⟩
      · exact ⟨rfl, rfl, hroot⟩
      · obtain ⟨e1, e2⟩ := hgl hg
        exact ⟨e1, e2, hroot⟩
      · obtain ⟨e1, e2⟩ := hgl hg
        rcases validateDirectory_cases hv with ⟨-, rfl, -⟩ | ⟨m, -, -, rfl⟩
        · exact ⟨e1, e2, hroot⟩
        · exact ⟨e1, e2, hroot⟩
  | feature hp => rw [hp] at hal; cases hal with | stage h => simp [licenseStage] at h
  | returnFeature hp => rw [hp] at hal; cases hal with | stage h => simp [licenseStage] at h
  | license hp => rw [hp] at hal; cases hal with | stage h => simp [licenseStage] at h
  | file hp => rw [hp] at hal; cases hal with | stage h => simp [licenseStage] at h

example : (stateOf (session (toyConf [b!"k"] none generous) (some b!"k")
    (inWorld lib1 [b!"VERSION 1\n", b!"LIB 5\n/l/\\/"]))).map (·.libpath) = some (some b!"/l") := by decide +kernel
example : (stateOf (session (toyConf [b!"k"] none generous) (some b!"k")
    (inWorld lib1 [b!"VERSION 1\n", b!"LIB 3\n///"]))).map (·.libpath) = some (some b!"/") := by decide +kernel
example : IsRootOf b!"/l/\\/" b!"/l" :=
  ⟨b!"/\\/", by decide, by intro b hb; unfold IsSep; revert b; decide, by decide, Or.inr (by
    intro b hb; simp at hb; subst hb; unfold IsSep; decide)⟩

/-! ## C25, vendor executable -/

/-- **C25, executable side.** In the license stage LICENSE and RETURNLICENSE are always answered by exactly
one NOTSIMPLE, with no effect on the session. -/
theorem c25_lve_notsimple {conf : LveConf} {w : World} {st : LveSt} {msg data : Bytes} {c : CmdId}
    (hc : c = .license ∨ c = .returnLicense) (hp : st.proto = .license) (hcar : Carries msg c data)
    (hm : w.malloc (msg.length + 1) = true) :
    lveStep conf w st msg = .ok (st, [b!"NOTSIMPLE\n"]) := by
  have hform : c.form = .length := by rcases hc with rfl | rfl <;> rfl
  obtain ⟨line, part, n, hl, hmsg, ha, ht, hpl⟩ := hcar
  have hext : ∃ cmd, extractData w.malloc ⟨c, n, data.length, none⟩ msg = .ok cmd ∧ cmd.1.id = c := by
    have : line ++ b!"\n" ++ part = line ++ 10 :: part := by simp
    rw [hmsg, this, extractData_line hl _ (accepts_length_lt ha)]
    by_cases hmm : w.malloc (data.length + 1) = true
    · simp [hmm, hpl]
    · simp [hmm]
  obtain ⟨⟨cmd, k⟩, hx, hid⟩ := hext
  simp only at hid
  unfold lveStep
  rw [if_neg (by simp [hm]), parse_of_accepts ha]
  simp only [Res.bind_ok, if_true]
  change handleCommand conf w st ⟨c, n, data.length, none⟩ msg = _
  unfold handleCommand
  rw [nextState_some (next := .license) (by rcases hc with rfl | rfl <;> simp)
    (by rw [hp]; rcases hc with rfl | rfl <;> rfl)]
  simp only [Res.bind_ok, hform, if_true, hx]
  unfold dispatch
  have hns : sendSimple .notSimple = b!"NOTSIMPLE\n" := by decide
  obtain ⟨proto, e, a, b, c', d, f, g, i, j⟩ := st
  simp only at hp
  subst hp
  rcases hc with rfl | rfl <;> simp [hid, hns]

example : Carries b!"LICENSE 3\nfoo" .license b!"foo" := by
  refine ⟨b!"LICENSE 3", b!"foo", 0, by decide, by decide, ?_, by decide, by decide⟩
  have : Denotes b!"3" 3 := ⟨[], [], b!"3", [], by decide, by simp, by simp, by simp, by decide, by simp,
    by decide⟩
  exact .len (name := b!"LICENSE") (w := b!"3") (n := 3) (by decide) (by decide) this (by decide)

end Semla.Props
