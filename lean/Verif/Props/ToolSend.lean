import Verif.Lemmas.Tool
import Verif.Props.Tool

/-!
# C67: what the tool's calls send

Every call of the tool's interface puts its own command, with the argument it was given, on the wire, and
nothing else.
-/

set_option linter.unusedSimpArgs false

namespace Semla.Props

open Semla Semla.Spec

theorem expectCommand_wire {m : Nat → Bool} {t t' : Tool} {c : CmdId} {loc : ErrLoc} {r : ToolOut Command}
    (h : expectCommand m t c loc = .ok (r, t')) : t'.wire = t.wire ∧ t'.wevs = t.wevs := by
  unfold expectCommand at h
  obtain ⟨⟨r1, c1⟩, -, h⟩ := Res.bind_eq_ok.1 h
  dsimp only at h
  cases r1 with
  | blocked => simp at h; simp [← h.2]
  | fail l => simp at h; simp [← h.2]
  | done cmd l =>
    dsimp only at h
    split at h
    · obtain ⟨l2, -, h⟩ := Res.bind_eq_ok.1 h; simp at h; simp [← h.2]
    · split at h
      · obtain ⟨l2, -, h⟩ := Res.bind_eq_ok.1 h; simp at h; simp [← h.2]
      · simp at h; simp [← h.2]

theorem expectCommands_wire {m : Nat → Bool} {t t' : Tool} {c : CmdId} {cs : List CmdId} {loc : ErrLoc}
    {r : ToolOut Command} (h : expectCommands m t c cs loc = .ok (r, t')) :
    t'.wire = t.wire ∧ t'.wevs = t.wevs := by
  unfold expectCommands at h
  obtain ⟨⟨r1, c1⟩, -, h⟩ := Res.bind_eq_ok.1 h
  dsimp only at h
  cases r1 with
  | blocked => simp at h; simp [← h.2]
  | fail l => simp at h; simp [← h.2]
  | done cmd l =>
    dsimp only at h
    split at h
    · obtain ⟨l2, -, h⟩ := Res.bind_eq_ok.1 h; simp at h; simp [← h.2]
    · split at h
      · simp at h; simp [← h.2]
      · split at h
        · obtain ⟨x, -, h⟩ := Res.bind_eq_ok.1 h
          obtain ⟨l2, -, h⟩ := Res.bind_eq_ok.1 h; simp at h; simp [← h.2]
        · obtain ⟨l2, -, h⟩ := Res.bind_eq_ok.1 h; simp at h; simp [← h.2]

/-- What a call does first: it sends, and what follows does not write. -/
theorem toolSend_wire {m : Nat → Bool} {t t' : Tool} {c : CmdId} {s : Bytes} {b : Bool} (h0 : (0 : UInt8) ∉ s)
    (hl : s.length < 2 ^ 63) (h : t.sendString m c s = .ok (b, t')) :
    ∃ msg, Message c.name s msg ∧ (t'.wire = t.wire ∨ t'.wire = t.wire ++ [msg]) ∧
      ∀ after, (∀ n, m n = true) → Writes t.wevs after → b = true ∧ t'.wire = t.wire ++ [msg] ∧ t'.wevs = after := by
  have hc := cstr_of_noNul (fun c hc => by rintro rfl; exact h0 hc)
  refine ⟨_, ⟨_, decNat_numeral _, rfl⟩, ?_, ?_⟩
  · unfold Tool.sendString sendString Tool.write at h
    rw [hc, send_length_aux c s hl] at h
    split at h
    · simp only [Res.bind_ok] at h
      rcases hw : sslWriteMessage (line2 c.name (decNat s.length) ++ s) t.wevs with ⟨_ | ⟨n, b⟩, r⟩
      · simp [hw] at h; left; simp [← h.2]
      · simp only [hw, Res.ok.injEq, Prod.mk.injEq] at h
        rw [← h.2]
        have hb : b = [] ∨ b = line2 c.name (decNat s.length) ++ s := by
          have : ∀ w : List WEv, ∀ n b r, sslWriteMessage (line2 c.name (decNat s.length) ++ s) w = (some (n, b), r) →
              b = [] ∨ b = line2 c.name (decNat s.length) ++ s := by
            intro w
            induction w with
            | nil => intro n b r h; simp [sslWriteMessage] at h
            | cons e w ih =>
              intro n b r h
              cases e with
              | written => simp only [sslWriteMessage, Prod.mk.injEq, Option.some.injEq] at h; exact .inr h.1.2.symm
              | zero => simp only [sslWriteMessage, Prod.mk.injEq, Option.some.injEq] at h; exact .inl h.1.2.symm
              | fail c => simp only [sslWriteMessage, Prod.mk.injEq, Option.some.injEq] at h; exact .inl h.1.2.symm
              | wantWrite => exact ih n b r h
          exact this _ _ _ _ hw
        rcases hb with rfl | rfl
        · left; simp
        · right
          show (if _ = [] then _ else _) = _
          rw [if_neg (by simp [line2])]
    · simp only [Res.bind_ok, Res.ok.injEq, Prod.mk.injEq] at h
      left; rw [← h.2]
  · intro after hm hw
    have : m = fun _ => true := funext hm
    subst this
    rw [toolSend_writes hw c s (by rw [hc]; exact hl), hc] at h
    simp only [Res.ok.injEq, Prod.mk.injEq] at h
    rw [← h.2, ← h.1]
    simp

/-- **C67.** A call that passes on a string (which has no NUL, being a C string) puts at most one message on
the wire, namely the command that belongs to the call with this string; if there is memory for it and the
connection takes it, the message is sent, once. -/
theorem c67_request {m : Nat → Bool} {t t' : Tool} {arg name : Bytes} {loc : ErrLoc} {ok : Bool}
    (h0 : (0 : UInt8) ∉ arg) (hl : arg.length < 2 ^ 63) (h : Ran m t arg loc name ok t') :
    ∃ msg, Message name arg msg ∧ (t'.wire = t.wire ∨ t'.wire = t.wire ++ [msg]) ∧
      ∀ after, (∀ n, m n = true) → Writes t.wevs after → t'.wire = t.wire ++ [msg] ∧ t'.wevs = after := by
  have yes : ∀ (c : CmdId) (out : ToolOut Unit), sendExpectYes m t c arg loc = .ok (out, t') →
      ∃ msg, Message c.name arg msg ∧ (t'.wire = t.wire ∨ t'.wire = t.wire ++ [msg]) ∧
        ∀ after, (∀ n, m n = true) → Writes t.wevs after → t'.wire = t.wire ++ [msg] ∧ t'.wevs = after := by
    intro c out h
    unfold sendExpectYes at h
    obtain ⟨⟨b, t1⟩, hs, h⟩ := Res.bind_eq_ok.1 h
    obtain ⟨msg, h1, h2, h3⟩ := toolSend_wire h0 hl hs
    have hk : t'.wire = t1.wire ∧ t'.wevs = t1.wevs := by
      cases b with
      | false => simp at h; simp [← h.2]
      | true =>
        dsimp only at h
        obtain ⟨⟨r, t2⟩, he, h⟩ := Res.bind_eq_ok.1 h
        have := expectCommand_wire he
        cases r <;> simp at h <;> simp [← h.2, this]
    refine ⟨msg, h1, by rw [hk.1]; exact h2, fun after hm hw => ?_⟩
    have := h3 after hm hw
    rw [hk.1, hk.2]; exact this.2
  cases h with
  | libpath h => exact yes .lib _ h
  | returnFeature h => exact yes .returnFeature _ h
  | returnLicense h => exact yes .returnLicense _ h
  | feature h =>
    unfold toolFeature at h
    obtain ⟨⟨b, t1⟩, hs, h⟩ := Res.bind_eq_ok.1 h
    obtain ⟨msg, h1, h2, h3⟩ := toolSend_wire h0 hl hs
    have hk : t'.wire = t1.wire ∧ t'.wevs = t1.wevs := by
      cases b with
      | false => simp at h; simp [← h.2]
      | true =>
        dsimp only at h
        obtain ⟨⟨r, t2⟩, he, h⟩ := Res.bind_eq_ok.1 h
        have := expectCommands_wire he
        cases r with
        | blocked => simp at h; simp [← h.2, this]
        | failed l => simp at h; simp [← h.2, this]
        | success cmd l =>
          dsimp only at h
          split at h
          · simp at h; simp [← h.2, this]
          · split at h
            · obtain ⟨l2, -, h⟩ := Res.bind_eq_ok.1 h; simp at h; simp [← h.2, this]
            · simp at h
    refine ⟨msg, h1, by rw [hk.1]; exact h2, fun after hm hw => ?_⟩
    rw [hk.1, hk.2]; exact (h3 after hm hw).2
  | license h =>
    unfold toolLicense at h
    obtain ⟨⟨b, t1⟩, hs, h⟩ := Res.bind_eq_ok.1 h
    obtain ⟨msg, h1, h2, h3⟩ := toolSend_wire h0 hl hs
    have hk : t'.wire = t1.wire ∧ t'.wevs = t1.wevs := by
      cases b with
      | false => simp at h; simp [← h.2]
      | true =>
        dsimp only at h
        obtain ⟨⟨r, t2⟩, he, h⟩ := Res.bind_eq_ok.1 h
        have := expectCommands_wire he
        cases r with
        | blocked => simp at h; simp [← h.2, this]
        | failed l => simp at h; simp [← h.2, this]
        | success cmd l =>
          dsimp only at h
          split at h
          · simp at h; simp [← h.2, this]
          · split at h
            · obtain ⟨l2, -, h⟩ := Res.bind_eq_ok.1 h; simp at h; simp [← h.2, this]
            · split at h
              · obtain ⟨l2, -, h⟩ := Res.bind_eq_ok.1 h; simp at h; simp [← h.2, this]
              · simp at h
    refine ⟨msg, h1, by rw [hk.1]; exact h2, fun after hm hw => ?_⟩
    rw [hk.1, hk.2]; exact (h3 after hm hw).2
  | file h =>
    unfold toolFile at h
    obtain ⟨⟨b, t1⟩, hs, h⟩ := Res.bind_eq_ok.1 h
    obtain ⟨msg, h1, h2, h3⟩ := toolSend_wire h0 hl hs
    have hk : t'.wire = t1.wire ∧ t'.wevs = t1.wevs := by
      cases b with
      | false => simp at h; simp [← h.2]
      | true =>
        dsimp only at h
        obtain ⟨⟨r, t2⟩, he, h⟩ := Res.bind_eq_ok.1 h
        have := expectCommand_wire he
        cases r with
        | blocked => simp at h; simp [← h.2, this]
        | failed l => simp at h; simp [← h.2, this]
        | success cmd l =>
          dsimp only at h
          split at h
          · simp at h; simp [← h.2, this]
          · obtain ⟨l2, -, h⟩ := Res.bind_eq_ok.1 h; simp at h; simp [← h.2, this]
    refine ⟨msg, h1, by rw [hk.1]; exact h2, fun after hm hw => ?_⟩
    rw [hk.1, hk.2]; exact (h3 after hm hw).2

example : Ran (fun _ => true) (online [.record b!"YES\n" []]) b!"f" (some none) b!"FEATURE" true
    ⟨fresh [], [], [b!"FEATURE 1\nf"]⟩ :=
  .feature (out := .success () (some none)) (by decide +kernel)

example : Writes (online []).wevs [] := ⟨0, rfl⟩

/-- **C67, version.** `mlle_tool_version` sends VERSION with the highest version the tool can do, and unlike
the other calls it succeeds only if it has sent it. -/
theorem c67_version {m : Nat → Bool} {t t' : Tool} {minV maxV : Int} {loc : ErrLoc} {out : ToolOut Unit}
    (h1 : -2 ^ 63 ≤ maxV) (h2 : maxV ≤ 2 ^ 63 - 1) (h : toolVersion m t minV maxV loc = .ok (out, t')) :
    ∃ ds, IsNumeral maxV.natAbs ds ∧
      (t'.wire = t.wire ∧ out.isSuccess = false ∨
        t'.wire = t.wire ++ [line2 b!"VERSION" (if maxV < 0 then 45 :: ds else ds)]) ∧
      ∀ after, Writes t.wevs after →
        t'.wire = t.wire ++ [line2 b!"VERSION" (if maxV < 0 then 45 :: ds else ds)] ∧ t'.wevs = after := by
  refine ⟨_, decNat_numeral _, ?_⟩
  have hm : sendNumber .version maxV = line2 b!"VERSION" (if maxV < 0 then 45 :: decNat maxV.natAbs else decNat maxV.natAbs) :=
    send_number_aux .version maxV (by unfold longMin; omega) (by unfold longMax; omega)
  rw [← hm]
  have hne : sendNumber .version maxV ≠ [] := by rw [hm]; simp [line2]
  unfold toolVersion at h
  rcases hw : t.write (sendNumber .version maxV) with ⟨_ | n, t1⟩
  · rw [hw] at h; simp only [Res.ok.injEq, Prod.mk.injEq] at h
    obtain ⟨rfl, rfl⟩ := h
    unfold Tool.write at hw
    split at hw
    · next hww =>
      simp only [Prod.mk.injEq] at hw
      refine ⟨.inl ⟨by simp [← hw.2], rfl⟩, fun after hwr => ?_⟩
      rw [write_writes hwr] at hww; simp at hww
    · simp at hw
  · rw [hw] at h; dsimp only at h
    unfold Tool.write at hw
    split at hw
    · simp at hw
    · next k b r hww =>
      simp only [Prod.mk.injEq, Option.some.injEq] at hw
      obtain ⟨rfl, rfl⟩ := hw
      have hb : (k < 0 ∧ b = []) ∨ (0 ≤ k ∧ b = sendNumber .version maxV) := by
        have : ∀ w : List WEv, ∀ n b r, sslWriteMessage (sendNumber .version maxV) w = (some (n, b), r) →
            (n < 0 ∧ b = []) ∨ (0 ≤ n ∧ b = sendNumber .version maxV) := by
          intro w
          induction w with
          | nil => intro n b r h; simp [sslWriteMessage] at h
          | cons e w ih =>
            intro n b r h
            cases e with
            | written =>
              simp only [sslWriteMessage, Prod.mk.injEq, Option.some.injEq] at h
              exact .inr ⟨by omega, h.1.2.symm⟩
            | zero =>
              simp only [sslWriteMessage, Prod.mk.injEq, Option.some.injEq] at h
              exact .inl ⟨by omega, h.1.2.symm⟩
            | fail c =>
              simp only [sslWriteMessage, Prod.mk.injEq, Option.some.injEq] at h
              exact .inl ⟨by omega, h.1.2.symm⟩
            | wantWrite => exact ih n b r h
        exact this _ _ _ _ hww
      rcases hb with ⟨hk, rfl⟩ | ⟨hk, rfl⟩
      · rw [if_pos hk] at h
        simp only [Res.ok.injEq, Prod.mk.injEq] at h
        obtain ⟨rfl, rfl⟩ := h
        refine ⟨.inl ⟨by simp, rfl⟩, fun after hwr => ?_⟩
        rw [write_writes hwr] at hww
        simp only [Prod.mk.injEq, Option.some.injEq] at hww
        exact absurd hww.1.2 hne
      · rw [if_neg (by omega)] at h
        obtain ⟨⟨r1, t2⟩, he, h⟩ := Res.bind_eq_ok.1 h
        have hx := expectCommand_wire he
        have hk : t'.wire = t2.wire ∧ t'.wevs = t2.wevs := by
          cases r1 with
          | blocked => simp at h; simp [← h.2]
          | failed l => simp at h; simp [← h.2]
          | success cmd l =>
            dsimp only at h
            split at h
            · obtain ⟨l2, -, h⟩ := Res.bind_eq_ok.1 h; simp at h; simp [← h.2]
            · split at h
              · obtain ⟨l2, -, h⟩ := Res.bind_eq_ok.1 h; simp at h; simp [← h.2]
              · simp at h; simp [← h.2]
        rw [hk.1, hk.2, hx.1, hx.2]
        dsimp only
        rw [if_neg hne]
        refine ⟨.inr rfl, fun after hwr => ?_⟩
        rw [write_writes hwr] at hww
        simp only [Prod.mk.injEq] at hww
        exact ⟨rfl, hww.2.symm⟩

example : toolVersion (fun _ => true) (online [.record b!"VERSION 1\n" []]) (-3) 7 (some none) =
    .ok (.success () (some none), ⟨fresh [], [], [b!"VERSION 7\n"]⟩) := by decide +kernel

/-- **C67, negation of its last part.** `mlle_send_length_form` ignores what `ssl_write_message` returns
(mlle_io.c:230-232) and sends nothing if there is no memory: a call can succeed although its request never
left the tool, or wait for an answer to it. -/
theorem c67_unsent_not :
    Ran (fun _ => true) ⟨fresh [.record b!"YES\n" []], [.fail 5], []⟩ b!"f" (some none) b!"FEATURE" true
      ⟨fresh [], [], []⟩ ∧
    toolFeature (fun _ => true) ⟨fresh [], [.fail 5], []⟩ b!"f" (some none) = .ok (.blocked, ⟨fresh [], [], []⟩) ∧
    toolFeature (fun n => n ≠ numberBufSize + 2) ⟨fresh [], [.written], []⟩ b!"f" (some none) =
      .ok (.blocked, ⟨fresh [], [.written], []⟩) :=
  ⟨.feature (out := .success () (some none)) (by decide +kernel), by decide +kernel, by decide +kernel⟩

end Semla.Props
