import Verif.Spec.Lve
import Verif.Lemmas.Wire

/-! # Helper lemmas: one step of a session -/

set_option linter.unusedSimpArgs false

namespace Semla

open Semla.Spec

theorem allowed_iff (s : LveState) (c : CmdId) : Allowed s c ↔ (validNext c s).isSome = true := by
  constructor
  · rintro (_ | _ | _ | _ | h)
    · rfl
    · rfl
    · rfl
    · rfl
    · simp [licenseStage] at h
      rcases h with rfl | rfl | rfl | rfl | rfl <;> rfl
  · intro h
    cases s <;> cases c <;> simp [validNext] at h
    · exact .version
    · exact .tools
    · exact .lib1
    · exact .lib2
    all_goals exact .stage (by decide)

/-- What a handled command may do. -/
inductive Effect (conf : LveConf) (w : World) (st : LveSt) (msg : Bytes) : LveSt → List Bytes → Prop where
  | refused {text : Bytes} {m : Bytes} {out} : Refusable st.proto msg →
      reply false (sendError w.malloc 1 (some text)) = .ok out →
      Effect conf w st msg { st with errMsg := m } out
  | low {n len} {m : Bytes} {out} : st.proto = .version → Accepts msg .version n len → n < 1 →
      reply false (sendError w.malloc 2 (some b!"Minimum supported protocol version is 1")) = .ok out →
      Effect conf w st msg { st with errMsg := m } out
  | version {n len} : st.proto = .version → Accepts msg .version n len → 1 ≤ n →
      Effect conf w st msg { st with proto := .tools } [sendNumber .version 1]
  | tools {n len} : st.proto = .tools → Accepts msg .tools n len →
      Effect conf w st msg { st with proto := .lib } [sendNumber .version 4]
  | lib {n len cmd k st1 out ok} : st.proto = .tools ∨ st.proto = .lib → Accepts msg .lib n len →
      extractData w.malloc ⟨.lib, n, len, none⟩ msg = .ok (cmd, k) →
      lveLibpath conf w false st cmd = .ok (st1, out, ok) →
      Effect conf w st msg { st1 with proto := .license } out
  | feature {n len cmd k st1 out ok} : st.proto = .license → Accepts msg .feature n len →
      extractData w.malloc ⟨.feature, n, len, none⟩ msg = .ok (cmd, k) →
      lveFeature conf w false st cmd = .ok (st1, out, ok) →
      Effect conf w st msg { st1 with proto := .license } out
  | returnFeature {n len cmd k st1 out} : st.proto = .license → Accepts msg .returnFeature n len →
      extractData w.malloc ⟨.returnFeature, n, len, none⟩ msg = .ok (cmd, k) →
      lveReturnFeature conf w st cmd = .ok (st1, out) →
      Effect conf w st msg { st1 with proto := .license } out
  | license {c n len cmd k} : st.proto = .license → c = .license ∨ c = .returnLicense →
      Accepts msg c n len →
      extractData w.malloc ⟨c, n, len, none⟩ msg = .ok (cmd, k) →
      Effect conf w st msg { st with proto := .license } [sendSimple .notSimple]
  | file {n len cmd k st1 out} : st.proto = .license → Accepts msg .file n len →
      extractData w.malloc ⟨.file, n, len, none⟩ msg = .ok (cmd, k) →
      lveFile conf w st cmd = .ok (st1, out) →
      Effect conf w st msg { st1 with proto := .license } out

theorem accepts_defined {msg : Bytes} {c : CmdId} {n : Int} {len : Nat} (h : Accepts msg c n len) :
    c ≠ .undefined := by
  cases h with
  | plain hm _ => simp [commands] at hm; rcases hm with ⟨rfl, -⟩ | ⟨rfl, -⟩ | ⟨rfl, -⟩ <;> simp
  | num hm _ _ => simp [commands] at hm; rcases hm with ⟨rfl, -⟩; simp
  | len hm _ _ _ =>
    simp [commands] at hm
    rcases hm with ⟨rfl, -⟩ | ⟨rfl, -⟩ | ⟨rfl, -⟩ | ⟨rfl, -⟩ | ⟨rfl, -⟩ | ⟨rfl, -⟩ | ⟨rfl, -⟩ | ⟨rfl, -⟩ |
      ⟨rfl, -⟩ <;> simp
  | numLen hm _ _ _ => simp [commands] at hm; rcases hm with ⟨rfl, -⟩; simp

theorem extractData_id {m : Nat → Bool} {cmd cmd' : Command} {buf : Bytes} {k : Nat}
    (h : extractData m cmd buf = .ok (cmd', k)) :
    cmd'.id = cmd.id ∧ cmd'.number = cmd.number ∧ cmd'.length = cmd.length := by
  unfold extractData at h
  split at h
  · cases h
  · simp only [Res.ok.injEq, Prod.mk.injEq] at h
    obtain ⟨rfl, -⟩ := h; simp
  · simp only at h
    split at h
    · rw [Res.bind_eq_ok] at h
      obtain ⟨c1, -, h⟩ := h
      rw [Res.bind_eq_ok] at h
      obtain ⟨c2, -, h⟩ := h
      simp only [Res.ok.injEq, Prod.mk.injEq] at h
      obtain ⟨rfl, -⟩ := h; simp
    · simp only [Res.ok.injEq, Prod.mk.injEq] at h
      obtain ⟨rfl, -⟩ := h; simp

theorem nextState_some {cap : Nat} {s next : LveState} {c : CmdId} {e : Bytes} (hc : c ≠ .undefined)
    (h : validNext c s = some next) : nextState cap s c e = .ok (some next, e) := by
  simp [nextState, hc, h]

theorem nextState_none (cap : Nat) {s : LveState} {c : CmdId} (e : Bytes) (hc : c ≠ .undefined)
    (h : validNext c s = none) : ∃ m, nextState cap s c e = .ok (none, m) ∧ m.length ≤ cap - 1 := by
  cases s <;> cases c <;> first | (exact absurd rfl hc) | (simp [validNext] at h; done) |
    exact ⟨_, rfl, snprintf_length _ _⟩

theorem accepts_number {msg : Bytes} {c : CmdId} {n : Int} {len : Nat} (h : Accepts msg c n len)
    (hc : c.form = .length) : n = 0 := by
  cases h with
  | plain hm _ => rfl
  | len hm _ _ _ => rfl
  | num hm _ _ => simp [commands] at hm; rcases hm with ⟨rfl, -⟩; simp [CmdId.form] at hc
  | numLen hm _ _ _ => simp [commands] at hm; rcases hm with ⟨rfl, -⟩; simp [CmdId.form] at hc

/-- Inversion of one step. -/
theorem step_effect {conf : LveConf} {w : World} {st st' : LveSt} {msg : Bytes} {out : List Bytes}
    (h : lveStep conf w st msg = .ok (st', out)) : Effect conf w st msg st' out := by
  unfold lveStep at h
  split at h
  · cases h
  rcases accepts_or_rejected msg with ⟨c, n, len, ha⟩ | ⟨g, hr, hg⟩
  · rw [parse_of_accepts ha] at h
    simp only [Res.bind_ok, if_true] at h
    change handleCommand conf w st ⟨c, n, len, none⟩ msg = _ at h
    unfold handleCommand at h
    have hcd := accepts_defined ha
    cases hv : validNext c st.proto with
    | none =>
      have hrf : Refusable st.proto msg := Or.inr ⟨c, n, len, ha, by rw [allowed_iff, hv]; simp⟩
      obtain ⟨m, h1, -⟩ := nextState_none lveErrorSize st.errMsg hcd hv
      simp only [h1, Res.bind_ok] at h
      rw [Res.bind_eq_ok] at h
      obtain ⟨out', h2, h3⟩ := h
      simp only [Res.ok.injEq, Prod.mk.injEq] at h3
      obtain ⟨rfl, rfl⟩ := h3
      exact .refused hrf h2
    | some next =>
      rw [nextState_some hcd hv] at h
      simp only [Res.bind_ok] at h
      cases hp : st.proto <;> cases c <;> rw [hp] at hv <;> simp [validNext] at hv <;> subst hv <;>
        simp only [CmdId.form, reduceCtorEq, if_true, if_false, Res.bind_ok] at h
      · -- VERSION
        unfold dispatch at h
        simp only [hp] at h
        split at h
        · rename_i hn
          rw [Res.bind_eq_ok] at h
          obtain ⟨out', h2, h3⟩ := h
          simp only [Res.ok.injEq, Prod.mk.injEq] at h3
          obtain ⟨rfl, rfl⟩ := h3
          have := Effect.low (conf := conf) (m := snprintf lveErrorSize
            b!"Minimum supported protocol version is 1") hp ha hn h2
          rw [hp] at this
          exact this
        · rename_i hn
          simp only [Res.ok.injEq, Prod.mk.injEq] at h
          obtain ⟨rfl, rfl⟩ := h
          exact .version hp ha (by omega)
      · -- TOOLS
        unfold dispatch at h
        simp only [hp, if_true, Res.ok.injEq, Prod.mk.injEq] at h
        obtain ⟨rfl, rfl⟩ := h
        exact .tools hp ha
      all_goals
        rw [Res.bind_eq_ok] at h
        obtain ⟨⟨cmd, k⟩, h1, h⟩ := h
        have hid := (extractData_id h1).1
        simp only at hid
        unfold dispatch at h
        simp only [hp, hid, reduceCtorEq, if_true, if_false, or_true, true_or, or_self] at h
      · rw [Res.bind_eq_ok] at h
        obtain ⟨⟨st1, out', ok⟩, h2, h3⟩ := h
        simp only [Res.ok.injEq, Prod.mk.injEq] at h3
        obtain ⟨rfl, rfl⟩ := h3
        exact .lib (Or.inl hp) ha h1 h2
      · rw [Res.bind_eq_ok] at h
        obtain ⟨⟨st1, out', ok⟩, h2, h3⟩ := h
        simp only [Res.ok.injEq, Prod.mk.injEq] at h3
        obtain ⟨rfl, rfl⟩ := h3
        exact .lib (Or.inr hp) ha h1 h2
      · rw [Res.bind_eq_ok] at h
        obtain ⟨⟨st1, out', ok⟩, h2, h3⟩ := h
        simp only [Res.ok.injEq, Prod.mk.injEq] at h3
        obtain ⟨rfl, rfl⟩ := h3
        exact .feature hp ha h1 h2
      · rw [Res.bind_eq_ok] at h
        obtain ⟨⟨st1, out'⟩, h2, h3⟩ := h
        simp only [Res.ok.injEq, Prod.mk.injEq] at h3
        obtain ⟨rfl, rfl⟩ := h3
        exact .file hp ha h1 h2
      · simp only [Res.ok.injEq, Prod.mk.injEq] at h
        obtain ⟨rfl, rfl⟩ := h
        exact .license hp (Or.inl rfl) ha h1
      · rw [Res.bind_eq_ok] at h
        obtain ⟨⟨st1, out'⟩, h2, h3⟩ := h
        simp only [Res.ok.injEq, Prod.mk.injEq] at h3
        obtain ⟨rfl, rfl⟩ := h3
        exact .returnFeature hp ha h1 h2
      · simp only [Res.ok.injEq, Prod.mk.injEq] at h
        obtain ⟨rfl, rfl⟩ := h
        exact .license hp (Or.inr rfl) ha h1
  · obtain ⟨m, h1, -⟩ := parse_of_rejected hr (cap := lveErrorSize) (by decide) st.errMsg
    rw [h1] at h
    simp only [Res.bind_ok, if_neg hg] at h
    rw [Res.bind_eq_ok] at h
    obtain ⟨out', h2, h3⟩ := h
    simp only [Res.ok.injEq, Prod.mk.injEq] at h3
    obtain ⟨rfl, rfl⟩ := h3
    exact .refused (Or.inl ⟨g, hr⟩) h2

end Semla
