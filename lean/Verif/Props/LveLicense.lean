import Verif.Props.Lve

/-!
# Properties of sessions with the vendor executable: licensing

C20, C21, C22.
-/

set_option linter.unusedSimpArgs false

namespace Semla.Props

open Semla Semla.Spec

/-! ## C20 -/

theorem featureArg_carries {m : Nat → Bool} {c : CmdId} {n : Int} {len : Nat} {cmd : Command} {msg f : Bytes}
    {k : Nat} (ha : Accepts msg c n len) (h : extractData m ⟨c, n, len, none⟩ msg = .ok (cmd, k))
    (hf : featureArg cmd = .ok f) : Carries msg c f := by
  have hl := (extractData_id h).2.2
  unfold featureArg at hf
  split at hf
  · cases hf
  · rename_i b hb
    rw [hl] at hf
    exact extract_carries ha h hb hf

/-- Checking a feature out or in, not creating the manager. -/
def _root_.Semla.LicCall.isUse : LicCall → Bool
  | .new _ => false
  | .checkout _ => true
  | .checkin _ => true

/-- **C20, FEATURE.** In the license stage, FEATURE f is answered by exactly one reply: `ERROR 7` with the
manager's message if no manager could be created; otherwise, the manager having been asked for f exactly once
and last, YES if and only if its answer was success, and NO with the manager's message if not.  A manager is
only created if there is none yet.  (`st.calls` and `st'.calls` are all calls of the manager before and after
the message.) -/
theorem c20_feature {conf : LveConf} {w : World} (hw : Ample w) {st st' : LveSt} {msg f : Bytes}
    {out : List Bytes} (hp : st.proto = .license) (hc : Carries msg .feature f)
    (h : lveStep conf w st msg = .ok (st', out)) :
    (∃ m r, st.hasMgr = false ∧ st'.calls = st.calls ++ [.new (st.libpath.map cstr)] ∧
      conf.licenseManager st'.calls = .failure (some m) ∧ out = [r] ∧ ErrorReply 7 (cstr m) r) ∨
    (∃ pre, st'.calls = st.calls ++ pre ++ [.checkout f] ∧
      ((st.hasMgr = true ∧ pre = []) ∨ (st.hasMgr = false ∧ pre = [.new (st.libpath.map cstr)] ∧
        conf.licenseManager (st.calls ++ pre) = .success)) ∧
      ((conf.licenseManager st'.calls = .success ∧ out = [b!"YES\n"]) ∨
       ∃ m r, conf.licenseManager st'.calls = .failure (some m) ∧ out = [r] ∧ DataReply b!"NO" (cstr m) r)) := by
  obtain ⟨_, _, n0, -, -, ha, -, -⟩ := id hc
  have hal : Allowed st.proto .feature := by rw [hp]; exact .stage (by decide)
  cases step_effect h with
  | refused hr => exact absurd hal ((refusable_iff ha).1 hr)
  | low hp' => rw [hp] at hp'; cases hp'
  | version hp' => rw [hp] at hp'; cases hp'
  | tools hp' => rw [hp] at hp'; cases hp'
  | lib hp' => rw [hp] at hp'; rcases hp' with hp' | hp' <;> cases hp'
  | feature _ hb hx hl =>
    rcases feature_cases hl with ⟨m, ⟨h1, h2⟩, ho, rfl⟩ | ⟨f', cs, hf, hr, rfl, h3⟩
    · rcases ho with ⟨r, rfl, ho⟩ | ⟨-, ho⟩
      · exact Or.inl ⟨m, r, h1, rfl, h2, rfl, ho⟩
      · exact absurd hw ho
    · obtain ⟨-, rfl⟩ := carries_unique hc (featureArg_carries hb hx hf)
      refine Or.inr ⟨cs, rfl, ?_, ?_⟩
      · rcases hr with ⟨h4, h5⟩ | ⟨h4, h5, h6⟩
        · exact Or.inl ⟨h4, h5⟩
        · exact Or.inr ⟨h4, h5, h6⟩
      · rcases h3 with ⟨h4, rfl⟩ | ⟨m, h4, ho⟩
        · exact Or.inl ⟨h4, rfl⟩
        · rcases ho with ⟨r, rfl, ho⟩ | ⟨-, ho⟩
          · exact Or.inr ⟨m, r, h4, rfl, ho⟩
          · exact absurd hw ho
  | returnFeature _ hb => exact absurd (accepts_unique ha hb).1 (by decide)
  | license _ hc' hb =>
    have := (accepts_unique ha hb).1
    rcases hc' with rfl | rfl <;> cases this
  | file _ hb => exact absurd (accepts_unique ha hb).1 (by decide)

/-- A manager that grants only the feature "f", and only until it has been asked three times. -/
def grudging : List LicCall → LicAnswer := fun cs =>
  match cs.getLast? with
  | some (.checkout f) => if f = b!"f" ∧ cs.length ≤ 3 then .success else .failure (some b!"denied")
  | _ => .success

example : repliesOf (session (toyConf [b!"k"] none grudging) (some b!"k") (inWorld lib1
    [b!"VERSION 1\n", b!"LIB 2\n/l", b!"FEATURE 1\ng", b!"FEATURE 1\nf", b!"FEATURE 1\nf"])) =
    some [[b!"VERSION 1\n"], [b!"YES\n"], [b!"NO 6\ndenied"], [b!"YES\n"], [b!"NO 6\ndenied"]] := by
  decide +kernel

/-- **C20, RETURNFEATURE.** Likewise for checking in, except that a refusal is an `ERROR 7`. -/
theorem c20_returnfeature {conf : LveConf} {w : World} (hw : Ample w) {st st' : LveSt} {msg f : Bytes}
    {out : List Bytes} (hp : st.proto = .license) (hc : Carries msg .returnFeature f)
    (h : lveStep conf w st msg = .ok (st', out)) :
    (∃ m r, st.hasMgr = false ∧ st'.calls = st.calls ++ [.new (st.libpath.map cstr)] ∧
      conf.licenseManager st'.calls = .failure (some m) ∧ out = [r] ∧ ErrorReply 7 (cstr m) r) ∨
    (∃ pre, st'.calls = st.calls ++ pre ++ [.checkin f] ∧
      ((st.hasMgr = true ∧ pre = []) ∨ (st.hasMgr = false ∧ pre = [.new (st.libpath.map cstr)] ∧
        conf.licenseManager (st.calls ++ pre) = .success)) ∧
      ((conf.licenseManager st'.calls = .success ∧ out = [b!"YES\n"]) ∨
       ∃ m r, conf.licenseManager st'.calls = .failure (some m) ∧ out = [r] ∧ ErrorReply 7 (cstr m) r)) := by
  obtain ⟨_, _, n0, -, -, ha, -, -⟩ := id hc
  have hal : Allowed st.proto .returnFeature := by rw [hp]; exact .stage (by decide)
  cases step_effect h with
  | refused hr => exact absurd hal ((refusable_iff ha).1 hr)
  | low hp' => rw [hp] at hp'; cases hp'
  | version hp' => rw [hp] at hp'; cases hp'
  | tools hp' => rw [hp] at hp'; cases hp'
  | lib hp' => rw [hp] at hp'; rcases hp' with hp' | hp' <;> cases hp'
  | returnFeature _ hb hx hl =>
    rcases returnFeature_cases hl with ⟨m, ⟨h1, h2⟩, ho, rfl⟩ | ⟨f', cs, hf, hr, rfl, h3⟩
    · rcases ho with ⟨r, rfl, ho⟩ | ⟨-, ho⟩
      · exact Or.inl ⟨m, r, h1, rfl, h2, rfl, ho⟩
      · exact absurd hw ho
    · obtain ⟨-, rfl⟩ := carries_unique hc (featureArg_carries hb hx hf)
      refine Or.inr ⟨cs, rfl, ?_, ?_⟩
      · rcases hr with ⟨h4, h5⟩ | ⟨h4, h5, h6⟩
        · exact Or.inl ⟨h4, h5⟩
        · exact Or.inr ⟨h4, h5, h6⟩
      · rcases h3 with ⟨h4, rfl⟩ | ⟨m, h4, ho⟩
        · exact Or.inl ⟨h4, rfl⟩
        · rcases ho with ⟨r, rfl, ho⟩ | ⟨-, ho⟩
          · exact Or.inr ⟨m, r, h4, rfl, ho⟩
          · exact absurd hw ho
  | feature _ hb => exact absurd (accepts_unique ha hb).1 (by decide)
  | license _ hc' hb =>
    have := (accepts_unique ha hb).1
    rcases hc' with rfl | rfl <;> cases this
  | file _ hb => exact absurd (accepts_unique ha hb).1 (by decide)

/-- What the calls made during one message may be. -/
theorem step_calls {conf : LveConf} {w : World} {st st' : LveSt} {msg : Bytes} {out : List Bytes}
    (he : Effect conf w st msg st' out) :
    ∃ cs, st'.calls = st.calls ++ cs ∧ (cs.filter LicCall.isUse).length ≤ 1 ∧
      (∀ f, .checkin f ∈ cs → Carries msg .returnFeature f) ∧
      (∀ f, .checkout f ∈ cs → Carries msg .feature f ∨
        ((∃ n len, Accepts msg .lib n len) ∧ conf.globalFeature = some f)) := by
  have ready : ∀ {s : LveSt} {cs}, Ready conf s cs → cs.filter LicCall.isUse = [] ∧
      (∀ f, .checkin f ∉ cs) ∧ ∀ f, .checkout f ∉ cs := by
    rintro s cs (⟨-, rfl⟩ | ⟨-, rfl, -⟩) <;> simp [newCall, LicCall.isUse]
  have none' : ∀ {cs : List LicCall}, cs = [] → (cs.filter LicCall.isUse).length ≤ 1 ∧
      (∀ f, .checkin f ∈ cs → Carries msg .returnFeature f) ∧
      (∀ f, .checkout f ∈ cs → Carries msg .feature f ∨
        ((∃ n len, Accepts msg .lib n len) ∧ conf.globalFeature = some f)) := by
    rintro cs rfl; simp
  have new' : ∀ {p}, ([LicCall.new p].filter LicCall.isUse).length ≤ 1 ∧
      (∀ f, .checkin f ∈ [LicCall.new p] → Carries msg .returnFeature f) ∧
      (∀ f, .checkout f ∈ [LicCall.new p] → Carries msg .feature f ∨
        ((∃ n len, Accepts msg .lib n len) ∧ conf.globalFeature = some f)) := by
    intro p; simp [LicCall.isUse]
  cases he with
  | refused => exact ⟨[], by simp, none' rfl⟩
  | low => exact ⟨[], by simp, none' rfl⟩
  | version => exact ⟨[], by simp, none' rfl⟩
  | tools => exact ⟨[], by simp, none' rfl⟩
  | license => exact ⟨[], by simp, none' rfl⟩
  | file _ _ _ h => obtain ⟨t, rfl⟩ := file_frame h; exact ⟨[], by simp, none' rfl⟩
  | feature _ hb hx h =>
    rcases feature_cases h with ⟨m, -, -, rfl⟩ | ⟨f, cs, hf, hr, rfl, -⟩
    · exact ⟨_, rfl, new'⟩
    · obtain ⟨h1, h2, h3⟩ := ready hr
      refine ⟨cs ++ [.checkout f], by simp, by rw [List.filter_append, h1]; exact Nat.le_refl 1, ?_, ?_⟩
      · intro g hg; simp at hg; exact absurd hg (h2 g)
      · intro g hg; simp at hg
        rcases hg with hg | rfl
        · exact absurd hg (h3 g)
        · exact Or.inl (featureArg_carries hb hx hf)
  | returnFeature _ hb hx h =>
    rcases returnFeature_cases h with ⟨m, -, -, rfl⟩ | ⟨f, cs, hf, hr, rfl, -⟩
    · exact ⟨_, rfl, new'⟩
    · obtain ⟨h1, h2, h3⟩ := ready hr
      refine ⟨cs ++ [.checkin f], by simp, by rw [List.filter_append, h1]; exact Nat.le_refl 1, ?_, ?_⟩
      · intro g hg; simp at hg
        rcases hg with hg | rfl
        · exact absurd hg (h2 g)
        · exact featureArg_carries hb hx hf
      · intro g hg; simp at hg; exact absurd hg (h3 g)
  | lib _ hb hx h =>
    have glob : ∀ {s s' : LveSt} {a}, globalLicense conf s = (s', a) → ∃ cs, s'.calls = s.calls ++ cs ∧
        (cs.filter LicCall.isUse).length ≤ 1 ∧ (∀ f, .checkin f ∈ cs → Carries msg .returnFeature f) ∧
        (∀ f, .checkout f ∈ cs → Carries msg .feature f ∨
          ((∃ n len, Accepts msg .lib n len) ∧ conf.globalFeature = some f)) := by
      intro s s' a hg
      rcases global_cases hg with ⟨-, rfl, -⟩ | ⟨m, -, -, -, -, -, rfl⟩ | ⟨g, cs, hgf, -, hr, rfl, -⟩
      · exact ⟨[], by simp, none' rfl⟩
      · exact ⟨_, rfl, new'⟩
      · obtain ⟨h1, h2, h3⟩ := ready hr
        refine ⟨cs ++ [.checkout g], by simp, by rw [List.filter_append, h1]; exact Nat.le_refl 1, ?_, ?_⟩
        · intro f hf; simp at hf; exact absurd hf (h2 f)
        · intro f hf; simp at hf
          rcases hf with hf | rfl
          · exact absurd hf (h3 f)
          · exact Or.inr ⟨⟨_, _, hb⟩, hgf⟩
    rcases lib_cases h with ⟨-, -, -, rfl⟩ | ⟨buf, data, -, -, -, ⟨-, -, -, rfl⟩ | ⟨st1, m, hg, -, -, rfl⟩ |
      ⟨st1, hg, -, hv⟩⟩
    · exact ⟨[], by simp, none' rfl⟩
    · exact ⟨[], by simp, none' rfl⟩
    · have hg2 := glob hg
      exact hg2
    · obtain ⟨cs, h1, h2⟩ := glob hg
      refine ⟨cs, ?_, h2⟩
      rcases validateDirectory_cases hv with ⟨-, rfl, -⟩ | ⟨m, -, -, rfl⟩ <;> exact h1

/-- **C20, who asks.** In the course of any message, whatever its outcome, the manager is asked to check a
feature in or out at most once; it is asked to check in f only by a RETURNFEATURE f, and to check out f only by
a FEATURE f, or by a LIB in a build whose global feature is f. -/
theorem c20_calls {conf : LveConf} {w : World} {st st' : LveSt} {msg : Bytes} {out : List Bytes}
    (h : lveStep conf w st msg = .ok (st', out)) :
    ∃ cs, st'.calls = st.calls ++ cs ∧ (cs.filter LicCall.isUse).length ≤ 1 ∧
      (∀ f, .checkin f ∈ cs → Carries msg .returnFeature f) ∧
      (∀ f, .checkout f ∈ cs → Carries msg .feature f ∨
        ((∃ n len, Accepts msg .lib n len) ∧ conf.globalFeature = some f)) :=
  step_calls (step_effect h)

example : (stateOf (session (toyConf [b!"k"] (some b!"G") generous) (some b!"k") (inWorld lib1
    [b!"VERSION 1\n", b!"LIB 2\n/l", b!"FEATURE 1\ng", b!"FILE 4\na.mo", b!"RETURNFEATURE 1\ng"]))).map (·.calls) =
    some [.new (some b!"/l"), .checkout b!"G", .checkout b!"g", .checkin b!"g"] := by decide +kernel

/-! ## C21 -/

/-- Call number `i` created a license manager for the path `p`. -/
def CreatedAt (conf : LveConf) (calls : List LicCall) (i : Nat) (p : Option Bytes) : Prop :=
  calls[i]? = some (.new p) ∧ conf.licenseManager (calls.take (i + 1)) = .success

theorem createdAt_snoc {conf : LveConf} {calls : List LicCall} {c : LicCall} {i : Nat} {p : Option Bytes} :
    CreatedAt conf (calls ++ [c]) i p ↔ CreatedAt conf calls i p ∨
      (i = calls.length ∧ c = .new p ∧ conf.licenseManager (calls ++ [c]) = .success) := by
  unfold CreatedAt
  rcases Nat.lt_trichotomy i calls.length with h | rfl | h
  · rw [List.getElem?_append_left h, List.take_append_of_le_length (by omega)]
    have : i ≠ calls.length := by omega
    simp [this]
  · have : (calls ++ [c]).take (calls.length + 1) = calls ++ [c] := List.take_of_length_le (by simp)
    rw [this]
    simp
  · rw [List.getElem?_eq_none (by simp; omega), List.getElem?_eq_none (by omega)]
    have : i ≠ calls.length := by omega
    simp [this]

/-- Managers, as seen from the log of calls. -/
def MgrInv (conf : LveConf) (lp : Option Bytes) (has : Bool) (calls : List LicCall) : Prop :=
  (has = false → ∀ i p, ¬ CreatedAt conf calls i p) ∧
  (∀ i p, CreatedAt conf calls i p → p = lp) ∧
  (∀ i j p q, CreatedAt conf calls i p → CreatedAt conf calls j q → i = j) ∧
  (has = true → ∃ i, CreatedAt conf calls i lp) ∧
  (∀ (j : Nat) c, calls[j]? = some c → c.isUse = true → ∃ i, i < j ∧ CreatedAt conf calls i lp) ∧
  (∀ (j : Nat) p, calls[j]? = some (LicCall.new p) → p = lp)

theorem mgrInv_nil (conf : LveConf) (lp : Option Bytes) : MgrInv conf lp false [] := by
  have h : ∀ i p, ¬ CreatedAt conf [] i p := fun i p h => by simp [CreatedAt] at h
  exact ⟨fun _ => h, fun i p hc => absurd hc (h i p), fun i j p q hc => absurd hc (h i p), by simp, by simp,
    by simp⟩

theorem mgrInv_newFail {conf : LveConf} {lp : Option Bytes} {calls : List LicCall} (h : MgrInv conf lp false calls)
    {m} (hf : conf.licenseManager (calls ++ [.new lp]) = .failure m) :
    MgrInv conf lp false (calls ++ [.new lp]) := by
  obtain ⟨h1, h2, h3, h4, h5, h6⟩ := h
  have hc : ∀ i p, ¬ CreatedAt conf (calls ++ [.new lp]) i p := by
    intro i p hc
    rcases createdAt_snoc.1 hc with hc | ⟨-, -, hc⟩
    · exact h1 rfl i p hc
    · rw [hf] at hc; cases hc
  refine ⟨fun _ => hc, fun i p h => absurd h (hc i p), fun i _ p _ h => absurd h (hc i p), by simp, ?_, ?_⟩
  · intro j c hj hu
    rcases Nat.lt_or_ge j calls.length with h | h
    · rw [List.getElem?_append_left h] at hj
      obtain ⟨i, -, hi⟩ := h5 j c hj hu
      exact absurd hi (h1 rfl i lp)
    · rw [List.getElem?_append_right h] at hj
      rw [List.getElem?_singleton] at hj
      split at hj
      · simp at hj; subst hj; simp [LicCall.isUse] at hu
      · cases hj
  · intro j p hj
    rcases Nat.lt_or_ge j calls.length with h | h
    · rw [List.getElem?_append_left h] at hj; exact h6 j p hj
    · rw [List.getElem?_append_right h, List.getElem?_singleton] at hj
      split at hj
      · simpa using hj.symm
      · cases hj

theorem mgrInv_newOk {conf : LveConf} {lp : Option Bytes} {calls : List LicCall} (h : MgrInv conf lp false calls)
    (hf : conf.licenseManager (calls ++ [.new lp]) = .success) :
    MgrInv conf lp true (calls ++ [.new lp]) := by
  obtain ⟨h1, h2, h3, h4, h5, h6⟩ := h
  have hc : ∀ i p, CreatedAt conf (calls ++ [.new lp]) i p → i = calls.length ∧ p = lp := by
    intro i p hc
    rcases createdAt_snoc.1 hc with hc | ⟨h, h', -⟩
    · exact absurd hc (h1 rfl i p)
    · simp at h'; exact ⟨h, h'.symm⟩
  refine ⟨by simp, fun i p h => (hc i p h).2, fun i j p q hi hj => by rw [(hc i p hi).1, (hc j q hj).1],
    fun _ => ⟨calls.length, createdAt_snoc.2 (Or.inr ⟨rfl, rfl, hf⟩)⟩, ?_, ?_⟩
  · intro j c hj hu
    rcases Nat.lt_or_ge j calls.length with h | h
    · rw [List.getElem?_append_left h] at hj
      obtain ⟨i, -, hi⟩ := h5 j c hj hu
      exact absurd hi (h1 rfl i lp)
    · rw [List.getElem?_append_right h] at hj
      rw [List.getElem?_singleton] at hj
      split at hj
      · simp at hj; subst hj; simp [LicCall.isUse] at hu
      · cases hj
  · intro j p hj
    rcases Nat.lt_or_ge j calls.length with h | h
    · rw [List.getElem?_append_left h] at hj; exact h6 j p hj
    · rw [List.getElem?_append_right h, List.getElem?_singleton] at hj
      split at hj
      · simpa using hj.symm
      · cases hj

theorem mgrInv_use {conf : LveConf} {lp : Option Bytes} {calls : List LicCall} (h : MgrInv conf lp true calls)
    {c : LicCall} (hu : c.isUse = true) : MgrInv conf lp true (calls ++ [c]) := by
  obtain ⟨h1, h2, h3, h4, h5, h6⟩ := h
  have hn : ∀ p, c ≠ LicCall.new p := by rintro p rfl; simp [LicCall.isUse] at hu
  have hc : ∀ i p, CreatedAt conf (calls ++ [c]) i p ↔ CreatedAt conf calls i p := by
    intro i p; rw [createdAt_snoc]; simp [hn p]
  refine ⟨by simp, ?_, ?_, ?_, ?_, ?_⟩
  · intro i p hi; exact h2 i p ((hc i p).1 hi)
  · intro i j p q hi hj; exact h3 i j p q ((hc i p).1 hi) ((hc j q).1 hj)
  · intro _; obtain ⟨i, hi⟩ := h4 rfl; exact ⟨i, (hc i lp).2 hi⟩
  · intro j c' hj hu'
    rcases Nat.lt_or_ge j calls.length with h | h
    · rw [List.getElem?_append_left h] at hj
      obtain ⟨i, hij, hi⟩ := h5 j c' hj hu'
      exact ⟨i, hij, (hc i lp).2 hi⟩
    · obtain ⟨i, hi⟩ := h4 rfl
      have := (List.getElem?_eq_some_iff.1 hi.1).1
      exact ⟨i, by omega, (hc i lp).2 hi⟩
  · intro j p hj
    rcases Nat.lt_or_ge j calls.length with h | h
    · rw [List.getElem?_append_left h] at hj; exact h6 j p hj
    · rw [List.getElem?_append_right h, List.getElem?_singleton] at hj
      split at hj
      · simp at hj; exact absurd hj (hn p)
      · cases hj

theorem mgrInv_ready {conf : LveConf} {st : LveSt} {cs : List LicCall}
    (h : MgrInv conf (st.libpath.map cstr) st.hasMgr st.calls) (hr : Ready conf st cs) :
    MgrInv conf (st.libpath.map cstr) true (st.calls ++ cs) := by
  rcases hr with ⟨h1, rfl⟩ | ⟨h1, rfl, h2⟩
  · rw [h1] at h; simpa using h
  · rw [h1] at h; exact mgrInv_newOk h h2

/-- The invariant of the session. -/
def SessMgr (conf : LveConf) (st : LveSt) : Prop :=
  MgrInv conf (st.libpath.map cstr) st.hasMgr st.calls ∧
  (st.proto ≠ .license → st.hasMgr = false ∧ st.calls = [] ∧ st.libpath = none)

theorem sessMgr_step {conf : LveConf} {w : World} {st st' : LveSt} {msg : Bytes} {out : List Bytes}
    (hi : SessMgr conf st) (he : Effect conf w st msg st' out) : SessMgr conf st' := by
  obtain ⟨h1, h2⟩ := hi
  cases he with
  | refused => exact ⟨h1, h2⟩
  | low => exact ⟨h1, h2⟩
  | version hp => exact ⟨h1, fun _ => h2 (by simp [hp])⟩
  | tools hp => exact ⟨h1, fun _ => h2 (by simp [hp])⟩
  | license => exact ⟨h1, by simp⟩
  | file _ _ _ h => obtain ⟨t, rfl⟩ := file_frame h; exact ⟨h1, by simp⟩
  | feature _ hb hx h =>
    refine ⟨?_, by simp⟩
    rcases feature_cases h with ⟨m, ⟨h3, h4⟩, -, rfl⟩ | ⟨f, cs, hf, hr, rfl, -⟩
    · rw [h3] at h1; simp only [h3]; exact mgrInv_newFail h1 h4
    · exact mgrInv_use (mgrInv_ready h1 hr) rfl
  | returnFeature _ hb hx h =>
    refine ⟨?_, by simp⟩
    rcases returnFeature_cases h with ⟨m, ⟨h3, h4⟩, -, rfl⟩ | ⟨f, cs, hf, hr, rfl, -⟩
    · rw [h3] at h1; simp only [h3]; exact mgrInv_newFail h1 h4
    · exact mgrInv_use (mgrInv_ready h1 hr) rfl
  | lib hp hb hx h =>
    refine ⟨?_, by simp⟩
    obtain ⟨h3, h4, h5⟩ := h2 (by rcases hp with hp | hp <;> simp [hp])
    have glob : ∀ {s s' : LveSt} {a}, s.hasMgr = false → s.calls = [] → globalLicense conf s = (s', a) →
        MgrInv conf (s'.libpath.map cstr) s'.hasMgr s'.calls := by
      intro s s' a hh hc hg
      have h0 : MgrInv conf (s.libpath.map cstr) s.hasMgr s.calls := by rw [hh, hc]; exact mgrInv_nil _ _
      rcases global_cases hg with ⟨-, rfl, -⟩ | ⟨m, -, -, hm, hl, -, rfl⟩ | ⟨g, cs, hgf, -, hr, rfl, -⟩
      · exact h0
      · rw [hm] at h0; simp only [hm]; exact mgrInv_newFail h0 hl
      · exact mgrInv_use (mgrInv_ready h0 hr) rfl
    rcases lib_cases h with ⟨-, -, -, rfl⟩ | ⟨buf, data, -, -, -, ⟨-, -, -, rfl⟩ | ⟨st1, m, hg, -, -, rfl⟩ |
      ⟨st1, hg, -, hv⟩⟩
    · exact h1
    · simp only [h3, h4]; exact mgrInv_nil _ _
    · have hg2 := glob (s := withRoot st _) h3 h4 hg
      exact hg2
    · have hg2 := glob (s := withRoot st _) h3 h4 hg
      rcases validateDirectory_cases hv with ⟨-, rfl, -⟩ | ⟨m, -, -, rfl⟩ <;> exact hg2

theorem sessMgr_session {conf : LveConf} {k : Option Bytes} {turns : List (World × Bytes)} {st : LveSt}
    {outs : List (List Bytes)} (h : Session conf k turns st outs) : SessMgr conf st := by
  obtain ⟨st0, h1, h2⟩ := h
  refine run_inv (fun _ _ _ _ _ hi he => sessMgr_step hi he) ?_ h2
  rcases start_eq h1 with rfl | rfl <;> exact ⟨mgrInv_nil _ _, fun _ => ⟨rfl, rfl, rfl⟩⟩

/-- **C21.** In every session at most one license manager is successfully created; every attempt to create one
is for the library root of the session; and every feature is checked out or in after a manager has been
created. -/
theorem c21_one_manager {conf : LveConf} {k : Option Bytes} {turns : List (World × Bytes)} {st : LveSt}
    {outs : List (List Bytes)} (h : Session conf k turns st outs) :
    (∀ i j p q, CreatedAt conf st.calls i p → CreatedAt conf st.calls j q → i = j) ∧
    (∀ (j : Nat) p, st.calls[j]? = some (LicCall.new p) → p = st.libpath.map cstr) ∧
    (∀ (j : Nat) c, st.calls[j]? = some c → c.isUse = true → ∃ i p, i < j ∧ CreatedAt conf st.calls i p) := by
  obtain ⟨⟨-, -, h3, -, h5, h6⟩, -⟩ := sessMgr_session h
  exact ⟨h3, h6, fun j c hj hu => by obtain ⟨i, hi, hc⟩ := h5 j c hj hu; exact ⟨i, _, hi, hc⟩⟩

/-- A manager that can be created at the third attempt only. -/
def reluctant : List LicCall → LicAnswer := fun cs =>
  match cs.getLast? with
  | some (.new _) => if cs.length ≤ 2 then .failure (some b!"busy") else .success
  | _ => .success

example : (stateOf (session (toyConf [b!"k"] none reluctant) (some b!"k") (inWorld lib1
    [b!"VERSION 1\n", b!"LIB 2\n/l", b!"FEATURE 1\ng", b!"FEATURE 1\ng", b!"FEATURE 1\ng", b!"FEATURE 1\nh"]))).map
    (·.calls) = some [.new (some b!"/l"), .new (some b!"/l"), .new (some b!"/l"), .checkout b!"g", .checkout b!"h"] := by
  decide +kernel

/-! ## C22 -/

/-- Memory runs out for allocations of one size. -/
def without (n : Nat) (w : World) : World := { w with malloc := fun k => k ≠ n }

/-- A manager that refuses everything. -/
def stingy : List LicCall → LicAnswer
  | [.new _] => .success
  | _ => .failure (some b!"no license")

/-- **C22 is false when memory runs out**: if the decryption context cannot be allocated while LIB is handled,
the global license is not checked, and files are served afterwards although the license manager grants
nothing. -/
theorem c22_out_of_memory_not :
    repliesOf (session (toyConf [b!"k"] (some b!"G") stingy) (some b!"k")
      [(lib1, b!"VERSION 1\n"), (without (crContextSize + 2) lib1, b!"LIB 2\n/l"), (lib1, b!"FILE 4\na.mo")]) =
    some [[b!"VERSION 1\n"], [], [b!"FILECONT 14\nmodel a end a;"]] := by decide +kernel

/-- The gate was passed: the very first calls of the manager were its creation and the successful checkout
of the global feature. -/
def GatePassed (conf : LveConf) (g : Bytes) (calls : List LicCall) : Prop :=
  ∃ p rest, calls = .new p :: .checkout g :: rest ∧ conf.licenseManager [.new p] = .success ∧
    conf.licenseManager [.new p, .checkout g] = .success

theorem gate_step {conf : LveConf} {g : Bytes} (hg : conf.globalFeature = some g) {w : World} (hw : Ample w)
    {st st' : LveSt} {msg : Bytes} {out : List Bytes} (hi : SessMgr conf st)
    (hgt : st.approved = true → st.libpath ≠ none → GatePassed conf g st.calls)
    (he : Effect conf w st msg st' out) :
    st'.approved = true → st'.libpath ≠ none → GatePassed conf g st'.calls := by
  have grow : ∀ {c1 c2}, GatePassed conf g c1 → GatePassed conf g (c1 ++ c2) := by
    rintro c1 c2 ⟨p, rest, rfl, h1, h2⟩
    exact ⟨p, rest ++ c2, by simp, h1, h2⟩
  cases he with
  | refused => exact hgt
  | low => exact hgt
  | version => exact hgt
  | tools => exact hgt
  | license => exact hgt
  | file _ _ _ h => obtain ⟨t, rfl⟩ := file_frame h; exact hgt
  | feature _ _ _ h => obtain ⟨b, cs, rfl⟩ := feature_frame h; exact fun h1 h2 => grow (hgt h1 h2)
  | returnFeature _ _ _ h => obtain ⟨b, cs, rfl⟩ := returnFeature_frame h; exact fun h1 h2 => grow (hgt h1 h2)
  | lib hp _ _ h =>
    obtain ⟨h3, h4, h5⟩ := hi.2 (by rcases hp with hp | hp <;> simp [hp])
    rcases lib_cases h with ⟨-, -, -, rfl⟩ | ⟨buf, data, -, -, -, ⟨hna, -, -, rfl⟩ | ⟨st1, m, hgl, -, -, rfl⟩ |
      ⟨st1, hgl, -, hv⟩⟩
    · intro _ hl; exact absurd h5 hl
    · exact absurd hw hna
    · simp
    · have key : st1.approved = true → GatePassed conf g st1.calls := by
        rcases global_cases hgl with ⟨hh, rfl, -⟩ | ⟨m, -, -, -, -, hh, -⟩ | ⟨g', cs, hgf, -, hr, rfl, ha⟩
        · intro ha
          rcases hh with hh | hh
          · rw [hg] at hh; cases hh
          · rw [hh] at ha; cases ha
        · cases hh
        · intro _
          rw [hg] at hgf
          simp only [Option.some.injEq] at hgf
          subst hgf
          rcases hr with ⟨hm, -⟩ | ⟨-, rfl, hs⟩
          · simp only [withRoot] at hm; rw [h3] at hm; cases hm
          · simp only [withRoot, h4, newCall, List.nil_append] at ha hs ⊢
            exact ⟨_, [], rfl, hs, ha.symm⟩
      rcases validateDirectory_cases hv with ⟨-, rfl, -⟩ | ⟨m, -, -, rfl⟩
      · exact fun h1 _ => key h1
      · exact fun h1 _ => key h1

/-- **C22, what holds** (full statement without the hypothesis on memory; false as shown above).  In a build
with global feature g, whenever a message of a session is answered by file contents, the first thing the license
manager was asked in this session was to be created and then to check out g, and it granted both.  So a tool for
which the global feature could not be checked out never gets any contents. -/
theorem c22_global_gate_partial {conf : LveConf} {g : Bytes} (hg : conf.globalFeature = some g) {k : Option Bytes}
    {turns : List (World × Bytes)} {st st' : LveSt} {replies : List (List Bytes)}
    (h : Session conf k turns st replies) (hw : ∀ t ∈ turns, Ample t.1) {w : World} {msg : Bytes} {out : List Bytes}
    {r : Bytes} (hs : lveStep conf w st msg = .ok (st', out)) (hr : r ∈ out) (hk : OfKind b!"FILECONT" r) :
    GatePassed conf g st.calls := by
  have hi := sessMgr_session h
  have he := errInv_session h
  obtain ⟨st0, h1, h2⟩ := h
  have hgate : st.approved = true → st.libpath ≠ none → GatePassed conf g st.calls := by
    have key : ∀ (turns : List (World × Bytes)) (s : LveSt) (outs : List (List Bytes)), SessMgr conf s →
        (s.approved = true → s.libpath ≠ none → GatePassed conf g s.calls) → (∀ t ∈ turns, Ample t.1) →
        lveRun conf s turns = .ok (st, outs) →
        st.approved = true → st.libpath ≠ none → GatePassed conf g st.calls := by
      intro turns
      induction turns with
      | nil =>
        intro s outs _ hgt _ hrun
        simp only [lveRun, Res.ok.injEq, Prod.mk.injEq] at hrun
        rw [← hrun.1]; exact hgt
      | cons t ts ih =>
        intro s outs hsm hgt hw hrun
        obtain ⟨w, msg⟩ := t
        obtain ⟨s1, out, outs', h3, h4, -⟩ := run_cons hrun
        have hef := step_effect h3
        exact ih s1 outs' (sessMgr_step hsm hef)
          (gate_step hg (hw (w, msg) (by simp)) hsm hgt hef) (fun t ht => hw t (by simp [ht])) h4
    refine key turns st0 replies ?_ ?_ hw h2
    · rcases start_eq h1 with rfl | rfl <;> exact ⟨mgrInv_nil _ _, fun _ => ⟨rfl, rfl, rfl⟩⟩
    · rcases start_eq h1 with rfl | rfl <;> simp [LveSt.initial]
  have no : ∀ {c : CmdId}, OfKind c.name r → c ≠ .fileCont → False := fun hk' hc =>
    hc (kind_unique hk' (b := .fileCont) hk)
  cases step_effect hs with
  | refused _ h => exact (no (c := .error) (errOut_kind (reply_error (code := 1) h) r hr) (by decide)).elim
  | low _ _ _ h => exact (no (c := .error) (errOut_kind (reply_error (code := 2) h) r hr) (by decide)).elim
  | version =>
    simp only [List.mem_singleton] at hr; subst hr
    exact (no (number_kind (n := 1) (by decide) (by decide) .version) (by decide)).elim
  | tools =>
    simp only [List.mem_singleton] at hr; subst hr
    exact (no (number_kind (n := 4) (by decide) (by decide) .version) (by decide)).elim
  | lib _ _ _ h =>
    rcases (lib_out h).2.2.2 r hr with h | h
    · exact (no (c := .error) h (by decide)).elim
    · exact (no (c := .yes) h (by decide)).elim
  | feature _ _ _ h =>
    rcases (feature_out h).2.2 r hr with h | h | h
    · exact (no (c := .error) h (by decide)).elim
    · exact (no (c := .yes) h (by decide)).elim
    · exact (no (c := .no) h (by decide)).elim
  | returnFeature _ _ _ h =>
    rcases (returnFeature_out h).2.2 r hr with h | h
    · exact (no (c := .error) h (by decide)).elim
    · exact (no (c := .yes) h (by decide)).elim
  | license =>
    simp only [List.mem_singleton] at hr; subst hr
    exact (no (simple_kind .notSimple) (by decide)).elim
  | file _ _ _ h =>
    obtain ⟨-, -, h3, h4, -⟩ := file_out he h
    refine hgate ?_ ?_
    · cases ha : st.approved with
      | true => rfl
      | false => exact (no (c := .error) (h3 ha r hr) (by decide)).elim
    · intro hl; exact no (c := .error) (h4 hl r hr) (by decide)

example : repliesOf (session (toyConf [b!"k"] (some b!"G") stingy) (some b!"k") (inWorld lib1
    [b!"VERSION 1\n", b!"LIB 2\n/l", b!"FILE 4\na.mo"])) =
    some [[b!"VERSION 1\n"], [b!"ERROR 7 10\nno license"], [b!"ERROR 7 10\nno license"]] := by decide +kernel
example : repliesOf (session (toyConf [b!"k"] (some b!"f") grudging) (some b!"k") (inWorld lib1
    [b!"VERSION 1\n", b!"LIB 2\n/l", b!"FILE 4\na.mo"])) =
    some [[b!"VERSION 1\n"], [b!"YES\n"], [b!"FILECONT 14\nmodel a end a;"]] := by decide +kernel

end Semla.Props
