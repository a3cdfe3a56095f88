import Verif.Model.TestLicense
import Verif.Props.Diag
import Verif.Props.LveLicense
import Verif.Props.LveMain

/-!
# C78: the license manager that comes with SEMLA
-/

namespace Semla.Props

open Semla Semla.Spec

/-- A build with the license manager that comes with SEMLA. -/
def WithTestManager (conf : LveConf) : Prop := conf.licenseManager = testManager fun _ => true

theorem testManager_checkout (m : Nat → Bool) (cs : List LicCall) (f : Bytes) :
    testManager m (cs ++ [.checkout f]) = testLicenseCheckout m f := by
  simp [testManager]

theorem testManager_new (m : Nat → Bool) (cs : List LicCall) (p : Option Bytes) :
    testManager m (cs ++ [.new p]) = .success := by
  simp [testManager, testLicenseNew]

theorem testManager_checkin (m : Nat → Bool) (cs : List LicCall) (f : Bytes) :
    testManager m (cs ++ [.checkin f]) = .success := by
  simp [testManager, testLicenseCheckin]

theorem testCheckout_other {f : Bytes} (h : cstr f ≠ b!"test_licensed_feature") :
    testLicenseCheckout (fun _ => true) f = .failure (some b!"Feature not licensed") := by
  unfold testLicenseCheckout
  rw [if_neg h]
  decide

theorem testCheckout_same {f : Bytes} (h : cstr f = b!"test_licensed_feature") :
    testLicenseCheckout (fun _ => true) f = .success := by
  unfold testLicenseCheckout
  rw [if_pos h]

theorem setup_test {conf : LveConf} (hc : WithTestManager conf) (w : World) (st : LveSt) :
    ∃ pre, setupLicensingCheckError conf w false st =
      .ok ({ st with hasMgr := true, calls := st.calls ++ pre }, [], true) := by
  unfold setupLicensingCheckError setupLicensing
  split
  · rename_i h
    split at h
    · simp only [Prod.mk.injEq] at h
      obtain ⟨rfl, -⟩ := h
      rename_i hm
      refine ⟨[], ?_⟩
      simp only [List.append_nil, Res.ok.injEq, Prod.mk.injEq, and_true]
      cases st; simp_all
    · simp only [callManager] at h
      rw [hc, testManager_new] at h
      simp only [Prod.mk.injEq, and_true] at h
      exact ⟨_, by rw [← h]⟩
  all_goals
    rename_i h
    split at h
    · simp at h
    · simp only [callManager] at h
      rw [hc, testManager_new] at h
      simp at h

/-- **C78, FEATURE and RETURNFEATURE.** In an executable with the license manager that comes with SEMLA, a FEATURE in
the license stage is answered by YES if the name of the feature is `test_licensed_feature` and by NO `Feature not
licensed` if it is any other name; every RETURNFEATURE is answered by YES.  (Names without NUL.) -/
theorem c78_feature_partial {conf : LveConf} (hconf : WithTestManager conf) {w : World} (hw : Ample w) {st : LveSt}
    {f : Bytes} (hp : st.proto = .license) (h0 : (0 : UInt8) ∉ f) :
    (∀ msg, Carries msg .feature f → ∃ st' r, lveStep conf w st msg = .ok (st', [r]) ∧
      (f = b!"test_licensed_feature" → r = b!"YES\n") ∧
      (f ≠ b!"test_licensed_feature" → DataReply b!"NO" b!"Feature not licensed" r)) ∧
    (∀ msg, Carries msg .returnFeature f → ∃ st', lveStep conf w st msg = .ok (st', [b!"YES\n"])) := by
  have hcf : cstr f = f := cstr_of_noNul fun b hb h => h0 (h ▸ hb)
  obtain ⟨pre, hpre⟩ := setup_test hconf w st
  constructor
  · intro msg hc
    rw [step_forward (next := .license) hw rfl hc (by rw [hp]; rfl)]
    unfold dispatch
    rw [hp]
    simp only [if_true, lveFeature, hpre, Res.bind_ok, not_true_eq_false, if_false, featureArg, readCells_map_some,
      callManager, Bool.false_eq_true]
    rw [hconf, testManager_checkout]
    by_cases h : f = b!"test_licensed_feature"
    · rw [testCheckout_same (by rw [hcf]; exact h)]
      exact ⟨_, _, rfl, fun _ => rfl, fun h' => absurd h h'⟩
    · rw [testCheckout_other (by rw [hcf]; exact h)]
      have hs := reply_length_ok hw (c := .no) (d := b!"Feature not licensed") (by decide)
      have hs' : reply false (sendString w.malloc .no b!"Feature not licensed") =
          reply false (sendLength w.malloc .no b!"Feature not licensed") := by
        unfold sendString
        rw [show cstr b!"Feature not licensed" = b!"Feature not licensed" by decide]
      simp only [hs', hs, Res.bind_ok]
      exact ⟨_, _, rfl, fun h' => absurd h' h, fun _ => ⟨_, decNat_numeral _, rfl⟩⟩
  · intro msg hc
    rw [step_forward (next := .license) hw rfl hc (by rw [hp]; rfl)]
    unfold dispatch
    rw [hp]
    simp only [if_true, lveReturnFeature, hpre, Res.bind_ok, not_true_eq_false, if_false, featureArg,
      readCells_map_some, callManager, reduceCtorEq]
    rw [hconf, testManager_checkin]
    exact ⟨_, rfl⟩

/-- A build with the test manager and this global feature. -/
def testConf (global : Option Bytes) : LveConf := toyConf [b!"k"] global (testManager fun _ => true)

example : WithTestManager (testConf none) := rfl
example : repliesOf (session (testConf none) (some b!"k") (inWorld lib1
    [b!"VERSION 1\n", b!"LIB 2\n/l", b!"FEATURE 21\ntest_licensed_feature", b!"FEATURE 20\ntest_licensed_featur",
     b!"RETURNFEATURE 5\nother", b!"FILE 4\na.mo"])) =
    some [[b!"VERSION 1\n"], [b!"YES\n"], [b!"YES\n"], [b!"NO 20\nFeature not licensed"], [b!"YES\n"],
      [b!"FILECONT 14\nmodel a end a;"]] := by decide +kernel

/-- **C78, libraries.** An executable with this manager has a license for its library, wherever it is, exactly if it
is built without a feature for the whole library or with `test_licensed_feature`; with any other feature a library is
refused because the `Feature not licensed`.  (See C13 and C76 for what that means for LIB and FILE.) -/
theorem c78_library {conf : LveConf} (hconf : WithTestManager conf) (root : Bytes) :
    ((conf.globalFeature = none ∨ conf.globalFeature = some b!"test_licensed_feature") → Licensed conf root) ∧
    (∀ g, conf.globalFeature = some g → (0 : UInt8) ∉ g → g ≠ b!"test_licensed_feature" →
      Unlicensed conf root b!"Feature not licensed" ∧ ¬ Licensed conf root) := by
  have hn : conf.licenseManager [.new (some root)] = .success := by
    rw [hconf]; exact testManager_new _ [] _
  have hck : ∀ g, conf.licenseManager [.new (some root), .checkout g] = testLicenseCheckout (fun _ => true) g :=
    fun g => by rw [hconf]; exact testManager_checkout _ [_] _
  constructor
  · rintro (h | h)
    · exact Or.inl h
    · exact Or.inr ⟨_, h, hn, by rw [hck]; exact testCheckout_same (by decide)⟩
  · intro g hg h0 hne
    have hcg : cstr g = g := cstr_of_noNul fun b hb h => h0 (h ▸ hb)
    have ho := testCheckout_other (f := g) (by rw [hcg]; exact hne)
    refine ⟨⟨g, hg, Or.inr ⟨hn, by rw [hck]; exact ho⟩⟩, ?_⟩
    rintro (h | ⟨g', h, -, h'⟩)
    · rw [hg] at h; cases h
    · rw [hg] at h; cases h
      rw [hck, ho] at h'; cases h'

example : repliesOf (session (testConf (some b!"test_licensed_feature")) (some b!"k") (inWorld lib1
      [b!"VERSION 1\n", b!"LIB 2\n/l", b!"FILE 4\na.mo"])) =
      some [[b!"VERSION 1\n"], [b!"YES\n"], [b!"FILECONT 14\nmodel a end a;"]] ∧
    repliesOf (session (testConf (some b!"other")) (some b!"k") (inWorld lib1
      [b!"VERSION 1\n", b!"LIB 2\n/l", b!"FILE 4\na.mo"])) =
      some [[b!"VERSION 1\n"], [b!"ERROR 7 20\nFeature not licensed"], [b!"ERROR 7 20\nFeature not licensed"]] := by
  decide +kernel

/-- **C78, command line.** `--checkout-feature` for an existing directory exits with status 0 exactly for
`test_licensed_feature`. -/
theorem c78_command_line {conf : LveConf} (hconf : WithTestManager conf) {w : World} (hw : Ample w)
    {args : List Bytes} {f p root : Bytes} (ha : AsksCheckout args f p) (hf : (0 : UInt8) ∉ f ∧ f.length < 2 ^ 63)
    (hp : (0 : UInt8) ∉ p ∧ p.length < 2 ^ 63) (hr : IsRootOf p root) (hst : w.stat root = some true) :
    ∃ ok calls, lveMain conf w args = .ok (.exit ok [] calls) ∧ (ok = true ↔ f = b!"test_licensed_feature") := by
  have hn : ∀ root, conf.licenseManager [.new (some root)] = .success := fun root => by
    rw [hconf]; exact testManager_new _ [] _
  have hck : ∀ root g, conf.licenseManager [.new (some root), .checkout g] = testLicenseCheckout (fun _ => true) g :=
    fun root g => by rw [hconf]; exact testManager_checkout _ [_] _
  obtain ⟨ok, calls, h1, h2⟩ := c47_checkout_partial hw ha hf.2 hp (conf := conf) fun root _ _ => hn root
  have hcf : cstr f = f := cstr_of_noNul fun b hb h => hf.1 (h ▸ hb)
  refine ⟨ok, calls, h1, h2.trans ⟨?_, ?_⟩⟩
  · rintro ⟨r, -, -, -, h⟩
    rw [hck] at h
    refine Classical.byContradiction fun hne => ?_
    rw [testCheckout_other (by rw [hcf]; exact hne)] at h
    cases h
  · intro h
    exact ⟨root, hr, hst, hn root, by rw [hck]; exact testCheckout_same (by rw [hcf]; exact h)⟩

example : lveMain (testConf none) lib1 [b!"--checkout-feature", b!"test_licensed_feature", b!"--libpath", b!"/l/"] =
      .ok (.exit true [] [.new (some b!"/l"), .checkout b!"test_licensed_feature"]) ∧
    lveMain (testConf none) lib1 [b!"--libpath", b!"/l", b!"--checkout-feature", b!"other"] =
      .ok (.exit false [] [.new (some b!"/l"), .checkout b!"other"]) := by decide +kernel

theorem carries_eq {msg d : Bytes} {c : CmdId} (hc : c.form = .length) (hl : d.length < 2 ^ 63)
    (e : line2 c.name (decNat d.length) ++ d = msg) : Carries msg c d := e ▸ carries_sent hc hl

/-- **C78 is false for names with a NUL**: only the part before it is compared, so other features are granted too. -/
theorem c78_nul_not : ∃ (conf : LveConf) (w : World) (st : LveSt) (msg f : Bytes), WithTestManager conf ∧ Ample w ∧
    (∃ k turns replies, Session conf k turns st replies) ∧ st.proto = .license ∧ Carries msg .feature f ∧
    f ≠ b!"test_licensed_feature" ∧ ∃ st', lveStep conf w st msg = .ok (st', [b!"YES\n"]) := by
  let st : LveSt := ⟨.license, [], some b!"/l", 2, true, 0, none, false, some [], []⟩
  have hs : ∃ replies, session (testConf none) (some b!"k") (inWorld lib1 [b!"VERSION 1\n", b!"LIB 2\n/l"]) =
      .ok (st, replies) := ⟨[[b!"VERSION 1\n"], [b!"YES\n"]], by decide +kernel⟩
  obtain ⟨replies, h1⟩ := hs
  have h3 : lveStep (testConf none) lib1 st (b!"FEATURE 23\ntest_licensed_feature" ++ [0, 120]) =
      .ok ({ st with hasMgr := true, calls := [.new (some b!"/l"), .checkout (b!"test_licensed_feature" ++ [0, 120])] },
        [b!"YES\n"]) := by decide +kernel
  exact ⟨testConf none, lib1, st, _, b!"test_licensed_feature" ++ [0, 120], rfl, fun _ => rfl,
    ⟨_, _, _, session_iff.2 h1⟩, rfl,
    carries_eq rfl (by decide) (by decide +kernel), by decide, _, h3⟩

end Semla.Props
