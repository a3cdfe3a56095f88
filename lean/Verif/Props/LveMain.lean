import Verif.Lemmas.LveMain

/-!
# Properties of the command line of the vendor executable

C47.
-/

set_option linter.unusedSimpArgs false

namespace Semla.Props

open Semla Semla.Spec

theorem libpath_quiet {conf : LveConf} {w : World} {p : Bytes} (hl : p.length < 2 ^ 63) {st : LveSt}
    {out : List Bytes} {ok : Bool} (h : lveLibpath conf w true .initial (withData .lib p) = .ok (st, out, ok)) :
    out = [] ∧ st.calls = [] ∧ (ok = true → p ≠ [] ∧ w.stat (cstr (trimLoop p p.length)) = some true ∧
      st = withRoot .initial (trimLoop p p.length)) := by
  unfold lveLibpath withData at h
  simp only at h
  split at h
  · simp only [Res.ok.injEq, Prod.mk.injEq] at h
    obtain ⟨rfl, rfl, rfl⟩ := h
    exact ⟨rfl, rfl, by simp⟩
  · rename_i h0
    split at h
    · cases h
    · have hr : readCells (p.map some ++ [some 0]) p.length = .ok p := readCells_map_some p [some 0]
      rw [hr] at h
      simp only [Res.bind_ok] at h
      split at h
      · simp only [Res.ok.injEq, Prod.mk.injEq] at h
        obtain ⟨rfl, rfl, rfl⟩ := h
        exact ⟨rfl, rfl, by simp⟩
      · have hg : globalLicense conf (withRoot .initial (trimLoop p p.length)) =
            (withRoot .initial (trimLoop p p.length), .success) := by
          unfold globalLicense
          split
          · rfl
          · rw [if_neg (by simp [withRoot, LveSt.initial])]
        change (match globalLicense conf (withRoot .initial (trimLoop p p.length)) with
            | (_, .failure none) => _ | (st, .failure (some m)) => _ | (st, .success) => _) = _ at h
        rw [hg] at h
        simp only [if_true] at h
        rcases hv : validateDirectory w (withRoot .initial (trimLoop p p.length)) with ⟨st2, b⟩
        simp only [hv, Res.ok.injEq, Prod.mk.injEq] at h
        obtain ⟨rfl, rfl, rfl⟩ := h
        rcases validateDirectory_cases hv with ⟨h1, rfl, rfl⟩ | ⟨m, -, rfl, rfl⟩
        · exact ⟨rfl, rfl, fun _ => ⟨by rintro rfl; exact h0 rfl, by simpa [withRoot] using h1, rfl⟩⟩
        · exact ⟨rfl, rfl, by simp⟩

theorem libpath_quiet_eq {conf : LveConf} {w : World} (hw : Ample w) (p : Bytes) :
    (p = [] → ∃ st, lveLibpath conf w true .initial (withData .lib p) = .ok (st, [], false)) ∧
    (p ≠ [] → ∃ st, lveLibpath conf w true .initial (withData .lib p) =
      .ok (st, [], w.stat (cstr (trimLoop p p.length)) == some true)) := by
  unfold lveLibpath withData
  simp only
  constructor
  · rintro rfl
    simp
  · intro hp
    have h0 : ¬ p.length = 0 := by simpa using hp
    rw [if_neg h0, if_neg (by simp [hw _])]
    have hr : readCells (p.map some ++ [some 0]) p.length = .ok p := readCells_map_some p [some 0]
    rw [hr]
    simp only [Res.bind_ok]
    rw [if_neg (by simp [hw _])]
    have hg : globalLicense conf (withRoot .initial (trimLoop p p.length)) =
        (withRoot .initial (trimLoop p p.length), .success) := by
      unfold globalLicense
      split
      · rfl
      · rw [if_neg (by simp [withRoot, LveSt.initial])]
    unfold withRoot at hg
    rw [hg]
    simp only [if_true]
    rcases hv : validateDirectory w (withRoot .initial (trimLoop p p.length)) with ⟨st2, b⟩
    refine ⟨st2, ?_⟩
    have hb : b = (w.stat (cstr (trimLoop p p.length)) == some true) := by
      rcases validateDirectory_cases hv with ⟨h1, -, rfl⟩ | ⟨m, h1, rfl, -⟩
      · change w.stat (cstr (trimLoop p p.length)) = some true at h1
        rw [h1]; rfl
      · change w.stat (cstr (trimLoop p p.length)) ≠ some true at h1
        simp [h1]
    unfold withRoot at hv
    rw [hv, ← hb]

theorem feature_quiet {conf : LveConf} {w : World} {root f : Bytes} (hn : (0 : UInt8) ∉ root) :
    (conf.licenseManager [.new (some root)] = .success →
      ∃ st, lveFeature conf w true (withRoot .initial root) (withData .feature f) =
        .ok (st, [], conf.licenseManager [.new (some root), .checkout f] == .success) ∧
        st.calls = [.new (some root), .checkout f]) ∧
    (conf.licenseManager [.new (some root)] ≠ .success →
      lveFeature conf w true (withRoot .initial root) (withData .feature f) = .ub .nullDeref) := by
  have hc : cstr root = root := cstr_of_noNul fun b hb h0 => hn (h0 ▸ hb)
  have hr : featureArg (withData .feature f) = .ok f := readCells_map_some f [some 0]
  unfold lveFeature setupLicensingCheckError setupLicensing callManager
  have h1 : (withRoot .initial root).hasMgr = false := rfl
  have h2 : (withRoot .initial root).libpath = some root := rfl
  have h3 : (withRoot .initial root).calls = [] := rfl
  simp only [h1, h2, h3, Bool.false_eq_true, if_false, Option.map_some, hc, List.nil_append]
  constructor
  · intro h
    simp only [h, Res.bind_ok, not_true_eq_false, if_false, hr, List.cons_append, List.nil_append]
    cases ha : conf.licenseManager [.new (some root), .checkout f] with
    | success => exact ⟨_, rfl, rfl⟩
    | failure m => exact ⟨_, rfl, rfl⟩
  · intro h
    cases ha : conf.licenseManager [.new (some root)] with
    | success => exact absurd ha h
    | failure m =>
      cases m with
      | none => simp
      | some m => simp [reply]

/-- **C47, success is truthful.** Whatever the arguments, memory and files, if the executable exits
successfully without serving a connection, then it was only asked for its version or its usage, or it was asked
to check out a feature, the library path (without trailing separators) is an existing directory, the license
manager was created for it, asked for exactly this feature, and granted it.  Nothing was sent. -/
theorem c47_success {conf : LveConf} {w : World} {args : List Bytes}
    (hnul : ∀ a ∈ args, (0 : UInt8) ∉ a ∧ a.length < 2 ^ 63)
    {sent : List Bytes} {calls : List LicCall} (h : lveMain conf w args = .ok (.exit true sent calls)) :
    sent = [] ∧ ((args = [b!"--version"] ∨ args = [b!"--help"]) ∧ calls = [] ∨
      ∃ f p root, AsksCheckout args f p ∧ IsRootOf p root ∧ w.stat root = some true ∧ Grants conf root f ∧
        calls = [.new (some root), .checkout f]) := by
  unfold lveMain at h
  rw [Res.bind_eq_ok] at h
  obtain ⟨o, ho, h⟩ := h
  rcases optionLoop_cases ho with ⟨rfl, -⟩ | ⟨f, rfl, -⟩ | ⟨p, rfl, -⟩ | ⟨f, p, rfl, ha⟩ | ⟨b, rfl, hb⟩
  · simp at h
  · simp at h
  · simp at h
  · have hf : f ∈ args ∧ p ∈ args := by rcases ha with rfl | rfl <;> simp
    obtain ⟨-, hfl⟩ := hnul f hf.1
    obtain ⟨hpn, hpl⟩ := hnul p hf.2
    simp only [checkoutFeature] at h
    have h1 := composeCommand_cases (m := w.malloc) (c := .lib) rfl (arg := p) (e := []) hpl
    rw [show CmdId.name .lib = b!"LIB" from rfl] at h1
    have h2 := composeCommand_cases (m := w.malloc) (c := .feature) rfl (arg := f) (e := []) hfl
    rw [show CmdId.name .feature = b!"FEATURE" from rfl] at h2
    rcases h1 with ⟨h1, -⟩ | h1
    · rw [h1] at h; simp at h
    rw [h1] at h
    simp only [Res.bind_ok] at h
    rcases h2 with ⟨h2, -⟩ | h2
    · rw [h2] at h; simp at h
    rw [h2] at h
    simp only [Res.bind_ok] at h
    rw [Res.bind_eq_ok] at h
    obtain ⟨⟨st, out, ok⟩, h3, h⟩ := h
    obtain ⟨rfl, hcalls, hok⟩ := libpath_quiet hpl h3
    cases ok with
    | false => simp at h
    | true =>
      obtain ⟨hne, hst, rfl⟩ := hok rfl
      have hroot := trimLoop_isRootOf hne
      have hrn : (0 : UInt8) ∉ trimLoop p p.length := by
        intro h0
        obtain ⟨seps, e, -⟩ := hroot
        exact hpn (by rw [e]; simp [h0])
      have hcs : cstr (trimLoop p p.length) = trimLoop p p.length := cstr_of_noNul fun b hb h0 => hrn (h0 ▸ hb)
      rw [hcs] at hst
      simp only [not_true_eq_false, if_false] at h
      rw [Res.bind_eq_ok] at h
      obtain ⟨⟨st2, out2, ok2⟩, h4, h⟩ := h
      by_cases hs : conf.licenseManager [.new (some (trimLoop p p.length))] = .success
      · obtain ⟨st', h5, h6⟩ := (feature_quiet (w := w) (f := f) hrn).1 hs
        rw [h5] at h4
        simp only [Res.ok.injEq, Prod.mk.injEq] at h4
        obtain ⟨rfl, rfl, rfl⟩ := h4
        simp only [List.append_nil, Res.ok.injEq, MainEnd.exit.injEq, beq_iff_eq] at h
        obtain ⟨h7, rfl, rfl⟩ := h
        exact ⟨rfl, Or.inr ⟨f, p, _, ha, hroot, hst, ⟨hs, h7⟩, h6⟩⟩
      · rw [(feature_quiet (w := w) (f := f) hrn).2 hs] at h4
        cases h4
  · simp only [Res.ok.injEq, MainEnd.exit.injEq] at h
    obtain ⟨rfl, rfl, rfl⟩ := h
    refine ⟨rfl, Or.inl ⟨?_, rfl⟩⟩
    obtain ⟨h1, h2⟩ := hb rfl
    match args, h1, h2 with
    | [a], _, h2 => simpa [eq_comm] using h2

/-- **C47, checkout** (full statement: also requires the global feature to be granted, and does not ask that a
manager can be created; see the two theorems below).  With enough memory, asking for a checkout always ends
with an exit status, nothing having been sent, and the status is success if and only if the path is an existing
directory and the license manager grants the feature. -/
theorem c47_checkout_partial {conf : LveConf} {w : World} (hw : Ample w) {args : List Bytes} {f p : Bytes}
    (ha : AsksCheckout args f p) (hf : f.length < 2 ^ 63) (hp : (0 : UInt8) ∉ p ∧ p.length < 2 ^ 63)
    (hstart : ∀ root, IsRootOf p root → w.stat root = some true → CanStart conf root) :
    ∃ ok calls, lveMain conf w args = .ok (.exit ok [] calls) ∧
      (ok = true ↔ ∃ root, IsRootOf p root ∧ w.stat root = some true ∧ Grants conf root f) := by
  obtain ⟨hpn, hpl⟩ := hp
  unfold lveMain
  rw [optionLoop_asks hw ha]
  simp only [Res.bind_ok, checkoutFeature]
  have h1 := composeCommand_cases (m := w.malloc) (c := .lib) rfl (arg := p) (e := []) hpl
  rw [show CmdId.name .lib = b!"LIB" from rfl] at h1
  have h2 := composeCommand_cases (m := w.malloc) (c := .feature) rfl (arg := f) (e := []) hf
  rw [show CmdId.name .feature = b!"FEATURE" from rfl] at h2
  rcases h1 with ⟨-, h1⟩ | h1
  · exact absurd hw h1
  rcases h2 with ⟨-, h2⟩ | h2
  · exact absurd hw h2
  rw [h1]
  simp only [Res.bind_ok]
  rw [h2]
  simp only [Res.bind_ok]
  by_cases hne : p = []
  · obtain ⟨st, h3⟩ := (libpath_quiet_eq (conf := conf) hw p).1 hne
    obtain ⟨-, hc, -⟩ := libpath_quiet hpl h3
    rw [h3]
    refine ⟨false, _, rfl, by simp, ?_⟩
    rintro ⟨root, ⟨seps, e, -, hr, -⟩, -⟩
    rw [hne] at e
    simp only [List.nil_eq, List.append_eq_nil_iff] at e
    exact absurd e.1 hr
  · have hroot := trimLoop_isRootOf hne
    have hrn : (0 : UInt8) ∉ trimLoop p p.length := by
      intro h0
      obtain ⟨seps, e, -⟩ := hroot
      exact hpn (by rw [e]; simp [h0])
    have hcs : cstr (trimLoop p p.length) = trimLoop p p.length := cstr_of_noNul fun b hb h0 => hrn (h0 ▸ hb)
    obtain ⟨st, h3⟩ := (libpath_quiet_eq (conf := conf) hw p).2 hne
    obtain ⟨-, hc, hok⟩ := libpath_quiet hpl h3
    rw [h3]
    rw [hcs] at hok ⊢
    simp only [Res.bind_ok]
    by_cases hst : w.stat (trimLoop p p.length) = some true
    · obtain ⟨-, -, rfl⟩ := hok (by simp [hst])
      have hs : conf.licenseManager [.new (some (trimLoop p p.length))] = .success := hstart _ hroot hst
      obtain ⟨st', h5, h6⟩ := (feature_quiet (w := w) (f := f) hrn).1 hs
      simp only [hst, BEq.rfl, not_true_eq_false, if_false, h5, Res.bind_ok]
      refine ⟨_, _, rfl, ?_⟩
      constructor
      · intro h
        exact ⟨_, hroot, hst, hs, by simpa using h⟩
      · rintro ⟨root, hr, -, -, hg⟩
        rw [isRootOf_unique hr hroot] at hg
        simp [hg]
    · have hb : (w.stat (trimLoop p p.length) == some true) = false := by simpa using hst
      simp only [hb, Bool.false_eq_true, not_false_eq_true, if_true]
      refine ⟨false, _, rfl, by simp, ?_⟩
      rintro ⟨root, hr, h4, -⟩
      rw [isRootOf_unique hr hroot] at h4
      exact absurd h4 hst

/-- **C47, misuse.** A connection is only served if there are no arguments or just a library path; and with
arguments that neither ask for a checkout nor lack a value, version, usage or a connection, the executable
exits unsuccessfully without having called the license manager. -/
theorem c47_misuse {conf : LveConf} {w : World} {args : List Bytes} :
    (lveMain conf w args = .ok .serve → args = [] ∨ ∃ p, args = [b!"--libpath", p]) ∧
    ((∀ f p, ¬ AsksCheckout args f p) → ¬ LacksValue args → args ≠ [b!"--version"] → args ≠ [b!"--help"] →
      args ≠ [] → (∀ p, args ≠ [b!"--libpath", p]) → lveMain conf w args = .ok (.exit false [] [])) := by
  constructor
  · intro h
    unfold lveMain at h
    rw [Res.bind_eq_ok] at h
    obtain ⟨o, ho, h⟩ := h
    rcases optionLoop_cases ho with ⟨rfl, e⟩ | ⟨f, rfl, -⟩ | ⟨p, rfl, e⟩ | ⟨f, p, rfl, ha⟩ | ⟨b, rfl, hb⟩
    · exact Or.inl e
    · simp at h
    · exact Or.inr ⟨p, e⟩
    · exfalso
      simp only [checkoutFeature, Res.bind_eq_ok] at h
      obtain ⟨⟨l, e⟩, -, h⟩ := h
      cases l with
      | none => simp at h
      | some l =>
        simp only [Res.bind_eq_ok] at h
        obtain ⟨⟨l, e⟩, -, h⟩ := h
        cases l with
        | none => simp at h
        | some l =>
          simp only [Res.bind_eq_ok] at h
          obtain ⟨⟨st, out, ok⟩, -, h⟩ := h
          cases ok with
          | false => simp at h
          | true =>
            simp only [not_true_eq_false, if_false, Res.bind_eq_ok] at h
            obtain ⟨⟨st, out, ok⟩, -, h⟩ := h
            simp at h
    · simp at h
  · intro hc hl hv hh h0 hp
    have hok : ∃ o, optionLoop w.malloc (args.length + 1) args none none = .ok o := by
      by_contra hno
      apply hl
      exact optionLoop_ub (by simpa using hno)
    obtain ⟨o, ho⟩ := hok
    unfold lveMain
    rw [ho]
    simp only [Res.bind_ok]
    rcases optionLoop_cases ho with ⟨rfl, e⟩ | ⟨f, rfl, -⟩ | ⟨p, rfl, e⟩ | ⟨f, p, rfl, ha⟩ | ⟨b, rfl, hb⟩
    · exact absurd e h0
    · rfl
    · exact absurd e (hp p)
    · exact absurd ha (hc f p)
    · cases b with
      | false => rfl
      | true =>
        exfalso
        obtain ⟨h1, h2⟩ := hb rfl
        match args, h1, h2 with
        | [a], _, h2 =>
          simp only [List.mem_singleton] at h2
          rcases h2 with rfl | rfl
          · exact hv rfl
          · exact hh rfl

/-- **C47 is false for a missing value**: an option at the end without its value is undefined behaviour. -/
theorem c47_missing_value_not {conf : LveConf} {w : World} (hw : Ample w) {args : List Bytes}
    (h : LacksValue args) : lveMain conf w args = .ub .nullDeref := by
  rcases h with rfl | rfl | ⟨f, rfl⟩ | ⟨p, rfl⟩ <;> simp [lveMain, optionLoop, hw _]

/-- **C47 is false for the global feature**: it is not asked for on the command line, so that a manager that
refuses it does not matter. -/
theorem c47_global_not : ∃ (conf : LveConf) (w : World) (args : List Bytes) (g f p : Bytes), Ample w ∧
    AsksCheckout args f p ∧ conf.globalFeature = some g ∧
    (∀ cs, conf.licenseManager (cs ++ [.checkout g]) = .failure (some b!"denied")) ∧
    lveMain conf w args = .ok (.exit true [] [.new (some b!"/l"), .checkout f]) := by
  refine ⟨toyConf [] (some b!"g") fun cs => if cs.getLast? = some (.checkout b!"g") then
      .failure (some b!"denied") else .success, lib1, _, b!"g", b!"f", b!"/l/", ?_, Or.inl rfl, rfl, ?_, ?_⟩
  · intro n; rfl
  · intro cs; simp [toyConf]
  · decide +kernel

/-- **C47 is false if no manager can be created**: the executable then tries to send an error to a tool that
is not there. -/
theorem c47_no_manager_not {conf : LveConf} {w : World} (hw : Ample w) {args : List Bytes} {f p root : Bytes}
    (ha : AsksCheckout args f p) (hf : f.length < 2 ^ 63) (hp : (0 : UInt8) ∉ p ∧ p.length < 2 ^ 63)
    (hr : IsRootOf p root) (hst : w.stat root = some true) (hno : ¬ CanStart conf root) :
    lveMain conf w args = .ub .nullDeref := by
  obtain ⟨hpn, hpl⟩ := hp
  unfold lveMain
  rw [optionLoop_asks hw ha]
  simp only [Res.bind_ok, checkoutFeature]
  have h1 := composeCommand_cases (m := w.malloc) (c := .lib) rfl (arg := p) (e := []) hpl
  rw [show CmdId.name .lib = b!"LIB" from rfl] at h1
  have h2 := composeCommand_cases (m := w.malloc) (c := .feature) rfl (arg := f) (e := []) hf
  rw [show CmdId.name .feature = b!"FEATURE" from rfl] at h2
  rcases h1 with ⟨-, h1⟩ | h1
  · exact absurd hw h1
  rcases h2 with ⟨-, h2⟩ | h2
  · exact absurd hw h2
  rw [h1]
  simp only [Res.bind_ok]
  rw [h2]
  simp only [Res.bind_ok]
  have hne : p ≠ [] := by
    obtain ⟨seps, rfl, -, h, -⟩ := hr
    simp [h]
  have htr : trimLoop p p.length = root := isRootOf_unique (trimLoop_isRootOf hne) hr
  have hrn : (0 : UInt8) ∉ root := by
    intro h0
    obtain ⟨seps, e, -⟩ := hr
    exact hpn (by rw [e]; simp [h0])
  have hcs : cstr root = root := cstr_of_noNul fun b hb h0 => hrn (h0 ▸ hb)
  obtain ⟨st, h3⟩ := (libpath_quiet_eq (conf := conf) hw p).2 hne
  obtain ⟨-, -, hok⟩ := libpath_quiet hpl h3
  rw [htr, hcs] at hok
  obtain ⟨-, -, rfl⟩ := hok (by rw [← hcs]; simp [hcs, hst])
  rw [h3, htr, hcs]
  simp only [Res.bind_ok, hst, BEq.rfl, not_true_eq_false, if_false]
  rw [(feature_quiet (w := w) (f := f) hrn).2 hno]
  rfl

/-- Hypotheses and both outcomes of the checkout, a path that is no directory, misuse. -/
example : AsksCheckout [b!"--libpath", b!"/l/", b!"--checkout-feature", b!"f"] b!"f" b!"/l/" ∧
    lveMain (toyConf [] none grudging) lib1 [b!"--libpath", b!"/l/", b!"--checkout-feature", b!"f"] =
      .ok (.exit true [] [.new (some b!"/l"), .checkout b!"f"]) ∧
    lveMain (toyConf [] none grudging) lib1 [b!"--checkout-feature", b!"g", b!"--libpath", b!"/l"] =
      .ok (.exit false [] [.new (some b!"/l"), .checkout b!"g"]) ∧
    lveMain (toyConf [] none grudging) lib1 [b!"--checkout-feature", b!"f", b!"--libpath", b!"/m"] =
      .ok (.exit false [] []) ∧
    lveMain (toyConf [] none grudging) lib1 [b!"--libpath", b!"/l", b!"--version"] = .ok (.exit false [] []) ∧
    lveMain (toyConf [] none grudging) lib1 [b!"--libpath", b!"/l"] = .ok .serve ∧
    CanStart (toyConf [] none grudging) b!"/l" := by
  refine ⟨Or.inr rfl, ?_⟩
  unfold CanStart
  decide +kernel

example : ¬ CanStart (toyConf [] none fun _ => .failure (some b!"no server")) b!"/l" ∧
    lib1.stat b!"/l" = some true := by
  unfold CanStart
  decide +kernel

end Semla.Props
