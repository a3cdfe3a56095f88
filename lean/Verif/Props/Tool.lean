import Verif.Lemmas.Tool

/-!
# Properties of the tool's calls: C26, C27, and the tool's side of C03, C14, C25

`Replies`, `Reply.is`, `NextRecord`, `Returns` and `Writes` are defined in `Verif/Spec/Tool.lean`.
All allocations succeed here; the error location the caller passes is empty, as the API demands.
-/

set_option linter.unusedSimpArgs false

namespace Semla.Props

open Semla Semla.Spec

/-- The call returns `a` and leaves the error location empty if `good`, and otherwise fails and leaves an
error object there. -/
def Verdict {α : Type} (good : Prop) (a : α) (out : ToolOut α) : Prop :=
  (good → out = .success a (some none)) ∧ (¬ good → ∃ e, out = .failed (some (some e)))

/-! ## C03, the tool's part -/

/-- **C03 (list of expected commands).** Whatever command arrives and whatever non-empty list of commands is
expected, the text saying so is written completely, with its terminator, inside the buffer allocated for it,
although the later writes are given the size of the whole buffer. -/
theorem c03_expected_text_fits (got first : CmdId) (more : List CmdId) :
    ∃ text, expectedText got first more = .ok text ∧
      text = b!"Unexpected command " ++ got.name ++ b!". Expected one of the following commands: " ++
        first.name ++ (more.map fun c => b!", " ++ c.name).flatten ∧
      text.length + 1 ≤ 100 + 19 * (more.length + 2) :=
  ⟨_, (expectedText_ok got first more).1, rfl, (expectedText_ok got first more).2⟩

example : expectedText .returnFeature .yes [.notSimple, .no] =
    .ok b!"Unexpected command RETURNFEATURE. Expected one of the following commands: YES, NOTSIMPLE, NO" := by
  decide +kernel

/-! ## C26 -/

theorem sendExpectYes_replies {t : Tool} {evs rest : List Ev} {r : Reply} (ht : t.inn = fresh evs)
    (hw : Returns t.wevs) (c : CmdId) {arg : Bytes} (hs : arg.length < 2 ^ 30) (hr : Replies evs rest r) :
    ∃ out t', sendExpectYes (fun _ => true) t c arg (some none) = .ok (out, t') ∧ t'.inn = fresh rest ∧
      Verdict (r.is .yes) () out ∧
      ∀ n d, r = .command .error n d → out = .failed (some (some
        ⟨2, 1, some ((b!"Got ERROR command with message: " ++ cstr d).take 2047)⟩)) := by
  have hcs : (cstr arg).length < 2 ^ 63 := by have := (List.takeWhile_prefix (p := (· ≠ (0 : UInt8))) (l := arg)).length_le; unfold cstr; omega
  obtain ⟨t1, h1, h2⟩ := toolSend_returns hw c arg hcs
  unfold sendExpectYes
  simp only [h1, Res.bind_ok]
  rw [ht] at h2
  cases r with
  | broken =>
    obtain ⟨e, he⟩ := expectCommand_broken h2 hr .yes
    rw [he]
    refine ⟨_, _, rfl, rfl, ⟨?_, fun _ => ⟨e, rfl⟩⟩, by simp⟩
    rintro ⟨n, d, h⟩; simp at h
  | command c n d =>
    obtain ⟨g1, g2, g3⟩ := expectCommand_command h2 hr .yes (by decide)
    by_cases hy : c = .yes
    · rw [g1 hy]
      subst hy
      exact ⟨_, _, rfl, rfl, ⟨fun _ => rfl, fun hn => absurd ⟨_, _, rfl⟩ hn⟩, by simp⟩
    · by_cases he : c = .error
      · rw [g2 he]
        subst he
        refine ⟨_, _, rfl, rfl, ⟨?_, fun _ => ⟨_, rfl⟩⟩, ?_⟩
        · rintro ⟨n, d, h⟩; simp at h
        · rintro n d h; simp at h; simp [h]
      · obtain ⟨e, -, -, h⟩ := g3 hy he
        rw [h]
        refine ⟨_, _, rfl, rfl, ⟨?_, fun _ => ⟨_, rfl⟩⟩, ?_⟩
        · rintro ⟨n, d, h⟩; simp at h; exact absurd h.1 hy
        · rintro n d h; simp at h; exact absurd h.1 he

/-- **C26, setting the library path.**  Full statement of C26: for everything that can arrive, the call
succeeds if and only if a well-formed reply of the expected kind arrives, and otherwise fails with an error
object.  This is false for replies whose data is not delivered as announced (see the `_not` theorems below);
it is shown here for every other reply.  For ERROR replies the text sent reaches the caller. -/
theorem c26_libpath_partial {t : Tool} {evs rest : List Ev} {r : Reply} (ht : t.inn = fresh evs)
    (hw : Returns t.wevs) {path : Bytes} (hs : path.length < 2 ^ 30) (hr : Replies evs rest r) :
    ∃ out t', toolLibpath (fun _ => true) t path (some none) = .ok (out, t') ∧ t'.inn = fresh rest ∧
      Verdict (r.is .yes) () out ∧
      ∀ n d, r = .command .error n d → out = .failed (some (some
        ⟨2, 1, some ((b!"Got ERROR command with message: " ++ cstr d).take 2047)⟩)) :=
  sendExpectYes_replies ht hw _ hs hr

/-- **C26, returning a feature.** -/
theorem c26_returnfeature_partial {t : Tool} {evs rest : List Ev} {r : Reply} (ht : t.inn = fresh evs)
    (hw : Returns t.wevs) {feature : Bytes} (hs : feature.length < 2 ^ 30) (hr : Replies evs rest r) :
    ∃ out t', toolReturnFeature (fun _ => true) t feature (some none) = .ok (out, t') ∧ t'.inn = fresh rest ∧
      Verdict (r.is .yes) () out ∧
      ∀ n d, r = .command .error n d → out = .failed (some (some
        ⟨2, 1, some ((b!"Got ERROR command with message: " ++ cstr d).take 2047)⟩)) :=
  sendExpectYes_replies ht hw _ hs hr

/-- **C26, returning a license.** -/
theorem c26_returnlicense_partial {t : Tool} {evs rest : List Ev} {r : Reply} (ht : t.inn = fresh evs)
    (hw : Returns t.wevs) {package : Bytes} (hs : package.length < 2 ^ 30) (hr : Replies evs rest r) :
    ∃ out t', toolReturnLicense (fun _ => true) t package (some none) = .ok (out, t') ∧ t'.inn = fresh rest ∧
      Verdict (r.is .yes) () out ∧
      ∀ n d, r = .command .error n d → out = .failed (some (some
        ⟨2, 1, some ((b!"Got ERROR command with message: " ++ cstr d).take 2047)⟩)) :=
  sendExpectYes_replies ht hw _ hs hr

/-- **C26, checking out a feature.**  A refusal is reported with its own code and the reason sent. -/
theorem c26_feature_partial {t : Tool} {evs rest : List Ev} {r : Reply} (ht : t.inn = fresh evs)
    (hw : Returns t.wevs) {feature : Bytes} (hs : feature.length < 2 ^ 30) (hr : Replies evs rest r) :
    ∃ out t', toolFeature (fun _ => true) t feature (some none) = .ok (out, t') ∧ t'.inn = fresh rest ∧
      Verdict (r.is .yes) () out ∧
      (∀ n d, r = .command .no n d → out = .failed (some (some ⟨2, 3, some ((cstr d).take 2047)⟩))) ∧
      ∀ n d, r = .command .error n d → out = .failed (some (some
        ⟨2, 1, some ((b!"Got ERROR command with message: " ++ cstr d).take 2047)⟩)) := by
  have hcs : (cstr feature).length < 2 ^ 63 := by have := (List.takeWhile_prefix (p := (· ≠ (0 : UInt8))) (l := feature)).length_le; unfold cstr; omega
  obtain ⟨t1, h1, h2⟩ := toolSend_returns hw .feature feature hcs
  unfold toolFeature
  simp only [h1, Res.bind_ok]
  rw [ht] at h2
  cases r with
  | broken =>
    obtain ⟨e, he⟩ := expectCommands_broken h2 hr .yes [.no]
    rw [he]
    refine ⟨_, _, rfl, rfl, ⟨?_, fun _ => ⟨e, rfl⟩⟩, by simp, by simp⟩
    rintro ⟨n, d, h⟩; simp at h
  | command c n d =>
    obtain ⟨g1, g2, g3⟩ := expectCommands_command h2 hr .yes [.no]
    by_cases hy : c = .yes
    · subst hy
      rw [g1 (by simp) (by decide)]
      exact ⟨_, _, rfl, rfl, ⟨fun _ => rfl, fun hn => absurd ⟨_, _, rfl⟩ hn⟩, by simp, by simp⟩
    by_cases hno : c = .no
    · subst hno
      rw [g1 (by simp) (by decide)]
      simp only [Res.bind_ok, reduceCtorEq, if_false, if_true, dataOf, CmdId.form, true_or,
        errorSetData_ok, List.nil_append, domainTool, codeNoLicense]
      refine ⟨_, _, rfl, rfl, ⟨?_, fun _ => ⟨_, rfl⟩⟩, ?_, by simp⟩
      · rintro ⟨n, d, h⟩; simp at h
      · rintro n d h; simp at h; simp [h]
    by_cases he : c = .error
    · rw [g2 he]
      subst he
      refine ⟨_, _, rfl, rfl, ⟨?_, fun _ => ⟨_, rfl⟩⟩, by simp, ?_⟩
      · rintro ⟨n, d, h⟩; simp at h
      · rintro n d h; simp at h; simp [h]
    · obtain ⟨e, -, -, h⟩ := g3 (by simp [hy, hno]) he
      rw [h]
      refine ⟨_, _, rfl, rfl, ⟨?_, fun _ => ⟨_, rfl⟩⟩, ?_, ?_⟩
      · rintro ⟨n, d, h⟩; simp at h; exact absurd h.1 hy
      · rintro n d h; simp at h; exact absurd h.1 hno
      · rintro n d h; simp at h; exact absurd h.1 he

/-- **C26 and C25, checking a license.**  Only YES is success; NOTSIMPLE is reported with its own code, NO
with its own code and the reason sent. -/
theorem c26_license_partial {t : Tool} {evs rest : List Ev} {r : Reply} (ht : t.inn = fresh evs)
    (hw : Returns t.wevs) {package : Bytes} (hs : package.length < 2 ^ 30) (hr : Replies evs rest r) :
    ∃ out t', toolLicense (fun _ => true) t package (some none) = .ok (out, t') ∧ t'.inn = fresh rest ∧
      Verdict (r.is .yes) () out ∧
      (∀ n d, r = .command .no n d → out = .failed (some (some ⟨2, 3, some ((cstr d).take 2047)⟩))) ∧
      (r.is .notSimple → ∃ e : Err, out = .failed (some (some e)) ∧ e.domain = 2 ∧ e.code = 4) ∧
      ∀ n d, r = .command .error n d → out = .failed (some (some
        ⟨2, 1, some ((b!"Got ERROR command with message: " ++ cstr d).take 2047)⟩)) := by
  have hcs : (cstr package).length < 2 ^ 63 := by have := (List.takeWhile_prefix (p := (· ≠ (0 : UInt8))) (l := package)).length_le; unfold cstr; omega
  obtain ⟨t1, h1, h2⟩ := toolSend_returns hw .license package hcs
  unfold toolLicense
  simp only [h1, Res.bind_ok]
  rw [ht] at h2
  cases r with
  | broken =>
    obtain ⟨e, he⟩ := expectCommands_broken h2 hr .yes [.notSimple, .no]
    rw [he]
    refine ⟨_, _, rfl, rfl, ⟨?_, fun _ => ⟨e, rfl⟩⟩, by simp, ?_, by simp⟩ <;>
      (rintro ⟨n, d, h⟩; simp at h)
  | command c n d =>
    obtain ⟨g1, g2, g3⟩ := expectCommands_command h2 hr .yes [.notSimple, .no]
    by_cases hy : c = .yes
    · subst hy
      rw [g1 (by simp) (by decide)]
      refine ⟨_, _, rfl, rfl, ⟨fun _ => rfl, fun hn => absurd ⟨_, _, rfl⟩ hn⟩, by simp, ?_, by simp⟩
      rintro ⟨n, d, h⟩; simp at h
    by_cases hns : c = .notSimple
    · subst hns
      rw [g1 (by simp) (by decide)]
      simp only [Res.bind_ok, reduceCtorEq, if_false, if_true, errorSetLiteral, errorNewLiteral, domainTool,
        codeNotSimplified]
      refine ⟨_, _, rfl, rfl, ⟨?_, fun _ => ⟨_, rfl⟩⟩, by simp, fun _ => ⟨_, rfl, rfl, rfl⟩, by simp⟩
      rintro ⟨n, d, h⟩; simp at h
    by_cases hno : c = .no
    · subst hno
      rw [g1 (by simp) (by decide)]
      simp only [Res.bind_ok, reduceCtorEq, if_false, if_true, dataOf, CmdId.form, true_or,
        errorSetData_ok, List.nil_append, domainTool, codeNoLicense]
      refine ⟨_, _, rfl, rfl, ⟨?_, fun _ => ⟨_, rfl⟩⟩, ?_, ?_, by simp⟩
      · rintro ⟨n, d, h⟩; simp at h
      · rintro n d h; simp at h; simp [h]
      · rintro ⟨n, d, h⟩; simp at h
    by_cases he : c = .error
    · rw [g2 he]
      subst he
      refine ⟨_, _, rfl, rfl, ⟨?_, fun _ => ⟨_, rfl⟩⟩, by simp, ?_, ?_⟩
      · rintro ⟨n, d, h⟩; simp at h
      · rintro ⟨n, d, h⟩; simp at h
      · rintro n d h; simp at h; simp [h]
    · obtain ⟨e, -, -, h⟩ := g3 (by simp [hy, hns, hno]) he
      rw [h]
      refine ⟨_, _, rfl, rfl, ⟨?_, fun _ => ⟨_, rfl⟩⟩, ?_, ?_, ?_⟩
      · rintro ⟨n, d, h⟩; simp at h; exact absurd h.1 hy
      · rintro n d h; simp at h; exact absurd h.1 hno
      · rintro ⟨n, d, h⟩; simp at h; exact absurd h.1 hns
      · rintro n d h; simp at h; exact absurd h.1 he

/-- **C26, fetching a file.**  The contents handed out are exactly the data of the reply. -/
theorem c26_file_partial {t : Tool} {evs rest : List Ev} {r : Reply} (ht : t.inn = fresh evs)
    (hw : Returns t.wevs) {path : Bytes} (hs : path.length < 2 ^ 30) (hr : Replies evs rest r) :
    ∃ out t', toolFile (fun _ => true) t path (some none) = .ok (out, t') ∧ t'.inn = fresh rest ∧
      (∀ n d, r = .command .fileCont n d →
        out = .success ⟨d.length, 0, some ⟨d.map some ++ [some 0]⟩⟩ (some none)) ∧
      (¬ r.is .fileCont → ∃ e, out = .failed (some (some e))) ∧
      ∀ n d, r = .command .error n d → out = .failed (some (some
        ⟨2, 1, some ((b!"Got ERROR command with message: " ++ cstr d).take 2047)⟩)) := by
  have hcs : (cstr path).length < 2 ^ 63 := by have := (List.takeWhile_prefix (p := (· ≠ (0 : UInt8))) (l := path)).length_le; unfold cstr; omega
  obtain ⟨t1, h1, h2⟩ := toolSend_returns hw .file path hcs
  unfold toolFile
  simp only [h1, Res.bind_ok]
  rw [ht] at h2
  cases r with
  | broken =>
    obtain ⟨e, he⟩ := expectCommand_broken h2 hr .fileCont
    rw [he]
    exact ⟨_, _, rfl, rfl, by simp, fun _ => ⟨e, rfl⟩, by simp⟩
  | command c n d =>
    obtain ⟨g1, g2, g3⟩ := expectCommand_command h2 hr .fileCont (by decide)
    by_cases hy : c = .fileCont
    · rw [g1 hy]
      subst hy
      refine ⟨_, _, rfl, rfl, ?_, fun hn => absurd ⟨_, _, rfl⟩ hn, by simp⟩
      rintro n d h; simp at h; simp [h, dataOf, CmdId.form]
    · by_cases he : c = .error
      · rw [g2 he]
        subst he
        refine ⟨_, _, rfl, rfl, by simp, fun _ => ⟨_, rfl⟩, ?_⟩
        rintro n d h; simp at h; simp [h]
      · obtain ⟨e, -, -, h⟩ := g3 hy he
        rw [h]
        refine ⟨_, _, rfl, rfl, ?_, fun _ => ⟨_, rfl⟩, ?_⟩
        · rintro n d h; simp at h; exact absurd h.1 hy
        · rintro n d h; simp at h; exact absurd h.1 he

/-- **C26 and C14, negotiating the version.**  If the command can be sent, the call succeeds exactly if the
answer is VERSION with a number between the two bounds. -/
theorem c26_version_partial {t : Tool} {evs rest : List Ev} {after : List WEv} {r : Reply}
    (ht : t.inn = fresh evs) (hw : Writes t.wevs after) (minV maxV : Int) (hr : Replies evs rest r) :
    ∃ out t', toolVersion (fun _ => true) t minV maxV (some none) = .ok (out, t') ∧ t'.inn = fresh rest ∧
      Verdict (∃ v d, r = .command .version v d ∧ minV ≤ v ∧ v ≤ maxV) () out ∧
      ∀ n d, r = .command .error n d → out = .failed (some (some
        ⟨2, 1, some ((b!"Got ERROR command with message: " ++ cstr d).take 2047)⟩)) := by
  unfold toolVersion Tool.write
  rw [write_writes hw]
  simp only
  rw [if_neg (by omega)]
  generalize ht1 : ({ t with wevs := after, wire := _ } : Tool) = t1
  have h2 : t1.inn = fresh evs := by rw [← ht1]; exact ht
  cases r with
  | broken =>
    obtain ⟨e, he⟩ := expectCommand_broken h2 hr .version
    rw [he]
    refine ⟨_, _, rfl, rfl, ⟨?_, fun _ => ⟨e, rfl⟩⟩, by simp⟩
    rintro ⟨n, d, h, -⟩; simp at h
  | command c n d =>
    obtain ⟨g1, g2, g3⟩ := expectCommand_command h2 hr .version (by decide)
    by_cases hy : c = .version
    · rw [g1 hy]
      subst hy
      simp only [Res.bind_ok]
      split
      · rw [errorSet_ok]
        refine ⟨_, _, rfl, rfl, ⟨?_, fun _ => ⟨_, rfl⟩⟩, by simp⟩
        rintro ⟨v, d, h, h3, h4⟩; simp at h; omega
      · split
        · rw [errorSet_ok]
          refine ⟨_, _, rfl, rfl, ⟨?_, fun _ => ⟨_, rfl⟩⟩, by simp⟩
          rintro ⟨v, d, h, h3, h4⟩; simp at h; omega
        · exact ⟨_, _, rfl, rfl, ⟨fun _ => rfl, fun hn => absurd ⟨n, d, rfl, by omega, by omega⟩ hn⟩, by simp⟩
    · by_cases he : c = .error
      · rw [g2 he]
        subst he
        refine ⟨_, _, rfl, rfl, ⟨?_, fun _ => ⟨_, rfl⟩⟩, ?_⟩
        · rintro ⟨n, d, h, -⟩; simp at h
        · rintro n d h; simp at h; simp [h]
      · obtain ⟨e, -, -, h⟩ := g3 hy he
        rw [h]
        refine ⟨_, _, rfl, rfl, ⟨?_, fun _ => ⟨_, rfl⟩⟩, ?_⟩
        · rintro ⟨n, d, h, -⟩; simp at h; exact absurd h.1 hy
        · rintro n d h; simp at h; exact absurd h.1 he

/-- The answer the tool acts on: the next record arrives, and (without its last byte) it is this command. -/
def Answered (evs : List Ev) (c : CmdId) (n : Int) (len : Nat) : Prop :=
  ∃ b, NextRecord evs b ∧ Accepts b.dropLast c n len

theorem sendExpectYes_inv {t t' : Tool} {evs : List Ev} (ht : t.inn = fresh evs) {c : CmdId} {arg : Bytes}
    {loc : ErrLoc} {out : ToolOut Unit} (h : sendExpectYes (fun _ => true) t c arg loc = .ok (out, t')) :
    (∀ l, out = .failed l → loc = some none → ∃ e, l = some (some e)) ∧
    (∀ l, out = .success () l → ∃ n len, Answered evs .yes n len) := by
  unfold sendExpectYes at h
  obtain ⟨⟨b, t1⟩, h1, h⟩ := Res.bind_eq_ok.1 h
  have h2 := (toolSend_inn h1).trans ht
  cases b with
  | false => simp at h; simp [← h.1]
  | true =>
    simp only at h
    obtain ⟨⟨r, t2⟩, h3, h⟩ := Res.bind_eq_ok.1 h
    obtain ⟨i1, i2⟩ := expectCommand_inv h2 h3
    cases r with
    | blocked => simp at h; simp [← h.1]
    | failed l => simp at h; simp [← h.1]; exact fun hl => i1 l rfl hl
    | success cmd l =>
      simp at h; simp [← h.1]
      obtain ⟨h4, -, b, h5, h6⟩ := i2 cmd l rfl
      simp at h4
      exact ⟨_, _, b, h5, h4 ▸ h6⟩

/-- **C26, success only on the expected answer**, whatever arrives (complete or not, well-formed or not),
however writes go and whether or not an error location is passed: a call that returns success has received, as
the next record, a well-formed command of the kind it expects. -/
theorem c26_success_only {t t' : Tool} {evs : List Ev} (ht : t.inn = fresh evs) (loc : ErrLoc) (arg : Bytes)
    (minV maxV : Int) (l : ErrLoc) (f : FileContents) :
    (toolVersion (fun _ => true) t minV maxV loc = .ok (.success () l, t') →
      ∃ v len, Answered evs .version v len ∧ minV ≤ v ∧ v ≤ maxV) ∧
    (toolLibpath (fun _ => true) t arg loc = .ok (.success () l, t') → ∃ n len, Answered evs .yes n len) ∧
    (toolFeature (fun _ => true) t arg loc = .ok (.success () l, t') → ∃ n len, Answered evs .yes n len) ∧
    (toolReturnFeature (fun _ => true) t arg loc = .ok (.success () l, t') → ∃ n len, Answered evs .yes n len) ∧
    (toolLicense (fun _ => true) t arg loc = .ok (.success () l, t') → ∃ n len, Answered evs .yes n len) ∧
    (toolReturnLicense (fun _ => true) t arg loc = .ok (.success () l, t') → ∃ n len, Answered evs .yes n len) ∧
    (toolFile (fun _ => true) t arg loc = .ok (.success f l, t') →
      ∃ n, Answered evs .fileCont n (toolGetFileSize f)) := by
  refine ⟨?_, fun h => (sendExpectYes_inv ht h).2 l rfl, ?_, fun h => (sendExpectYes_inv ht h).2 l rfl, ?_,
    fun h => (sendExpectYes_inv ht h).2 l rfl, ?_⟩
  · intro h
    unfold toolVersion at h
    rcases hw : t.write (sendNumber .version maxV) with ⟨_ | k, t1⟩
    · simp [hw] at h
    · have h2 : t1.inn = fresh evs := by
        unfold Tool.write at hw
        rcases hv : sslWriteMessage (sendNumber .version maxV) t.wevs with ⟨_ | ⟨a, b⟩, r⟩ <;> simp [hv] at hw
        simp [← hw.2, ht]
      simp only [hw] at h
      split at h
      · simp at h
      · obtain ⟨⟨r, t2⟩, h3, h⟩ := Res.bind_eq_ok.1 h
        obtain ⟨-, i2⟩ := expectCommand_inv h2 h3
        cases r with
        | blocked => simp at h
        | failed l => simp at h
        | success cmd l =>
          obtain ⟨h4, -, b, h5, h6⟩ := i2 cmd l rfl
          simp only at h
          split at h
          · obtain ⟨_, -, h⟩ := Res.bind_eq_ok.1 h; simp at h
          · split at h
            · obtain ⟨_, -, h⟩ := Res.bind_eq_ok.1 h; simp at h
            · simp at h4
              exact ⟨_, _, ⟨b, h5, h4 ▸ h6⟩, by omega, by omega⟩
  · intro h
    unfold toolFeature at h
    obtain ⟨⟨b, t1⟩, h1, h⟩ := Res.bind_eq_ok.1 h
    have h2 := (toolSend_inn h1).trans ht
    cases b with
    | false => simp at h
    | true =>
      simp only at h
      obtain ⟨⟨r, t2⟩, h3, h⟩ := Res.bind_eq_ok.1 h
      obtain ⟨-, i2⟩ := expectCommands_inv h2 h3
      cases r with
      | blocked => simp at h
      | failed l => simp at h
      | success cmd l =>
        obtain ⟨h4, -, b, h5, h6⟩ := i2 cmd l rfl
        simp only at h
        split at h
        · rename_i hid; exact ⟨_, _, b, h5, hid ▸ h6⟩
        · split at h
          · obtain ⟨_, -, h⟩ := Res.bind_eq_ok.1 h; simp at h
          · simp at h
  · intro h
    unfold toolLicense at h
    obtain ⟨⟨b, t1⟩, h1, h⟩ := Res.bind_eq_ok.1 h
    have h2 := (toolSend_inn h1).trans ht
    cases b with
    | false => simp at h
    | true =>
      simp only at h
      obtain ⟨⟨r, t2⟩, h3, h⟩ := Res.bind_eq_ok.1 h
      obtain ⟨-, i2⟩ := expectCommands_inv h2 h3
      cases r with
      | blocked => simp at h
      | failed l => simp at h
      | success cmd l =>
        obtain ⟨h4, -, b, h5, h6⟩ := i2 cmd l rfl
        simp only at h
        split at h
        · rename_i hid; exact ⟨_, _, b, h5, hid ▸ h6⟩
        · split at h
          · obtain ⟨_, -, h⟩ := Res.bind_eq_ok.1 h; simp at h
          · split at h
            · obtain ⟨_, -, h⟩ := Res.bind_eq_ok.1 h; simp at h
            · simp at h
  · intro h
    unfold toolFile at h
    obtain ⟨⟨b, t1⟩, h1, h⟩ := Res.bind_eq_ok.1 h
    have h2 := (toolSend_inn h1).trans ht
    cases b with
    | false => simp at h
    | true =>
      simp only at h
      obtain ⟨⟨r, t2⟩, h3, h⟩ := Res.bind_eq_ok.1 h
      obtain ⟨-, i2⟩ := expectCommand_inv h2 h3
      cases r with
      | blocked => simp at h
      | failed l => simp at h
      | success cmd l =>
        obtain ⟨h4, -, b, h5, h6⟩ := i2 cmd l rfl
        simp at h h4
        rw [← h.1.1]
        exact ⟨_, b, h5, h4 ▸ h6⟩

/-- **C26, failure always comes with an error object**, whatever arrives, if the caller passes an empty error
location.  Full statement: for every call.  Missing: `mlle_tool_version` when the command cannot be sent (see
`c26_version_send_failure_not`). -/
theorem c26_failure_error_partial {t t' : Tool} {evs : List Ev} (ht : t.inn = fresh evs) (arg : Bytes)
    (minV maxV : Int) (l : ErrLoc) :
    (∀ after, Writes t.wevs after →
      toolVersion (fun _ => true) t minV maxV (some none) = .ok (.failed l, t') → ∃ e, l = some (some e)) ∧
    (toolLibpath (fun _ => true) t arg (some none) = .ok (.failed l, t') → ∃ e, l = some (some e)) ∧
    (toolFeature (fun _ => true) t arg (some none) = .ok (.failed l, t') → ∃ e, l = some (some e)) ∧
    (toolReturnFeature (fun _ => true) t arg (some none) = .ok (.failed l, t') → ∃ e, l = some (some e)) ∧
    (toolLicense (fun _ => true) t arg (some none) = .ok (.failed l, t') → ∃ e, l = some (some e)) ∧
    (toolReturnLicense (fun _ => true) t arg (some none) = .ok (.failed l, t') → ∃ e, l = some (some e)) ∧
    (toolFile (fun _ => true) t arg (some none) = .ok (.failed l, t') → ∃ e, l = some (some e)) := by
  refine ⟨?_, fun h => (sendExpectYes_inv ht h).1 l rfl rfl, ?_, fun h => (sendExpectYes_inv ht h).1 l rfl rfl, ?_,
    fun h => (sendExpectYes_inv ht h).1 l rfl rfl, ?_⟩
  · intro after hw h
    unfold toolVersion Tool.write at h
    rw [write_writes hw] at h
    simp only at h
    rw [if_neg (by omega)] at h
    obtain ⟨⟨r, t2⟩, h3, h⟩ := Res.bind_eq_ok.1 h
    obtain ⟨i1, i2⟩ := expectCommand_inv (evs := evs) (by exact ht) h3
    cases r with
    | blocked => simp at h
    | failed l => simp at h; exact h.1 ▸ i1 l rfl rfl
    | success cmd l1 =>
      obtain ⟨-, hl1, -⟩ := i2 cmd l1 rfl
      simp only at h
      split at h
      · obtain ⟨_, h4, h⟩ := Res.bind_eq_ok.1 h; simp at h; rw [← h.1]
        exact set_some (errorSet_inv h4) hl1 rfl
      · split at h
        · obtain ⟨_, h4, h⟩ := Res.bind_eq_ok.1 h; simp at h; rw [← h.1]
          exact set_some (errorSet_inv h4) hl1 rfl
        · simp at h
  · intro h
    unfold toolFeature at h
    obtain ⟨⟨b, t1⟩, h1, h⟩ := Res.bind_eq_ok.1 h
    have h2 := (toolSend_inn h1).trans ht
    cases b with
    | false => simp at h
    | true =>
      simp only at h
      obtain ⟨⟨r, t2⟩, h3, h⟩ := Res.bind_eq_ok.1 h
      obtain ⟨i1, i2⟩ := expectCommands_inv h2 h3
      cases r with
      | blocked => simp at h
      | failed l => simp at h; exact h.1 ▸ i1 l rfl rfl
      | success cmd l1 =>
        obtain ⟨-, hl1, -⟩ := i2 cmd l1 rfl
        simp only at h
        split at h
        · simp at h
        · split at h
          · obtain ⟨_, h4, h⟩ := Res.bind_eq_ok.1 h; simp at h; rw [← h.1]
            exact set_some (errorSetData_inv h4) hl1 rfl
          · simp at h
  · intro h
    unfold toolLicense at h
    obtain ⟨⟨b, t1⟩, h1, h⟩ := Res.bind_eq_ok.1 h
    have h2 := (toolSend_inn h1).trans ht
    cases b with
    | false => simp at h
    | true =>
      simp only at h
      obtain ⟨⟨r, t2⟩, h3, h⟩ := Res.bind_eq_ok.1 h
      obtain ⟨i1, i2⟩ := expectCommands_inv h2 h3
      cases r with
      | blocked => simp at h
      | failed l => simp at h; exact h.1 ▸ i1 l rfl rfl
      | success cmd l1 =>
        obtain ⟨-, hl1, -⟩ := i2 cmd l1 rfl
        simp only at h
        split at h
        · simp at h
        · split at h
          · obtain ⟨_, h4, h⟩ := Res.bind_eq_ok.1 h; simp at h; rw [← h.1]
            exact set_some (errorSetLiteral_inv h4) hl1 rfl
          · split at h
            · obtain ⟨_, h4, h⟩ := Res.bind_eq_ok.1 h; simp at h; rw [← h.1]
              exact set_some (errorSetData_inv h4) hl1 rfl
            · simp at h
  · intro h
    unfold toolFile at h
    obtain ⟨⟨b, t1⟩, h1, h⟩ := Res.bind_eq_ok.1 h
    have h2 := (toolSend_inn h1).trans ht
    cases b with
    | false => simp at h
    | true =>
      simp only at h
      obtain ⟨⟨r, t2⟩, h3, h⟩ := Res.bind_eq_ok.1 h
      obtain ⟨i1, i2⟩ := expectCommand_inv h2 h3
      cases r with
      | blocked => simp at h
      | failed l => simp at h; exact h.1 ▸ i1 l rfl rfl
      | success cmd l1 => simp at h

/-- A connection on which these events arrive and writes succeed. -/
def online (evs : List Ev) : Tool := ⟨fresh evs, [.written], []⟩

-- a reply of each kind that is accepted, with retries and fragmentation
example : Replies [.wantRead, .record b!"YES\n" []] [] (.command .yes 0 []) :=
  .plain (.cons (pre := [.wantRead]) (by simp [Idle]) (by simp) (.nil _)) (by simp)
    (.plain (name := b!"YES") (by decide) (by decide)) (by decide)
example : Replies [.record b!"FILECONT 5\nab" [], .wantRead, .record b!"cde" [1]] []
    (.command .fileCont 0 b!"abcde") :=
  .pieces (line := b!"FILECONT 5") (part := b!"ab") (more := [b!"cde"])
    (.cons (pre := []) (by simp) (by simp) (.cons (pre := [.wantRead]) (by simp [Idle]) (by simp) (.nil _)))
    (by simp) (by decide)
    (.len (name := b!"FILECONT") (w := b!"5") (n := 5) (by decide) (by decide)
      ((scanLong_eq_val_iff _ _).1 (by decide)) (by decide)) (by decide) (by decide)
example : Replies [.fail 5 []] [] .broken := .failure (pre := []) rfl (by simp)
example : Replies [.record b!"MAYBE\n" []] [] .broken :=
  .malformed (b := b!"MAYBE\n") (.cons (pre := []) (by simp) (by simp) (.nil _))
    (.unknown (w := b!"MAYBE") (ws := []) (by decide) (by decide))
example : ∃ e t, toolLibpath (fun _ => true) (online [.record b!"ERROR 4 3\nbad" []]) b!"/l" (some none) =
    .ok (.failed (some (some e)), t) ∧ e.message = some b!"Got ERROR command with message: bad" ∧
      t.wire = [b!"LIB 2\n/l"] := ⟨_, _, by rfl, rfl, rfl⟩
example : ∃ e t, toolFeature (fun _ => true) (online [.record b!"NO 4\nnope" []]) b!"f" (some none) =
    .ok (.failed (some (some e)), t) ∧ e.code = 3 ∧ e.message = some b!"nope" := ⟨_, _, by rfl, rfl, rfl⟩
example : ∃ t, toolVersion (fun _ => true) (online [.record b!"VERSION 1\n" []]) 1 3 (some none) =
    .ok (.success () (some none), t) ∧ t.wire = [b!"VERSION 3\n"] := ⟨_, by rfl, rfl⟩

/-- **C26 is false**: when the VERSION command cannot be sent, the call fails without an error object. -/
theorem c26_version_send_failure_not :
    toolVersion (fun _ => true) ⟨fresh [], [.fail 5], []⟩ 1 1 (some none) =
      .ok (.failed (some none), ⟨fresh [], [], []⟩) := by rfl

/-- **C26 is false**: a refusal with a NUL in its first line makes the tool abort (the error location is set
twice), instead of reporting a failure. -/
theorem c26_refusal_abort_not :
    toolFeature (fun _ => true) (online [.record b!"NO 0\u0000\n" []]) b!"f" (some none) =
      .ub .assertFail := by rfl

/-- **C26 is false**: such a FILECONT reply of length 0 is reported as success and error at the same time. -/
theorem c26_success_with_error_not :
    ∃ e t, toolFile (fun _ => true) (online [.record b!"FILECONT 0\u0000\n" []]) b!"f" (some none) =
      .ok (.success ⟨0, 0, none⟩ (some (some e)), t) := ⟨_, _, by rfl⟩

/-- **C26 is false**: a vendor executable that stops in the middle of a file corrupts the tool's memory. -/
theorem c26_interrupted_file_not :
    toolFile (fun _ => true) (online [.record b!"FILECONT 3\na" [], .fail 5 []]) b!"f" (some none) =
      .ub .oobWrite := by rfl

/-! ## C14, the tool's side -/

/-- **C14 (tool).** The tool accepts the version the vendor executable answers with exactly if it lies between
the bounds of the call, for all numbers and bounds. -/
theorem c14_tool_accepts_iff {t : Tool} {evs rest : List Ev} {after : List WEv} (ht : t.inn = fresh evs)
    (hw : Writes t.wevs after) (minV maxV v : Int) (d : Bytes) (hr : Replies evs rest (.command .version v d)) :
    (∃ l t', toolVersion (fun _ => true) t minV maxV (some none) = .ok (.success () l, t')) ↔
      minV ≤ v ∧ v ≤ maxV := by
  obtain ⟨out, t', h1, -, ⟨h2, h3⟩, -⟩ := c26_version_partial ht hw minV maxV hr
  rw [h1]
  constructor
  · rintro ⟨l, t'', h⟩
    by_contra hn
    obtain ⟨e, he⟩ := h3 (by rintro ⟨v', d', h, h'⟩; simp at h; obtain ⟨rfl, -⟩ := h; exact hn h')
    simp [he] at h
  · intro hb
    exact ⟨_, _, by rw [h2 ⟨v, d, rfl, hb⟩]⟩

example : Replies [.record b!"VERSION 7\n" []] [] (.command .version 7 []) :=
  .plain (.cons (pre := []) (by simp) (by simp) (.nil _)) (by simp)
    (.num (name := b!"VERSION") (w := b!"7") (by decide) (by decide)
      ((scanLong_eq_val_iff _ _).1 (by decide))) (by decide)
example : Writes [.wantWrite, .written] [] := ⟨1, rfl⟩

/-! ## C25, the tool's side -/

/-- **C25 (tool).** When the vendor executable answers NOTSIMPLE, the license check fails with the code for
"not simplified", and returning the license fails too, with an error that does not say so (code 1). -/
theorem c25_tool_notsimple_partial {t : Tool} {evs rest : List Ev} (ht : t.inn = fresh evs) (hw : Returns t.wevs)
    {package : Bytes} (hs : package.length < 2 ^ 30) (n : Int) (d : Bytes)
    (hr : Replies evs rest (.command .notSimple n d)) :
    (∃ e t', toolLicense (fun _ => true) t package (some none) = .ok (.failed (some (some e)), t') ∧
      e.domain = 2 ∧ e.code = 4) ∧
    (∃ e t', toolReturnLicense (fun _ => true) t package (some none) = .ok (.failed (some (some e)), t') ∧
      e.domain = 2 ∧ e.code = 1) := by
  constructor
  · obtain ⟨out, t', h1, -, -, -, h2, -⟩ := c26_license_partial ht hw hs hr
    obtain ⟨e, h3, h4⟩ := h2 ⟨n, d, rfl⟩
    exact ⟨e, t', by rw [h1, h3], h4⟩
  · have hcs : (cstr package).length < 2 ^ 63 := by
      have := (List.takeWhile_prefix (p := (· ≠ (0 : UInt8))) (l := package)).length_le; unfold cstr; omega
    obtain ⟨t1, h1, h2⟩ := toolSend_returns hw .returnLicense package hcs
    unfold toolReturnLicense sendExpectYes
    simp only [h1, Res.bind_ok]
    rw [ht] at h2
    obtain ⟨-, -, g3⟩ := expectCommand_command h2 hr .yes (by decide)
    obtain ⟨e, h3, h4, h5⟩ := g3 (by decide) (by decide)
    rw [h5]
    exact ⟨e, _, rfl, h3, h4⟩

/-- **C25 is false for RETURNLICENSE**: its caller is told about an unexpected command instead. -/
theorem c25_returnlicense_not :
    toolReturnLicense (fun _ => true) ⟨fresh [.record b!"NOTSIMPLE\n" []], [.written], []⟩ b!"L" (some none) =
      .ok (.failed (some (some ⟨2, 1,
        some b!"Unexpected command. Expected command YES, but got command NOTSIMPLE."⟩)),
        ⟨fresh [], [], [b!"RETURNLICENSE 1\nL"]⟩) := by decide +kernel

example : Replies [.record b!"NOTSIMPLE\n" []] [] (.command .notSimple 0 []) :=
  .plain (.cons (pre := []) (by simp) (by simp) (.nil _)) (by simp)
    (.plain (name := b!"NOTSIMPLE") (by decide) (by decide)) (by decide)

/-! ## C27 -/

/-- A file of which `k` bytes have been read. -/
def Reading (f : FileContents) (data : Bytes) (k : Nat) : Prop :=
  k ≤ data.length ∧ f.size = data.length ∧
    ((∃ tail, f.offset = k ∧ f.buffer = some ⟨data.map some ++ tail⟩) ∨ (f.buffer = none ∧ k = data.length))

theorem readCells_mid (data : Bytes) (tail : List (Option UInt8)) (off n : Nat) (h : off + n ≤ data.length) :
    readCells ((data.map some ++ tail).drop off) n = .ok ((data.drop off).take n) := by
  rw [List.drop_append_of_le_length (by simp; omega), ← List.map_drop]
  have h2 : ((data.drop off).take n).length = n := by simp; omega
  have := readCells_map_some ((data.drop off).take n) (((data.drop off).drop n).map some ++ tail)
  rw [h2] at this
  rw [← this, ← List.append_assoc, ← List.map_append, List.take_append_drop]

theorem read_step {f : FileContents} {data : Bytes} {k : Nat} (h : Reading f data k) (n : Nat) :
    ∃ f', toolReadBytes f n =
        .ok (if data.length ≤ k then none else some ((data.drop k).take n), f') ∧
      Reading f' data (min (k + n) data.length) := by
  obtain ⟨hk, hsz, h | h⟩ := h
  · obtain ⟨tail, ho, hb⟩ := h
    unfold toolReadBytes
    simp only [hb, ho, hsz, ge_iff_le]
    split
    · rename_i hle
      refine ⟨_, rfl, ?_⟩
      have : k = data.length := by omega
      subst this
      exact ⟨by omega, rfl, Or.inr ⟨rfl, by omega⟩⟩
    · rename_i hle
      have hif : (if n < data.length - k then n else data.length - k) = min n (data.length - k) := by
        split <;> omega
      rw [hif, readCells_mid _ _ _ _ (by omega)]
      have htk : (data.drop k).take (min n (data.length - k)) = (data.drop k).take n := by
        rw [← List.take_take, List.take_of_length_le (l := data.drop k) (by simp)]
      rw [htk]
      refine ⟨_, rfl, by omega, rfl, ?_⟩
      simp only
      by_cases hend : data.length ≤ k + min n (data.length - k)
      · rw [if_pos hend]
        exact Or.inr ⟨rfl, by omega⟩
      · rw [if_neg hend]
        exact Or.inl ⟨tail, by omega, rfl⟩
  · unfold toolReadBytes
    simp only [h.1]
    rw [if_pos (by omega)]
    exact ⟨_, rfl, by omega, hsz, Or.inr ⟨rfl, by omega⟩⟩

theorem reads_from {f : FileContents} {data : Bytes} {k : Nat} (h : Reading f data k) (sizes : List Nat) :
    ∃ rs f', toolReads f sizes = .ok (rs, f') ∧ rs.length = sizes.length ∧
      (∀ i n, sizes[i]? = some n → rs[i]? = some (if data.length ≤ k + (sizes.take i).sum then none
        else some ((data.drop (k + (sizes.take i).sum)).take n))) ∧
      (rs.filterMap id).flatten = (data.drop k).take sizes.sum := by
  induction sizes generalizing f k with
  | nil => exact ⟨[], f, rfl, rfl, by simp, by simp⟩
  | cons n ns ih =>
    obtain ⟨f1, h1, h2⟩ := read_step h n
    obtain ⟨rs, f2, h3, h4, h5, h6⟩ := ih h2
    simp only [toolReads, h1, Res.bind_ok, h3]
    refine ⟨_, _, rfl, by simp [h4], ?_, ?_⟩
    · intro i m hi
      cases i with
      | zero => simp at hi; subst hi; simp
      | succ i =>
        have := h5 i m (by simpa using hi)
        rw [List.getElem?_cons_succ, this, List.take_succ_cons, List.sum_cons]
        by_cases hc : data.length ≤ k + n
        · rw [Nat.min_eq_right hc, if_pos (by omega), if_pos (by omega)]
        · rw [Nat.min_eq_left (by omega), Nat.add_assoc]
    · have hk := h.1
      rw [List.sum_cons]
      by_cases hle : data.length ≤ k
      · rw [if_pos hle, List.filterMap_cons_none rfl, h6, List.drop_eq_nil_iff.2 (by omega),
          List.drop_eq_nil_iff.2 (by omega), List.take_nil, List.take_nil]
      · rw [if_neg hle, List.filterMap_cons_some (f := id) (a := some ((data.drop k).take n)) (b := (data.drop k).take n) rfl, List.flatten_cons, h6,
          List.take_add, List.drop_drop]
        congr 1
        by_cases hc : data.length ≤ k + n
        · rw [Nat.min_eq_right hc, List.drop_eq_nil_iff.2 hc, List.drop_eq_nil_iff.2 (Nat.le_refl _)]
        · rw [Nat.min_eq_left (by omega)]

/-- **C27.** For every file content and every sequence of buffer sizes: each call hands out the next bytes of
the file, as many as fit in the buffer or are left, and as soon as everything has been handed out (at once for
an empty file) every call returns (size_t)-1; concatenated, the chunks are the file.  Nothing outside the file
data is read, and the size reported is that of the file. -/
theorem c27_chunks {f : FileContents} {data : Bytes} (h : Fetched f data) (sizes : List Nat) :
    toolGetFileSize f = data.length ∧
    ∃ rs f', toolReads f sizes = .ok (rs, f') ∧ rs.length = sizes.length ∧
      (∀ i n, sizes[i]? = some n → rs[i]? = some (if data.length ≤ (sizes.take i).sum then none
        else some ((data.drop (sizes.take i).sum).take n))) ∧
      (rs.filterMap id).flatten = data.take sizes.sum := by
  obtain ⟨tail, rfl⟩ := h
  have := reads_from (f := ⟨data.length, 0, some ⟨data.map some ++ tail⟩⟩) (data := data) (k := 0)
    ⟨by omega, rfl, Or.inl ⟨tail, rfl, rfl⟩⟩ sizes
  simpa [toolGetFileSize] using this

/-- **C27.** No chunk is longer than the buffer it is written to. -/
theorem c27_within_buffer {f : FileContents} {data : Bytes} (h : Fetched f data) (sizes : List Nat)
    (rs : List (Option Bytes)) (f' : FileContents) (hr : toolReads f sizes = .ok (rs, f')) (i n : Nat) (b : Bytes)
    (hn : sizes[i]? = some n) (hb : rs[i]? = some (some b)) : b.length ≤ n := by
  obtain ⟨-, rs', f'', h1, -, h2, -⟩ := c27_chunks h sizes
  rw [h1] at hr
  simp at hr
  obtain ⟨rfl, rfl⟩ := hr
  rw [h2 i n hn] at hb
  simp only [Option.some.injEq] at hb
  split at hb
  · simp at hb
  · simp at hb; subst hb; simp

example : Fetched ⟨5, 0, some ⟨b!"abcde\u0000".map some⟩⟩ b!"abcde" := ⟨[some 0], rfl⟩
example : ∃ f, toolReads ⟨5, 0, some ⟨b!"abcde\u0000".map some⟩⟩ [2, 2, 7, 1] =
    .ok ([some b!"ab", some b!"cd", some b!"e", none], f) := ⟨_, by rfl⟩

end Semla.Props
