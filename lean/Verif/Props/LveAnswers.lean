import Verif.Props.Lve

/-!
# Properties of the answers of the vendor executable

C68.
-/

namespace Semla.Props

open Semla Semla.Spec

/-- What is claimed of a reply to command `c`: the documented answer, or an error that may come after it. -/
def Documented (c : CmdId) (r : Bytes) : Prop :=
  Answer c r ∨ ∃ code text, ErrorAfter c code ∧ ErrorReply code text r

theorem _root_.Semla.ErrOut.documented {w : World} {code : Nat} {t : Bytes} {out : List Bytes} (h : ErrOut w code t out)
    {c : CmdId} (hc : ErrorAfter c code) : ∀ r ∈ out, Documented c r := by
  rcases h with ⟨r, rfl, h⟩ | ⟨rfl, -⟩
  · intro r' hr
    simp only [List.mem_singleton] at hr
    subst hr
    exact Or.inr ⟨code, t, hc, h⟩
  · simp

theorem _root_.Semla.DataOut.documented {w : World} {name d : Bytes} {out : List Bytes} (h : DataOut w name d out)
    {c : CmdId} (hc : ∀ r, DataReply name d r → Answer c r) : ∀ r ∈ out, Documented c r := by
  rcases h with ⟨r, rfl, h⟩ | ⟨rfl, -⟩
  · intro r' hr
    simp only [List.mem_singleton] at hr
    subst hr
    exact Or.inl (hc _ h)
  · simp

theorem one_documented {c : CmdId} {r : Bytes} (h : Answer c r) : ∀ r' ∈ [r], Documented c r' := by
  intro r' hr
  simp only [List.mem_singleton] at hr
  subst hr
  exact Or.inl h

/-- **C68, what holds** (full statement: every reply to a command is the answer documented for it or an error
that the documentation allows after it; false for TOOLS and RETURNLICENSE as shown below).  In every session,
every reply to a message that is a command is a documented answer to that command or an ERROR with a code
that may come after it, except that TOOLS may be answered by `VERSION 4` and RETURNLICENSE by `NOTSIMPLE`. -/
theorem c68_answers_partial {conf : LveConf} {k : Option Bytes} {turns : List (World × Bytes)} {st st' : LveSt}
    {replies : List (List Bytes)} (hs : Session conf k turns st replies) {w : World} {msg : Bytes}
    {out : List Bytes} (h : lveStep conf w st msg = .ok (st', out)) {c : CmdId} {n : Int} {len : Nat}
    (ha : Accepts msg c n len) {r : Bytes} (hr : r ∈ out) :
    Answer c r ∨ (∃ code text, ErrorAfter c code ∧ ErrorReply code text r) ∨
    (c = .tools ∧ r = b!"VERSION 4\n") ∨ (c = .returnLicense ∧ r = b!"NOTSIMPLE\n") := by
  have hi := errInv_session hs
  suffices hd : Documented c r ∨ (c = .tools ∧ r = b!"VERSION 4\n") ∨
      (c = .returnLicense ∧ r = b!"NOTSIMPLE\n") by
    rcases hd with (h | h) | h
    · exact Or.inl h
    · exact Or.inr (Or.inl h)
    · exact Or.inr (Or.inr h)
  cases step_effect h with
  | refused _ ho => exact Or.inl ((reply_error (code := 1) ho).documented .notUnderstood r hr)
  | low _ hb _ ho =>
    obtain ⟨rfl, -⟩ := accepts_unique ha hb
    exact Or.inl ((reply_error (code := 2) ho).documented .versionTooLow r hr)
  | version _ hb =>
    obtain ⟨rfl, -⟩ := accepts_unique ha hb
    exact Or.inl (one_documented (.version (v := 1) (ds := b!"1") (by unfold IsNumeral; decide)) r hr)
  | tools _ hb =>
    obtain ⟨rfl, -⟩ := accepts_unique ha hb
    simp only [List.mem_singleton] at hr
    exact Or.inr (Or.inl ⟨rfl, hr.trans (by decide)⟩)
  | lib _ hb _ ho =>
    obtain ⟨rfl, -⟩ := accepts_unique ha hb
    refine Or.inl ?_
    rcases lib_cases ho with ⟨-, rfl, -⟩ | ⟨buf, data, -, -, -, ⟨-, rfl, -⟩ | ⟨st1, m, -, h1, -⟩ | ⟨st1, -, rfl, -⟩⟩
    · simp at hr
    · simp at hr
    · exact h1.documented .licenseError r hr
    · exact one_documented .lib r hr
  | feature _ hb _ ho =>
    obtain ⟨rfl, -⟩ := accepts_unique ha hb
    refine Or.inl ?_
    rcases feature_cases ho with ⟨m, -, h1, -⟩ | ⟨f, cs, -, -, -, ⟨-, rfl⟩ | ⟨m, -, h1⟩⟩
    · exact h1.documented .licenseError r hr
    · exact one_documented .feature r hr
    · exact h1.documented (fun _ => .noFeature) r hr
  | returnFeature _ hb _ ho =>
    obtain ⟨rfl, -⟩ := accepts_unique ha hb
    refine Or.inl ?_
    rcases returnFeature_cases ho with ⟨m, -, h1, -⟩ | ⟨f, cs, -, -, -, ⟨-, rfl⟩ | ⟨m, -, h1⟩⟩
    · exact h1.documented .licenseError r hr
    · exact one_documented .returnFeature r hr
    · exact h1.documented .licenseError r hr
  | license _ hc hb =>
    obtain ⟨rfl, -⟩ := accepts_unique ha hb
    simp only [List.mem_singleton] at hr
    rcases hc with rfl | rfl
    · exact Or.inl (one_documented .notSimple r (by rw [hr]; decide))
    · exact Or.inr (Or.inr ⟨rfl, hr.trans (by decide)⟩)
  | file _ hb _ ho =>
    obtain ⟨rfl, -⟩ := accepts_unique ha hb
    refine Or.inl ?_
    rcases file_cases ho with ⟨hap, -, h1⟩ | ⟨-, -, ⟨rfl, -⟩ | ⟨t, h1⟩ | ⟨t, h1⟩ | ⟨-, -, d, h1⟩⟩
    · obtain ⟨-, code, hc1, hc2, hc3⟩ := hi
      rw [hc1] at h1
      have hcode : ErrorAfter .file code := by
        rcases hc2 with rfl | rfl | rfl | rfl | rfl
        · exact absurd rfl (hc3 hap)
        · exact .notFound (Or.inl rfl)
        · exact .notAllowed
        · exact .licenseError
        · exact .other
      rcases fileError_cases h1 with ⟨-, rfl⟩ | ⟨t, -, h2⟩
      · simp at hr
      · exact h2.documented hcode r hr
    · simp at hr
    · exact h1.documented .io r hr
    · exact h1.documented .other r hr
    · exact h1.documented (fun _ => .file) r hr

/-- **C68, messages that are no commands.** Every reply to a malformed message is an ERROR 1. -/
theorem c68_malformed {conf : LveConf} {w : World} {st st' : LveSt} {msg : Bytes} {out : List Bytes}
    (h : lveStep conf w st msg = .ok (st', out)) {g : Grammar} (hg : Rejected msg g) {r : Bytes} (hr : r ∈ out) :
    ∃ text, ErrorReply 1 text r := by
  cases step_effect h with
  | refused _ ho =>
    rcases reply_error (code := 1) ho with ⟨r', rfl, h1⟩ | ⟨rfl, -⟩
    · simp only [List.mem_singleton] at hr
      subst hr
      exact ⟨_, h1⟩
    · simp at hr
  | low _ hb | version _ hb | tools _ hb | lib _ hb | feature _ hb | returnFeature _ hb | file _ hb =>
    exact absurd hb (rejected_not_accepts hg)
  | license _ _ hb => exact absurd hb (rejected_not_accepts hg)

/-- **C68 is false of TOOLS**: in an ordinary session TOOLS is answered by `VERSION 4`, which is no answer to
TOOLS and no error. -/
theorem c68_tools_not :
    (∃ st', session (toyConf [b!"k"] none generous) (some b!"k") (inWorld lib1 [b!"VERSION 1\n", b!"TOOLS\n"]) =
      .ok (st', [[b!"VERSION 1\n"], [b!"VERSION 4\n"]])) ∧
    ¬ Answer .tools b!"VERSION 4\n" ∧ ∀ code text, ¬ ErrorReply code text b!"VERSION 4\n" := by
  refine ⟨⟨_, by rfl⟩, ?_, ?_⟩
  · intro h
    cases h with
    | tools h =>
      have := dataReply_kind h
      revert this; unfold OfKind
      decide
  · intro code text h
    have := errorReply_kind h
    revert this; unfold OfKind
    decide

/-- **C68 is false of RETURNLICENSE**: in an ordinary session RETURNLICENSE is answered by `NOTSIMPLE`, which
is no answer to it and no error. -/
theorem c68_returnlicense_not :
    (∃ st', session (toyConf [b!"k"] none generous) (some b!"k")
      (inWorld lib1 [b!"VERSION 1\n", b!"LIB 2\n/l", b!"RETURNLICENSE 1\nx"]) =
      .ok (st', [[b!"VERSION 1\n"], [b!"YES\n"], [b!"NOTSIMPLE\n"]])) ∧
    ¬ Answer .returnLicense b!"NOTSIMPLE\n" ∧ ∀ code text, ¬ ErrorReply code text b!"NOTSIMPLE\n" := by
  refine ⟨⟨_, by rfl⟩, ?_, ?_⟩
  · intro h
    have : ∀ {c r}, Answer c r → c = .returnLicense → r = b!"YES\n" := by
      rintro c r (_ | _) <;> simp
    exact absurd (this h rfl) (by decide)
  · intro code text h
    have := errorReply_kind h
    revert this; unfold OfKind
    decide

/-! Non-vacuity: the session of the examples for C10 has answers of most kinds, and an untrusted tool gets a
documented error. -/

example : Answer .file b!"FILECONT 14\nmodel a end a;" :=
  .file (content := b!"model a end a;") ⟨b!"14", by unfold IsNumeral; decide, by decide⟩
example : ErrorAfter .file 5 ∧ ¬ ErrorAfter .feature 5 ∧ ¬ ErrorAfter .file 2 := by
  refine ⟨.notAllowed, ?_, ?_⟩ <;> (intro h; cases h)
example : (repliesOf (session (toyConf [b!"k"] none generous) (some b!"other")
    (inWorld lib1 [b!"VERSION 1\n", b!"LIB 2\n/l", b!"FILE 4\na.mo"]))).map (·.map (·.map fun r => r.take 8)) =
    some [[b!"VERSION "], [b!"YES\n"], [b!"ERROR 5 "]] := by decide +kernel

end Semla.Props
