import Verif.Spec.LveMain
import Verif.Lemmas.LveInv
import Verif.Lemmas.LveCases
import Verif.Lemmas.EndToEnd

/-! # Helper lemmas: the command line of the vendor executable -/

set_option linter.unusedSimpArgs false

namespace Semla

open Semla.Spec Semla.Props

theorem exitCase {o : Options} {b : Bool} {argc : Nat} {P : Prop} (h : Options.exit b = o)
    (hp : b = true → argc = 2 ∧ P) : ∃ b, o = .exit b ∧ (b = true → argc = 2 ∧ P) := ⟨b, h.symm, hp⟩

/-- How the option loop ends, starting with nothing read. -/
theorem optionLoop_cases {m : Nat → Bool} {argc : Nat} {args : List Bytes} {o : Options}
    (h : optionLoop m argc args none none = .ok o) :
    (o = .read none none ∧ args = []) ∨
    (∃ f, o = .read (some f) none ∧ args = [b!"--checkout-feature", f]) ∨
    (∃ p, o = .read none (some p) ∧ args = [b!"--libpath", p]) ∨
    (∃ f p, o = .read (some f) (some p) ∧ AsksCheckout args f p) ∨
    (∃ b, o = .exit b ∧ (b = true → argc = 2 ∧
      (b!"--version" ∈ args ∨ b!"--help" ∈ args))) := by
  match args with
  | [] => simp [optionLoop] at h; exact Or.inl ⟨h.symm, rfl⟩
  | [a] =>
    unfold optionLoop at h
    simp only [Option.isSome_none, Bool.false_eq_true, if_false] at h
    refine Or.inr (Or.inr (Or.inr (Or.inr ?_)))
    split at h
    · cases h
    · split at h
      · cases h
      · split at h
        · rename_i ha; simp only [Res.ok.injEq] at h; exact ⟨_, h.symm, fun hb => ⟨by simpa using hb, by simp [ha]⟩⟩
        · split at h
          · rename_i ha; simp only [Res.ok.injEq] at h; exact ⟨_, h.symm, fun hb => ⟨by simpa using hb, by simp [ha]⟩⟩
          · simp only [Res.ok.injEq] at h; exact ⟨_, h.symm, by simp⟩
  | a :: v :: rest =>
    unfold optionLoop at h
    simp only [Option.isSome_none, Bool.false_eq_true, if_false] at h
    split at h
    · rename_i ha
      subst ha
      split at h
      · match rest with
        | [] => simp [optionLoop] at h; exact Or.inr (Or.inl ⟨v, h.symm, rfl⟩)
        | [b] =>
          unfold optionLoop at h
          simp only [Option.isSome_some, Option.isSome_none, Bool.false_eq_true, if_false, if_true] at h
          refine Or.inr (Or.inr (Or.inr (Or.inr ?_)))
          split at h
          · simp only [Res.ok.injEq] at h; exact ⟨_, h.symm, by simp⟩
          · split at h
            · cases h
            · split at h
              · rename_i hb; simp only [Res.ok.injEq] at h; exact ⟨_, h.symm, fun hb' => ⟨by simpa using hb', by simp [hb]⟩⟩
              · split at h
                · rename_i hb; simp only [Res.ok.injEq] at h; exact ⟨_, h.symm, fun hb' => ⟨by simpa using hb', by simp [hb]⟩⟩
                · simp only [Res.ok.injEq] at h; exact ⟨_, h.symm, by simp⟩
        | b :: u :: rest =>
          unfold optionLoop at h
          simp only [Option.isSome_some, Option.isSome_none, Bool.false_eq_true, if_false, if_true] at h
          split at h
          · refine Or.inr (Or.inr (Or.inr (Or.inr ?_)))
            simp only [Res.ok.injEq] at h; exact ⟨_, h.symm, by simp⟩
          · split at h
            · rename_i hb
              subst hb
              split at h
              · cases rest with
                | nil =>
                  simp [optionLoop] at h
                  exact Or.inr (Or.inr (Or.inr (Or.inl ⟨v, u, h.symm, Or.inl rfl⟩)))
                | cons c rest =>
                  refine Or.inr (Or.inr (Or.inr (Or.inr ?_)))
                  cases rest with
                  | nil =>
                    unfold optionLoop at h
                    simp only [Option.isSome_some, if_true] at h
                    repeat' split at h
                    all_goals simp only [Res.ok.injEq] at h
                    all_goals exact exitCase h (by simp [*])
                  | cons d rest =>
                    unfold optionLoop at h
                    simp only [Option.isSome_some, if_true] at h
                    repeat' split at h
                    all_goals simp only [Res.ok.injEq] at h
                    all_goals exact exitCase h (by simp [*])
              · refine Or.inr (Or.inr (Or.inr (Or.inr ?_)))
                simp only [Res.ok.injEq] at h; exact ⟨_, h.symm, by simp⟩
            · refine Or.inr (Or.inr (Or.inr (Or.inr ?_)))
              repeat' split at h
              all_goals simp only [Res.ok.injEq] at h
              all_goals exact exitCase h (by simp [*])
      · refine Or.inr (Or.inr (Or.inr (Or.inr ?_)))
        simp only [Res.ok.injEq] at h; exact ⟨_, h.symm, by simp⟩
    · split at h
      · rename_i ha
        subst ha
        split at h
        · match rest with
          | [] => simp [optionLoop] at h; exact Or.inr (Or.inr (Or.inl ⟨v, h.symm, rfl⟩))
          | [b] =>
            unfold optionLoop at h
            simp only [Option.isSome_some, Option.isSome_none, Bool.false_eq_true, if_false, if_true] at h
            refine Or.inr (Or.inr (Or.inr (Or.inr ?_)))
            repeat' split at h
            all_goals first
              | cases h; done
              | simp only [Res.ok.injEq] at h
            all_goals exact exitCase h (by simp [*])
          | b :: u :: rest =>
            unfold optionLoop at h
            simp only [Option.isSome_some, Option.isSome_none, Bool.false_eq_true, if_false, if_true] at h
            split at h
            · rename_i hb
              subst hb
              split at h
              · cases rest with
                | nil =>
                  simp [optionLoop] at h
                  exact Or.inr (Or.inr (Or.inr (Or.inl ⟨u, v, h.symm, Or.inr rfl⟩)))
                | cons c rest =>
                  refine Or.inr (Or.inr (Or.inr (Or.inr ?_)))
                  cases rest with
                  | nil =>
                    unfold optionLoop at h
                    simp only [Option.isSome_some, if_true] at h
                    repeat' split at h
                    all_goals simp only [Res.ok.injEq] at h
                    all_goals exact exitCase h (by simp [*])
                  | cons d rest =>
                    unfold optionLoop at h
                    simp only [Option.isSome_some, if_true] at h
                    repeat' split at h
                    all_goals simp only [Res.ok.injEq] at h
                    all_goals exact exitCase h (by simp [*])
              · refine Or.inr (Or.inr (Or.inr (Or.inr ?_)))
                simp only [Res.ok.injEq] at h; exact ⟨_, h.symm, by simp⟩
            · refine Or.inr (Or.inr (Or.inr (Or.inr ?_)))
              repeat' split at h
              all_goals simp only [Res.ok.injEq] at h
              all_goals exact exitCase h (by simp [*])
        · refine Or.inr (Or.inr (Or.inr (Or.inr ?_)))
          simp only [Res.ok.injEq] at h; exact ⟨_, h.symm, by simp⟩
      · refine Or.inr (Or.inr (Or.inr (Or.inr ?_)))
        repeat' split at h
        all_goals simp only [Res.ok.injEq] at h
        all_goals exact exitCase h (by simp [*])

/-- Undefined behaviour of the option loop. -/
theorem optionLoop_ub {m : Nat → Bool} {argc : Nat} {args : List Bytes}
    (h : ∀ o, optionLoop m argc args none none ≠ .ok o) : LacksValue args := by
  match args with
  | [] => simp [optionLoop] at h
  | [a] =>
    unfold optionLoop at h
    simp only [Option.isSome_none, Bool.false_eq_true, if_false] at h
    repeat' split at h
    all_goals first
      | exact absurd rfl (h _)
      | (subst_vars; simp [LacksValue])
  | a :: v :: rest =>
    unfold optionLoop at h
    simp only [Option.isSome_none, Bool.false_eq_true, if_false] at h
    have done : ∀ (args : List Bytes) (x y : Bytes), (∃ o, optionLoop m argc args (some x) (some y) = .ok o) := by
      intro args x y
      match args with
      | [] => exact ⟨_, rfl⟩
      | [c] =>
        unfold optionLoop
        simp only [Option.isSome_some, if_true]
        repeat' split
        all_goals exact ⟨_, rfl⟩
      | c :: d :: _ =>
        unfold optionLoop
        simp only [Option.isSome_some, if_true]
        repeat' split
        all_goals exact ⟨_, rfl⟩
    split at h
    · rename_i ha
      subst ha
      split at h
      · match rest with
        | [] => simp [optionLoop] at h
        | [b] =>
          unfold optionLoop at h
          simp only [Option.isSome_some, Option.isSome_none, Bool.false_eq_true, if_false, if_true] at h
          repeat' split at h
          all_goals first
            | exact absurd rfl (h _)
            | (subst_vars; simp [LacksValue])
        | b :: u :: rest =>
          unfold optionLoop at h
          simp only [Option.isSome_some, Option.isSome_none, Bool.false_eq_true, if_false, if_true] at h
          obtain ⟨o, ho⟩ := done rest v u
          repeat' split at h
          all_goals first
            | exact absurd rfl (h _)
            | exact absurd ho (h _)
      · exact absurd rfl (h _)
    · split at h
      · rename_i ha
        subst ha
        split at h
        · match rest with
          | [] => simp [optionLoop] at h
          | [b] =>
            unfold optionLoop at h
            simp only [Option.isSome_some, Option.isSome_none, Bool.false_eq_true, if_false, if_true] at h
            repeat' split at h
            all_goals first
              | exact absurd rfl (h _)
              | (subst_vars; simp [LacksValue])
          | b :: u :: rest =>
            unfold optionLoop at h
            simp only [Option.isSome_some, Option.isSome_none, Bool.false_eq_true, if_false, if_true] at h
            obtain ⟨o, ho⟩ := done rest u v
            repeat' split at h
            all_goals first
              | exact absurd rfl (h _)
              | exact absurd ho (h _)
        · exact absurd rfl (h _)
      · repeat' split at h
        all_goals exact absurd rfl (h _)

theorem optionLoop_asks {m : Nat → Bool} (hm : ∀ n, m n = true) {argc : Nat} {args : List Bytes} {f p : Bytes}
    (h : AsksCheckout args f p) : optionLoop m argc args none none = .ok (.read (some f) (some p)) := by
  rcases h with rfl | rfl <;> simp [optionLoop, hm]

/-- The command with the argument as its data. -/
def withData (c : CmdId) (arg : Bytes) : Command := ⟨c, 0, arg.length, some ⟨arg.map some ++ [some 0]⟩⟩

theorem composeCommand_cases {m : Nat → Bool} {c : CmdId} (hc : c.form = .length) {arg e : Bytes}
    (hl : arg.length < 2 ^ 63) :
    (composeCommand m c.name arg e = .ok (none, e) ∧ ¬ ∀ n, m n = true) ∨
    composeCommand m c.name arg e = .ok (some (withData c arg), e) := by
  unfold composeCommand
  simp only
  split
  · rename_i h
    exact Or.inl ⟨rfl, fun hm => h (hm _)⟩
  · have hstr : c.name ++ b!" " ++ decNat arg.length ++ b!"\n" ++ arg = line2 c.name (decNat arg.length) ++ arg := by
      simp [line2]
    have hca := carries_sent hc hl
    rw [hstr, parse_of_accepts (accepts_len hc hl (Or.inl rfl))]
    simp only [Res.bind_ok, if_true]
    by_cases hm : m (arg.length + 1) = true
    · obtain ⟨n, k, ha, hx⟩ := carries_extract (m := m) hca hm
      obtain ⟨-, rfl, -⟩ := accepts_unique ha (accepts_len hc hl (Or.inl rfl))
      rw [hx]
      right
      simp [withData]
    · left
      refine ⟨?_, fun h => hm (h _)⟩
      have : line2 c.name (decNat arg.length) ++ arg = (c.name ++ b!" " ++ decNat arg.length) ++ 10 :: arg := by
        simp [line2]
      rw [this, extractData_line (line2_isLine c _) _ hl, if_neg hm]
      simp

end Semla
