import Verif.Basic

/-! Letter case, said without the model's `toLower`. -/

namespace Semla.Spec
open Semla

/-- The two bytes are equal, or one is a letter `A`–`Z` and the other the same letter in `a`–`z`. -/
def SameLetter (c d : UInt8) : Prop :=
  c = d ∨ ∃ k, k < 26 ∧
    ((c.toNat = 65 + k ∧ d.toNat = 97 + k) ∨ (c.toNat = 97 + k ∧ d.toNat = 65 + k))

/-- The same text but for letter case. -/
def SameText : Bytes → Bytes → Prop
  | [], [] => True
  | c :: a, d :: b => SameLetter c d ∧ SameText a b
  | _, _ => False

end Semla.Spec
