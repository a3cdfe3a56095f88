import Verif.Spec.Case
import Verif.Spec.PackTree
import Verif.Spec.PackWin

/-! What the letter-case comparisons in the statements of C40 and C83 mean. -/

namespace Semla.Props
open Semla Semla.Spec

theorem toLower_toNat (c : UInt8) :
    (toLower c).toNat = if 65 ≤ c.toNat ∧ c.toNat ≤ 90 then c.toNat + 32 else c.toNat := by
  unfold toLower
  simp only [UInt8.le_iff_toNat_le, UInt8.reduceToNat]
  split
  · rw [UInt8.toNat_add]; simp; omega
  · rfl

theorem toLower_eq_iff (c d : UInt8) : toLower c = toLower d ↔ SameLetter c d := by
  rw [← UInt8.toNat_inj, toLower_toNat, toLower_toNat]
  constructor
  · intro h
    unfold SameLetter
    rw [← UInt8.toNat_inj]
    split at h <;> split at h
    · exact .inl (by omega)
    · exact .inr ⟨c.toNat - 65, by omega, .inl ⟨by omega, by omega⟩⟩
    · exact .inr ⟨d.toNat - 65, by omega, .inr ⟨by omega, by omega⟩⟩
    · exact .inl h
  · rintro (h | ⟨k, hk, h | h⟩)
    · rw [h]
    · rw [h.1, h.2]; split <;> split <;> omega
    · rw [h.1, h.2]; split <;> split <;> omega

theorem map_toLower_iff : ∀ a b : Bytes, a.map toLower = b.map toLower ↔ SameText a b
  | [], [] => by simp [SameText]
  | [], _ :: _ => by simp [SameText]
  | _ :: _, [] => by simp [SameText]
  | c :: a, d :: b => by simp [SameText, toLower_eq_iff, map_toLower_iff a b]

/-- **C40, letter case.** The comparison the model uses for `strcasecmp`, which also occurs in the
specification of the packaging (`ModelicaName`, `AsksEncryption`), holds exactly for texts that are the same
but for the case of the letters `A`–`Z`. -/
theorem c40_letters (a b : Bytes) : eqNoCase a b = true ↔ SameText a b := by
  rw [← map_toLower_iff]; simp [eqNoCase]

example : eqNoCase b!"Package.MO" b!"package.mo" = true := by decide
example : eqNoCase b!"[.mo" b!"{.mo" = false := by decide

/-- **C83, letter case.** Two paths of Windows name the same file exactly if they have the same number of
names and each name is the same text but for the case of the letters `A`–`Z`. -/
theorem c83_letters (p q : List Bytes) :
    SameButCase p q ↔ p.length = q.length ∧ ∀ i (h : i < p.length) (h' : i < q.length), SameText p[i] q[i] := by
  unfold SameButCase
  constructor
  · intro h
    have hl : p.length = q.length := by simpa using congrArg List.length h
    refine ⟨hl, fun i h1 h2 => ?_⟩
    rw [← map_toLower_iff]
    have := congrArg (fun l => l[i]?) h
    simpa [h1, h2] using this
  · rintro ⟨hl, h⟩
    apply List.ext_getElem (by simpa using hl)
    intro i h1 h2
    simp only [List.length_map] at h1 h2
    simp only [List.getElem_map]
    exact (map_toLower_iff _ _).2 (h i h1 h2)

example : SameButCase [b!"Lib", b!"A.mo"] [b!"lib", b!"a.MO"] := by unfold SameButCase; decide

end Semla.Props
