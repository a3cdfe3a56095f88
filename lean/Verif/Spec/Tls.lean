import Verif.Model.Ssl

/-! # Specification vocabulary for incoming TLS data -/

namespace Semla.Spec

open Semla

/-- An event that brings neither data nor failure: a request to retry, or an empty record. -/
def Idle : Ev → Prop
  | .record b _ => b = []
  | .wantRead => True
  | .wantWrite => True
  | .fail _ _ => False

/-- The events deliver exactly these non-empty records, in this order, each one possibly preceded by
idle events and read in any portions; `rest` is what comes afterwards. -/
inductive Delivers : List Ev → List Bytes → List Ev → Prop where
  | nil (rest) : Delivers rest [] rest
  | cons {pre evs b sizes bs rest} : (∀ e ∈ pre, Idle e) → b ≠ [] → Delivers evs bs rest →
      Delivers (pre ++ .record b sizes :: evs) (b :: bs) rest

/-- A connection on which everything received so far has been consumed. -/
def fresh (evs : List Ev) : Conn := ⟨[], [], evs⟩

end Semla.Spec
