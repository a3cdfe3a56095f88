import Verif.Basic

/-!
# Specification vocabulary for the packaging tool
-/

namespace Semla.Spec

open Semla

/-- The argument names the tool documents. -/
def knownArguments : List Bytes :=
  [b!"librarypath", b!"enabled", b!"title", b!"description", b!"version", b!"build", b!"date",
    b!"language", b!"copyright", b!"license", b!"encrypt", b!"icon", b!"tools", b!"dependencies"]

/-- A command line made of pairs of an argument name behind any one character, and a non-empty value. -/
inductive ArgPairs : List Bytes → List (Bytes × Bytes) → Prop where
  | nil : ArgPairs [] []
  | cons {c : UInt8} {k v : Bytes} {args : List Bytes} {ps : List (Bytes × Bytes)}
      (known : k ∈ knownArguments) (value : v ≠ []) (rest : ArgPairs args ps) :
      ArgPairs ((c :: k) :: v :: args) ((k, v) :: ps)

/-- No name is given twice. -/
def DistinctNames (ps : List (Bytes × Bytes)) : Prop := (ps.map (·.1)).Nodup

end Semla.Spec
