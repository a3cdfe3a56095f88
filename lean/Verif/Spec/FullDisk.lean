import Verif.Model.FullDisk

/-!
# Specification of the single-file tools on a disk that fills up
-/

namespace Semla.Spec

open Semla

/-- The file that `encrypt_file` writes: the second argument, below the third one if there is one, and otherwise without
a `c` at its end. -/
def encryptOutput : List Bytes → Bytes
  | [_, target, destdir] => (destdir ++ b!"/" ++ target).take 4095
  | [_, target] => if target.getLast? = some 99 then target.dropLast else target
  | _ => []

/-- The same files, but of the file `q` only the first `room` bytes; the end that is missing is at most `b` bytes long. -/
def CutAt (q : Bytes) (room b : Nat) (fs cut : Files) : Prop :=
  (∀ p, p ≠ q → cut p = fs p) ∧ ∃ out, fs q = some out ∧ cut q = some (out.take room) ∧ out.length ≤ room + b

/-- A machine on which every `fwrite` succeeds. -/
def perfect (v : FileToolEnv) : FileToolEnv := { v with wOk := fun _ => true }

end Semla.Spec
