import Verif.Spec.WinFiles
import Verif.Spec.PackTree
import Verif.Model.LveWin

/-!
# Specification vocabulary for a library on a Windows machine
-/

namespace Semla.Spec

/-- A Windows machine with enough memory that has the files `files`. -/
structure RunsOn (m : WinMachine) (files : UInt8 → List Bytes → Option Bytes) : Prop where
  system : OnWindows m.files files
  memory : ∀ n, m.files.malloc n = true

/-- The archive has been unpacked: its directory `lib` is now directory `dirs` of drive `d`. -/
def UnpackedOn (es : List (Bytes × Bytes)) (lib : Bytes) (d : UInt8) (dirs : List Bytes) (m : WinMachine) : Prop :=
  ∃ files, RunsOn m files ∧
    ∀ p out, (relPath (lib :: p), out) ∈ es → (∀ n ∈ p, FileName n) → files d (dirs ++ p) = some out

/-- What can be read at `root` on Windows: paths with at most 4092 characters, files with less than 2^31 bytes, and
no empty ones if the path has more than 259 characters. -/
def FitsAt (root : Bytes) (es : List (Bytes × Bytes)) (lib : Bytes) : Prop :=
  ∀ p out, (relPath (lib :: p), out) ∈ es → root.length + 1 + (relPath p).length ≤ 4092 ∧ out.length < 2 ^ 31 ∧
    (root.length + 1 + (relPath p).length ≤ 259 ∨ out ≠ [])

end Semla.Spec
