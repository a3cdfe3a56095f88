import Verif.Model.MolFile
import Verif.Spec.ZipWin
import Verif.Spec.PackWin
import Verif.Spec.Lve

/-!
# Vocabulary for the package file on Windows
-/

namespace Semla.Spec

open Semla

/-- The command line does not ask for help. -/
def NoHelp (args : List Bytes) : Prop := b!"--help" ∉ args ∧ b!"-h" ∉ args

/-- There is no file with the name of the archive, or it is removed first. -/
def OldGone (m : MolEnv) : Prop := m.previous = none ∨ m.removed = true

/-- Names and contents of the files of a package, as they should be in the ZIP archive. -/
def asZip (a : Archive) : List (Bytes × Bytes) := a.map fun e => (relPath e.1, e.2)

/-- How many bytes the archive of a package has. -/
def packageRoom (deflate : Bytes → List Bytes) (a : Archive) : Nat :=
  (a.map fun e => roomFor deflate (relPath e.1) e.2).sum + 22

/-- The files of an archive have been unpacked: its directory `lib` is at `root`. -/
def UnpackedAt (es : List (Bytes × Bytes)) (lib root : Bytes) (w : World) : Prop :=
  ∀ r out, (lib ++ b!"/" ++ r, out) ∈ es → Holds w (root ++ b!"/" ++ r) out

end Semla.Spec
