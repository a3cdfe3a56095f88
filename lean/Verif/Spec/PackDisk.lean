import Verif.Model.PackDisk
import Verif.Spec.PackTree

/-!
# Specification of packaging with a temporary directory on a disk that fills up
-/

namespace Semla.Spec

open Semla

/-- A machine on which every `fwrite` of an encryption succeeds. -/
def flawless (env : PackEnv) : PackEnv := { env with writeOk := fun _ _ => true }

/-- The temporary directory with empty files. -/
def emptied (fs : Staged) : Staged :=
  fs.map fun e => (e.1, match e.2 with
    | .dir => .dir
    | .file _ => .file [])

/-- Listing a directory does not look into files. -/
structure NamesOnly (env : PackEnv) : Prop where
  encrypt : ∀ fs, env.encryptWalk fs = env.encryptWalk (emptied fs)
  zip : ∀ fs, env.zipWalk fs = env.zipWalk (emptied fs)

/-- `c` is `whole` cut where the disk below the file `p` was full.  Unless the file is the manifest, no more than `b` bytes
are missing. -/
def CutFile (disk : StagingDisk) (b : Nat) (p : List Bytes) (whole c : Bytes) : Prop :=
  c = whole.take (disk p).room ∧ (whole.length ≤ (disk p).room + b ∨ nameOf p = b!"manifest.xml")

/-- The same files in the same order; files other than Modelica files may be cut. -/
def CutArchive (disk : StagingDisk) (b : Nat) : Archive → Archive → Prop
  | [], [] => True
  | (p, c) :: a, (p', c') :: a' =>
    p' = p ∧ (c' = c ∨ (¬ ModelicaName (nameOf p) ∧ CutFile disk b p c c')) ∧ CutArchive disk b a a'
  | _, _ => False

end Semla.Spec
