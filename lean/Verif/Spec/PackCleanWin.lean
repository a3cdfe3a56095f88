import Verif.Model.PackCleanWin
import Verif.Spec.PackTree

/-!
# Specification of what the packaging tool leaves behind on Windows
-/

namespace Semla.Spec

open Semla

/-- Removing works on Windows: listings of the temporary directory show what is there, and the calls do not fail. -/
structure RemovableWin (rm : RemoveWinEnv) : Prop where
  found : rm.found = true
  walk : ∀ fs l, rm.walk fs = some l → Shows l [] fs
  remove : ∀ p, rm.removeOk p = true
  rmdir : ∀ p, rm.rmdirOk p = true

/-- The directory that is listed first, if there is one, has no directories in it. -/
def FlatFirst : Listing → Prop
  | .done => True
  | .file _ rest => FlatFirst rest
  | .dir _ sub _ => ∀ e ∈ entries sub, e.2 ≠ .dir
  | .locked _ rest => FlatFirst rest
  | .other _ rest => FlatFirst rest

/-- Directories at most. -/
def NoFileIn (fs : Staged) : Prop := ∀ p c, fs.get p ≠ some (.file c)

end Semla.Spec
