import Verif.Model.CopyFile

/-!
# Specification of copying a file
-/

namespace Semla.Spec

open Semla

/-- A file with these contents and permissions, which can be read to its end and does not change. -/
structure Steady (c : CopyCalls) (content : Bytes) (mode : Nat) : Prop where
  source : c.source = some (content, mode)
  size : ∀ n, c.size = some n → n = content.length
  readable : content.length ≤ c.readable
  mode : ∀ m, c.mode = some m → m = mode

/-- There is room for a copy, and the calls do not fail. -/
structure CanCopy (c : CopyCalls) (content : Bytes) : Prop where
  stat : c.size ≠ none
  memory : c.memory = true
  opens : c.opens = true
  room : content.length ≤ c.disk.room
  mode : c.mode ≠ none
  chmod : c.chmod = true

end Semla.Spec
