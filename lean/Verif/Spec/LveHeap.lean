import Verif.Model.LveHeap

/-!
# Vocabulary about memory of the vendor executable
-/

namespace Semla.Spec

open Semla

/-- A block that is in use. -/
def Live (h : Heap) (a : Nat) : Prop := ∃ n, h[a]? = some (some n)

/-- The blocks that the context of the executable points to. -/
def kept (s : LveMem) : List Nat := s.libpath.toList ++ s.context.toList ++ s.masks ++ s.text.toList

/-- There is enough memory, and a file that can be opened has a size (Linux). -/
def Roomy (w : World) : Prop :=
  (∀ n, w.malloc n = true) ∧ ∀ p why, w.files p ≠ .noStat why ∧ w.files p ≠ .refused why

/-- The entries of the table of key masks, with the sizes of their blocks. -/
def MaskBlocks (s : LveMem) (t : MaskTable) : Prop :=
  s.masks.map (fun a => s.heap[a]?) = t.map fun d => some (some (104 + d.1.length + 1))

/-- Blocks that go with what the context holds. -/
structure PointsTo (st : LveSt) (s : LveMem) : Prop where
  libpath : s.libpath.isSome = st.libpath.isSome
  context : s.context.isSome = st.cr.isSome
  masks : MaskBlocks s (st.cr.getD [])
  text : s.text.isSome → st.approved = false

end Semla.Spec
