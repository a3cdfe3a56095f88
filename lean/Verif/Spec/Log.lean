import Verif.Spec.Lve

/-!
# What may stand in the log

The log (`mlle_log`, `src/common/mlle_io.h:52-57`) is for finding out which files were worked on.  A message may
name the file that was asked for, a directory on the way to it, or the package file of such a directory; apart
from that it is fixed text.
-/

namespace Semla.Spec

/-- `q` says no more than `p`: it is a part of `p` from its start (a directory, say), the package file beside
such a part, or the package file or the name `/` of the top directory. -/
def PathFrom (p q : Bytes) : Prop :=
  q <+: p ∨ (∃ d, d <+: p ∧ q = d ++ b!"/package.moc") ∨ q = b!"package.moc" ∨ q = b!"/"

/-- The texts before and after the path in the messages. -/
def logTexts : List (Bytes × Bytes) :=
  [(b!"mlle_demask_key: ", b!"\n"),
   (b!"mlle_demask_key: applied mask for ", b!"\n"),
   (b!"mlle_store_keymask: stored key_mask for ", b!" \n"),
   (b!"mlle_mask_key: got key for ", b!" \n"),
   (b!"mlle_mask_key: generated and stored mask for ", b!" \n"),
   (b!"mlle_mask_key: storing mask based on parent for ", b!" \n"),
   (b!"mlle_mask_key: applied key mask for ", b!" \n")]

/-- A message that tells nothing but paths that come from `p`. -/
def Harmless (p line : Bytes) : Prop := ∃ t ∈ logTexts, ∃ q, PathFrom p q ∧ line = t.1 ++ q ++ t.2

/-- The message asks for the file `p`: a FILE command whose data begins with `p`. -/
def AsksFor (msg p : Bytes) : Prop :=
  (∃ n len, Accepts msg .file n len) ∧ ∃ line rest, (∀ b ∈ line, b ≠ 10) ∧ msg = line ++ b!"\n" ++ p ++ rest

end Semla.Spec
