import Verif.Model.PackPaths
import Verif.Spec.PackTree

/-!
# Directory trees by path
-/

namespace Semla.Spec

open Semla

/-- The entries of the directory itself. -/
def topEntries : Listing → List (Bytes × EntryType)
  | .done => []
  | .file n rest => (n, .file) :: topEntries rest
  | .dir n _ rest => (n, .dir) :: topEntries rest
  | .locked n rest => (n, .dir) :: topEntries rest
  | .other n rest => (n, .other) :: topEntries rest

/-- The directories in the one at `path` are those of the tree. -/
def FoundBelow (list : ReadDir) (path : Bytes) : Listing → Prop
  | .done => True
  | .file _ rest => FoundBelow list path rest
  | .dir n sub rest => list (path ++ b!"/" ++ n) = some (topEntries sub) ∧
      FoundBelow list (path ++ b!"/" ++ n) sub ∧ FoundBelow list path rest
  | .locked n rest => list (path ++ b!"/" ++ n) = none ∧ FoundBelow list path rest
  | .other _ rest => FoundBelow list path rest

/-- The directory tree at `path`. -/
def FoundAt (list : ReadDir) (path : Bytes) (l : Listing) : Prop :=
  list path = some (topEntries l) ∧ FoundBelow list path l

/-- How many directories there are inside each other, without the first. -/
def levels : Listing → Nat
  | .done => 0
  | .file _ rest => levels rest
  | .dir _ sub rest => max (levels sub + 1) (levels rest)
  | .locked _ rest => levels rest
  | .other _ rest => levels rest

/-- The entry reached from `path` through these names. -/
def under (path : Bytes) (p : List Bytes) : Bytes := path ++ b!"/" ++ relPath p

/-- The paths of all entries, if the tree is at `path`, are shorter than `n`. -/
def PathsBelow (n : Nat) (path : Bytes) (l : Listing) : Prop :=
  path.length < n ∧ ∀ e ∈ entries l, (under path e.1).length < n

/-- Every name is a possible file name. -/
def ProperNames (l : Listing) : Prop := ∀ e ∈ entries l, ∀ n ∈ e.1, n ≠ [] ∧ (47 : UInt8) ∉ n

/-- A path of a directory as the packaging tool has it: without a slash at its end. -/
def PlainPath (path : Bytes) : Prop := path ≠ [] ∧ path.getLast? ≠ some 47

/-- A library on the disk at `src`, all of which can be copied, also to `dst`; `content` is what the files contain. -/
structure LibraryOnDisk (w : CopyWorld) (src dst : Bytes) (l : Listing) (content : List Bytes → Bytes) : Prop where
  found : FoundAt w.list src l
  nodup : NoRepeats l
  names : ProperNames l
  kinds : ∀ e ∈ entries l, e.2 = .file ∨ e.2 = .dir
  copied : ∀ p, (p, Kind.file) ∈ entries l → Outside p → w.copied (under src p) = some (content p)
  made : ∀ p, (p, Kind.dir) ∈ entries l → Outside p → w.mkdirOk (under dst p) = true

end Semla.Spec
