import Verif.Basic

/-!
# Arguments of the packaging tool

Models the parts of `src/packagetool/arguments.c` that read and check the command line, and
`validatePath`, `stringToLower` of `src/packagetool/utils.c`.

Arguments are C strings (no NUL).  Messages printed for the user are not modelled.
-/

namespace Semla

/-- The array `manifestData[2][MAX_ARGUMENTS]` (arguments.c:76): name and value per slot; a slot with
empty name is free. -/
abbrev ArgData := List (Bytes × Bytes)

/-- `validArguments`, arguments.c:34-49 with the names of arguments.h:24-37. -/
def validArguments : List Bytes :=
  [b!"librarypath", b!"enabled", b!"title", b!"description", b!"version", b!"build", b!"date",
    b!"language", b!"copyright", b!"license", b!"encrypt", b!"icon", b!"tools", b!"dependencies"]

/-- `mandatoryArguments`, arguments.c:55-59. -/
def mandatoryArguments : List Bytes := [b!"librarypath", b!"version", b!"language"]

/-- `clearManifestArray`, arguments.c:190-200. -/
def emptyArgs : ArgData := List.replicate 14 ([], [])

/-- `getValueOf`, arguments.c:81-94; `none` is the null pointer. -/
def getValueOf : ArgData → Bytes → Option Bytes
  | [], _ => none
  | (k, v) :: d, key => if k = key then some v else getValueOf d key

/-- `containsKey`, arguments.c:99-112. -/
def containsKey : ArgData → Bytes → Bool
  | [], _ => false
  | (k, _) :: d, key => if k = key then true else containsKey d key

/-- `lookupArgument`, arguments.c:125-140. -/
def lookupArgument (a : Bytes) : Bool := validArguments.any (a == ·)

/-- `addManifestData`, arguments.c:149-167: fills the first free slot, if any. -/
def addManifestData : ArgData → Bytes → Bytes → ArgData
  | [], _, _ => []
  | (k, v) :: d, key, val =>
    if k = [] then (key, val) :: d else (k, v) :: addManifestData d key val

/-- The loop of `validateArguments`, arguments.c:213-249, on the arguments from `arguments[i]` on;
`none` is the return value 0.  The first character of an argument is skipped without looking; for an
empty argument `*ptr` is then behind its NUL. -/
def validateLoop : List Bytes → ArgData → Res (Option ArgData)
  | [], d => .ok (some d)
  | [] :: _, _ => .ub .oobRead
  | [_ :: k], d =>
    if k ≠ [] ∧ lookupArgument k then
      if containsKey d k then .ok none else .ok none
    else .ok none
  | (_ :: k) :: v :: rest, d =>
    if k ≠ [] ∧ lookupArgument k then
      if containsKey d k then .ok none
      else if v ≠ [] then validateLoop rest (addManifestData d k v)
      else .ok none
    else .ok none

/-- `validateArguments`, arguments.c:206-252, on `argv[1..]`. -/
def validateArguments (args : List Bytes) : Res (Option ArgData) := validateLoop args emptyArgs

/-- `helpRequested`, arguments.c:438-458, on `argv[1..]`. -/
def helpRequested (args : List Bytes) : Bool :=
  args.any fun a => a == b!"--help" || a == b!"-h"

/-- `validateMandatoryArguments`, arguments.c:283-298. -/
def validateMandatory (d : ArgData) : Bool := mandatoryArguments.all (containsKey d)

/-- The loop of `validatePath` (utils.c:253-259) that cuts off trailing `/` and `\`, on the reversed
path: the first byte of the path always stays. -/
def trimSlashes : Bytes → Bytes
  | [] => []
  | [c] => [c]
  | c :: c' :: cs => if c = 92 ∨ c = 47 then trimSlashes (c' :: cs) else c :: c' :: cs

/-- `validatePath` (utils.c:236-267) without the check that the path is a directory: the path after it
was changed in place. -/
def trimPath (p : Bytes) : Bytes := (trimSlashes p.reverse).reverse

/-- `stringToLower`, utils.c:272-281. -/
def stringToLower (s : Bytes) : Bytes := s.map toLower

/-- Changes a stored value in place (the argument `value` of the functions above points into the array
of arguments). -/
def setValue : ArgData → Bytes → (Bytes → Bytes) → ArgData
  | [], _, _ => []
  | (k, v) :: d, key, f => if k = key then (k, f v) :: d else (k, v) :: setValue d key f

/-- The part of a string behind the last `/`, or all of it: `strrchr` as used in `getLibraryName` and
`extractFilename` (utils.c:1162-1190). -/
def afterLastSlash (p : Bytes) : Bytes := (p.reverse.takeWhile (· ≠ 47)).reverse

/-- `usingEncryption`, utils.c:1750-1757 (it lower-cases the value in place; `validateEncryption` did
so before). -/
def usingEncryption (d : ArgData) : Bool :=
  match getValueOf d b!"encrypt" with
  | some v => stringToLower v == b!"true"
  | none => false

end Semla
