import Verif.Spec.Header

/-!
# The list of tool keys, and the generated table read as C
-/

namespace Semla.Spec

open Semla

/-- The text without carriage returns. -/
def withoutCr (t : Bytes) : Bytes := t.filter fun c => c ≠ 13

/-- Here a line begins: at the start of the text, and behind a newline. -/
def AtLineStart (pre : Bytes) : Prop := pre = [] ∨ pre.getLast? = some 10

/-- `f` is one of the lines of the text, and not empty.  Carriage returns do not count. -/
def Listed (t f : Bytes) : Prop :=
  f ≠ [] ∧ 10 ∉ f ∧ ∃ pre post, withoutCr t = pre ++ f ++ post ∧ AtLineStart pre ∧ (post = [] ∨ post.head? = some 10)

/-- No line of the text is empty. -/
def NoBlank (t : Bytes) : Prop := ∀ pre post, withoutCr t = pre ++ 10 :: post → ¬ AtLineStart pre

/-- Letters, digits and `_-./`: characters without a meaning for CMake and the shell. -/
def FileChar (c : UInt8) : Prop :=
  (45 ≤ c ∧ c ≤ 57) ∨ (65 ≤ c ∧ c ≤ 90) ∨ (97 ≤ c ∧ c ≤ 122) ∨ c = 95

/-- A list of key files. -/
def PlainList (t : Bytes) : Prop := ∀ c ∈ t, FileChar c ∨ c = 10 ∨ c = 13

/-- What the macros of `public_key_tool.h` say. -/
structure KeyTable where
  num : Nat
  includes : List Bytes
  declares : List Bytes
  pointers : List Bytes
  lens : List Bytes
  inits : List Bytes
  clears : List Bytes
  deriving DecidableEq, Repr

def isTableChar (c : UInt8) : Bool :=
  (48 ≤ c && c ≤ 57) || (65 ≤ c && c ≤ 90) || (97 ≤ c && c ≤ 122) || c == 95 || c == 46

/-- One name between two fixed texts. -/
def readItem (pre post t : Bytes) : Option (Bytes × Bytes) := do
  let t ← skip pre t
  let name := t.takeWhile isTableChar
  let t ← skip post (t.dropWhile isTableChar)
  if name = [] then none else some (name, t)

/-- Names, each between the two texts, as many as there are. -/
def readItems (pre post : Bytes) : Nat → Bytes → List Bytes × Bytes
  | 0, t => ([], t)
  | fuel + 1, t =>
    match readItem pre post t with
    | none => ([], t)
    | some (name, t) => let (names, t) := readItems pre post fuel t; (name :: names, t)

/-- A complete table. -/
def readTable (t : Bytes) : Option KeyTable := do
  let fuel := t.length
  let t ← skip b!"#define PUBLIC_KEY_TOOL_NUM ( " t
  let (num, t) ← readNumber t
  let t ← skip b!" )\n" t
  let (includes, t) := readItems b!"#include \"" b!"\"\n" fuel t
  let t ← skip b!"#define DECLARE_PUBLIC_KEY_TOOL()" t
  let (declares, t) := readItems b!"DECLARE_" b!"();" fuel t
  let t ← skip b!"unsigned char* PUBLIC_KEY_TOOL[]={" t
  let (pointers, t) := readItems [] b!"," fuel t
  let t ← skip b!"0}\n#define DECLARE_PUBLIC_KEY_TOOL_LEN() size_t PUBLIC_KEY_TOOL_LEN[]={" t
  let (lens, t) := readItems [] b!"," fuel t
  let t ← skip b!"0}\n#define INITIALIZE_PUBLIC_KEY_TOOL() do {" t
  let (inits, t) := readItems b!"INITIALIZE_" b!"();" fuel t
  let t ← skip b!"} while (0)\n#define CLEAR_PUBLIC_KEY_TOOL() do {" t
  let (clears, t) := readItems b!"CLEAR_" b!"();" fuel t
  let t ← skip b!"} while (0)\n" t
  if t = [] then some ⟨num, includes, declares, pointers, lens, inits, clears⟩ else none

/-- What `PUBLIC_KEY_TOOL_NUM` and the array `PUBLIC_KEY_TOOL` are once the macros have been executed. -/
structure Embedded where
  num : Nat
  pointers : List (Option (List (Option UInt8)))
  deriving DecidableEq, Repr

/-- The macros for the array `name`: from the included file that defines them. -/
def macrosFor (dir : Bytes → Option Bytes) (includes : List Bytes) (name : Bytes) : Option Macros :=
  includes.findSome? fun f => (dir f).bind (readHeader name)

/-- Compiling against the headers in `dir` (`none`: the compiler reports an error): all included files exist, and the
macros used are defined. -/
def embed (dir : Bytes → Option Bytes) : Option Embedded := do
  let table ← (dir b!"public_key_tool.h").bind readTable
  if table.includes.all fun f => (dir f).isSome then
    let cells ← table.pointers.mapM fun name => do
      let m ← macrosFor dir table.includes name
      if name ∈ table.declares then
        some (if name ∈ table.inits then m.array else List.replicate m.declared none)
      else none
    some ⟨table.num, cells.map some ++ [none]⟩
  else none

end Semla.Spec
