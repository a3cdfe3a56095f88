import Verif.Basic

/-!
# Reading a generated header as C

A small reader of the C text that a key header consists of: four macro definitions, one per line.  It knows decimal
numbers, character constants `'\x..'` and `'\0'`, and assignments to the elements of one array.
-/

namespace Semla.Spec

open Semla

/-- What the macros of a header say: size of the array, value of the length macro, and the assignments in the order
in which they are executed. -/
structure Macros where
  declared : Nat
  len : Nat
  assigns : List (Nat × UInt8)
  deriving DecidableEq, Repr

/-- Characters of identifiers. -/
def IsIdentifier (name : Bytes) : Prop :=
  name ≠ [] ∧ ∀ c ∈ name, (48 ≤ c ∧ c ≤ 57) ∨ (65 ≤ c ∧ c ≤ 90) ∨ (97 ≤ c ∧ c ≤ 122) ∨ c = 95

/-- Skip a fixed text. -/
def skip : Bytes → Bytes → Option Bytes
  | [], t => some t
  | _ :: _, [] => none
  | p :: ps, c :: cs => if p = c then skip ps cs else none

/-- Digits from the start of the text, in a base: the value so far, and what follows. -/
def readDigits (base : Nat) (digit : UInt8 → Option Nat) : Nat → Bytes → Nat × Bytes
  | v, [] => (v, [])
  | v, c :: cs =>
    match digit c with
    | some d => readDigits base digit (v * base + d) cs
    | none => (v, c :: cs)

def decDigit (c : UInt8) : Option Nat := if 48 ≤ c ∧ c ≤ 57 then some (c.toNat - 48) else none

def hexDigitOf (c : UInt8) : Option Nat :=
  if 48 ≤ c ∧ c ≤ 57 then some (c.toNat - 48)
  else if 97 ≤ c ∧ c ≤ 102 then some (c.toNat - 87) else none

/-- A decimal number. -/
def readNumber (t : Bytes) : Option (Nat × Bytes) :=
  if ((t.head?.bind decDigit).isSome) then some (readDigits 10 decDigit 0 t) else none

/-- What follows the backslash of a character constant. -/
def readEscape : Bytes → Option (UInt8 × Bytes)
  | 48 :: t => some (0, t)
  | 120 :: t =>
    let (v, t) := readDigits 16 hexDigitOf 0 t
    if v < 256 then some (UInt8.ofNat v, t) else none
  | _ => none

/-- `name[<number>] = '\<escape>'; ` -/
def readAssign (name t : Bytes) : Option ((Nat × UInt8) × Bytes) := do
  let t ← skip (name ++ b!"[") t
  let (i, t) ← readNumber t
  let t ← skip b!"] = '\\" t
  let (c, t) ← readEscape t
  let t ← skip b!"'; " t
  some ((i, c), t)

/-- Assignments up to the end of the macro. -/
def readAssigns (name : Bytes) : Nat → Bytes → Option (List (Nat × UInt8) × Bytes)
  | 0, _ => none
  | fuel + 1, t =>
    match skip b!"} while (0)\n" t with
    | some t => some ([], t)
    | none => do
      let (a, t) ← readAssign name t
      let (as, t) ← readAssigns name fuel t
      some (a :: as, t)

/-- A complete header for the array `name`. -/
def readHeader (name t : Bytes) : Option Macros := do
  let t ← skip (b!"#define DECLARE_" ++ name ++ b!"() unsigned char " ++ name ++ b!"[") t
  let (declared, t) ← readNumber t
  let t ← skip b!"]\n" t
  let t ← skip (b!"#define " ++ name ++ b!"_LEN (") t
  let (len, t) ← readNumber t
  let t ← skip b!")\n" t
  let t ← skip (b!"#define INITIALIZE_" ++ name ++ b!"() do { ") t
  let (assigns, t) ← readAssigns name (t.length + 1) t
  let t ← skip (b!"#define CLEAR_" ++ name ++ b!"() memset(" ++ name ++ b!", 0, " ++ name ++ b!"_LEN)\n") t
  if t = [] then some ⟨declared, len, assigns⟩ else none

/-- The array after the assignments; elements that were never assigned are `none`. -/
def Macros.array (m : Macros) : List (Option UInt8) :=
  m.assigns.foldl (fun cells a => cells.set a.1 (some a.2)) (List.replicate m.declared none)

/-- No assignment is outside of the array. -/
def Macros.InBounds (m : Macros) : Prop := ∀ a ∈ m.assigns, a.1 < m.declared

/-- The header text provides the key: it is well-formed, stays in its array, and behind its execution the array
begins with the key and a NUL; the length macro is the length of the key. -/
def Provides (name text key : Bytes) : Prop :=
  ∃ m, readHeader name text = some m ∧ m.InBounds ∧ m.len = key.length ∧ key.length < m.declared ∧
    m.array.take (key.length + 1) = (key ++ [0]).map some

end Semla.Spec
