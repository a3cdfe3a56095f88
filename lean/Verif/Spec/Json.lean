import Verif.Basic

/-!
# JSON texts (RFC 8259)

Bytes above 127 are taken as they are (parts of UTF-8 sequences).
-/

namespace Semla.Spec

/-- `ws`: space, tabulator, line feed, carriage return. -/
def Blanks (w : Bytes) : Prop := ∀ c ∈ w, c = 32 ∨ c = 9 ∨ c = 10 ∨ c = 13

def Digit (c : UInt8) : Prop := 48 ≤ c ∧ c ≤ 57

def Digits (w : Bytes) : Prop := w ≠ [] ∧ ∀ c ∈ w, Digit c

/-- `number = [ minus ] int [ frac ] [ exp ]`. -/
def JsonNumber (b : Bytes) : Prop :=
  ∃ sign int frac exp, b = sign ++ int ++ frac ++ exp ∧ (sign = [] ∨ sign = b!"-") ∧
    (int = b!"0" ∨ (Digits int ∧ int.head? ≠ some 48)) ∧
    (frac = [] ∨ ∃ ds, frac = 46 :: ds ∧ Digits ds) ∧
    (exp = [] ∨ ∃ e s ds, exp = e :: s ++ ds ∧ (e = 69 ∨ e = 101) ∧ (s = [] ∨ s = b!"+" ∨ s = b!"-") ∧ Digits ds)

def HexDigit (c : UInt8) : Prop := Digit c ∨ (65 ≤ c ∧ c ≤ 70) ∨ (97 ≤ c ∧ c ≤ 102)

/-- The characters of a string. -/
inductive JsonChars : Bytes → Prop
  | nil : JsonChars []
  | char {c s} : 32 ≤ c → c ≠ 34 → c ≠ 92 → JsonChars s → JsonChars (c :: s)
  | escape {c s} : c ∈ b!"\"\\/bfnrt" → JsonChars s → JsonChars (92 :: c :: s)
  | unicode {a b c d s} : HexDigit a → HexDigit b → HexDigit c → HexDigit d → JsonChars s →
      JsonChars (92 :: 117 :: a :: b :: c :: d :: s)

/-- The parts of the grammar. -/
inductive JsonPart where
  | value
  /-- what is between the brackets of an array that is not empty -/
  | elements
  /-- what is between the braces of an object that is not empty -/
  | members

/-- The grammar. -/
inductive Json : JsonPart → Bytes → Prop
  | literal {b} : b = b!"true" ∨ b = b!"false" ∨ b = b!"null" → Json .value b
  | number {b} : JsonNumber b → Json .value b
  | string {s} : JsonChars s → Json .value (34 :: s ++ [34])
  | emptyArray {w} : Blanks w → Json .value (91 :: w ++ [93])
  | array {es} : Json .elements es → Json .value (91 :: es ++ [93])
  | emptyObject {w} : Blanks w → Json .value (123 :: w ++ [125])
  | object {ms} : Json .members ms → Json .value (123 :: ms ++ [125])
  | element {w v w'} : Blanks w → Json .value v → Blanks w' → Json .elements (w ++ v ++ w')
  | moreElements {es w v w'} : Json .elements es → Blanks w → Json .value v → Blanks w' →
      Json .elements (es ++ 44 :: w ++ v ++ w')
  | member {w s w1 w2 v w'} : Blanks w → JsonChars s → Blanks w1 → Blanks w2 → Json .value v → Blanks w' →
      Json .members (w ++ (34 :: s ++ [34]) ++ w1 ++ 58 :: w2 ++ v ++ w')
  | moreMembers {ms w s w1 w2 v w'} : Json .members ms → Blanks w → JsonChars s → Blanks w1 → Blanks w2 → Json .value v →
      Blanks w' → Json .members (ms ++ 44 :: w ++ (34 :: s ++ [34]) ++ w1 ++ 58 :: w2 ++ v ++ w')

/-- `JSON-text = ws value ws`. -/
def IsJson (b : Bytes) : Prop := ∃ w v w', Blanks w ∧ Json .value v ∧ Blanks w' ∧ b = w ++ v ++ w'

/-- `Members m ms`: `m` is what is between the braces of an object with the members `ms`, each a name and the text of
a value. -/
inductive Members : Bytes → List (Bytes × Bytes) → Prop
  | one {w s w1 w2 v w'} : Blanks w → JsonChars s → Blanks w1 → Blanks w2 → Json .value v → Blanks w' →
      Members (w ++ (34 :: s ++ [34]) ++ w1 ++ 58 :: w2 ++ v ++ w') [(s, v)]
  | more {m ms w s w1 w2 v w'} : Members m ms → Blanks w → JsonChars s → Blanks w1 → Blanks w2 → Json .value v →
      Blanks w' → Members (m ++ 44 :: w ++ (34 :: s ++ [34]) ++ w1 ++ 58 :: w2 ++ v ++ w') (ms ++ [(s, v)])

/-- `Strings m ss`: `m` is what is between the brackets of an array of the strings `ss`. -/
inductive Strings : Bytes → List Bytes → Prop
  | one {w s w'} : Blanks w → JsonChars s → Blanks w' → Strings (w ++ (34 :: s ++ [34]) ++ w') [s]
  | more {m ss w s w'} : Strings m ss → Blanks w → JsonChars s → Blanks w' →
      Strings (m ++ 44 :: w ++ (34 :: s ++ [34]) ++ w') (ss ++ [s])

/-- `b` is a JSON text, an object with these members. -/
def JsonObject (b : Bytes) (ms : List (Bytes × Bytes)) : Prop :=
  ∃ w m w', Blanks w ∧ Members m ms ∧ Blanks w' ∧ b = w ++ (123 :: m ++ [125]) ++ w'

/-- `v` is an array of these strings. -/
def JsonStrings (v : Bytes) (ss : List Bytes) : Prop := ∃ m, Strings m ss ∧ v = 91 :: m ++ [93]

end Semla.Spec
