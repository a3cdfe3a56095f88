/-!
# Bytes, C strings and outcomes

Common vocabulary of the model: byte strings, NUL-terminated views of them, the C library
functions the code uses on them, and the outcome type with undefined behaviour as a value.
Nothing in this file is specific to SEMLA; it fixes the meaning of the C library calls
(trusted base, DESIGN.md section 1).
-/

namespace Semla

abbrev Bytes := List UInt8

/-- `b!"abc"` is the list of the UTF-8 bytes of the literal, as numerals. -/
macro:max "b!" s:str : term => do
  let bs := s.getString.toUTF8.toList
  let lits : Array (Lean.TSyntax `term) :=
    (bs.map fun b => (⟨Lean.Syntax.mkNumLit (toString b.toNat)⟩ : Lean.TSyntax `term)).toArray
  `(([$lits,*] : List UInt8))

/-- Kinds of undefined behaviour the model distinguishes. -/
inductive UB where
  /-- write past the end of a heap or stack object -/
  | oobWrite
  /-- read past the end of an object -/
  | oobRead
  /-- use of the value of a byte that was never written -/
  | uninit
  /-- null pointer passed to a function that dereferences it -/
  | nullDeref
  /-- a failed `assert` -/
  | assertFail
  /-- a `size_t` value that wrapped around used as a length -/
  | sizeWrap
  /-- `free` of something that is not an allocated block (any more) -/
  | badFree
  /-- recursion deeper than the bound of the model (never a value the C code produces; shown to be
  unreachable where it is used) -/
  | tooDeep
  deriving DecidableEq, Repr

/-- Outcome of a C function: a value, or undefined behaviour. -/
inductive Res (α : Type u) where
  | ok (a : α)
  | ub (k : UB)
  deriving DecidableEq, Repr

namespace Res

@[inline] def bind (x : Res α) (f : α → Res β) : Res β :=
  match x with
  | ok a => f a
  | ub k => ub k

instance : Monad Res where
  pure := ok
  bind := bind

/-- The outcome is not undefined behaviour. -/
def Defined (x : Res α) : Prop := ∃ a, x = ok a

@[simp] theorem bind_ok (a : α) (f : α → Res β) : (Res.ok a >>= f) = f a := rfl
@[simp] theorem bind_ub (k : UB) (f : α → Res β) : ((Res.ub k : Res α) >>= f) = Res.ub k := rfl
@[simp] theorem pure_eq (a : α) : (pure a : Res α) = Res.ok a := rfl

theorem bind_eq_ok {x : Res α} {f : α → Res β} {b : β} :
    (x >>= f) = ok b ↔ ∃ a, x = ok a ∧ f a = ok b := by
  cases x <;> simp

theorem bind_eq_ub {x : Res α} {f : α → Res β} {k : UB} :
    (x >>= f) = ub k ↔ x = ub k ∨ ∃ a, x = ok a ∧ f a = ub k := by
  cases x <;> simp

end Res

/-- The C string stored in a buffer: everything before the first NUL. -/
def cstr (b : Bytes) : Bytes := b.takeWhile (· ≠ 0)

/-- ASCII `tolower` (C locale). -/
def toLower (c : UInt8) : UInt8 := if 65 ≤ c ∧ c ≤ 90 then c + 32 else c

/-- `strcasecmp(a, b) == 0` (C locale) on C strings. -/
def eqNoCase (a b : Bytes) : Bool := a.map toLower == b.map toLower

/-- `isspace` (C locale). -/
def isSpace (c : UInt8) : Bool := c == 32 || (9 ≤ c && c ≤ 13)

/-- `isdigit`. -/
def isDigit (c : UInt8) : Bool := 48 ≤ c && c ≤ 57

/-- Decimal digits of `n`, most significant first, as `printf("%zu")` prints them.
`fuel` only bounds the recursion; `n + 1` is always enough. -/
def decAux : Nat → Nat → Bytes → Bytes
  | 0, _, acc => acc
  | fuel + 1, n, acc =>
    let acc := UInt8.ofNat (48 + n % 10) :: acc
    if n < 10 then acc else decAux fuel (n / 10) acc

/-- `printf("%zu", n)`. -/
def decNat (n : Nat) : Bytes := decAux (n + 1) n []

/-- `printf("%ld", n)`. -/
def decInt (n : Int) : Bytes :=
  if n < 0 then 45 :: decNat n.natAbs else decNat n.natAbs

/-- Largest and smallest `long` (LP64). -/
def longMax : Int := 9223372036854775807
def longMin : Int := -9223372036854775808
/-- Number of `size_t` values (LP64). -/
def sizeMod : Nat := 18446744073709551616

/-- The text `snprintf(buf, cap, ...)` leaves in a buffer of `cap` bytes when the complete
output is `s`: the first `cap - 1` bytes (then a NUL). -/
def snprintf (cap : Nat) (s : Bytes) : Bytes := s.take (cap - 1)

/-- `snprintf(&buf[off], cap - off, ...)` with `buf` holding `old`, where `off` was computed
from an earlier `snprintf`.  `cap - off` is a `size_t`: if `off` exceeds `cap` it wraps to a
huge size and the write is out of bounds; with `off = cap` nothing is written.  What is written
behind the end of the text in `buf` is not part of the text. -/
def snprintfAt (cap off : Nat) (old s : Bytes) : Res Bytes :=
  if off < cap then .ok (if off ≤ old.length then old.take off ++ s.take (cap - off - 1) else old)
  else if off = cap then .ok old
  else .ub .oobWrite

/-- One call of `strtok_r` with a single delimiter character.  The second component is what
the save pointer refers to afterwards. -/
def strtokR (d : UInt8) (s : Bytes) : Option Bytes × Bytes :=
  let s' := s.dropWhile (· == d)
  if s' = [] then (none, [])
  else (some (s'.takeWhile (· ≠ d)), (s'.dropWhile (· ≠ d)).drop 1)

/-- Result of `sscanf(token, "%ld", &n)`. -/
inductive Scan where
  /-- return value `EOF`: the input ended before anything but white space was seen -/
  | eof
  /-- return value 0: no integer at this place -/
  | noMatch
  /-- return value 1 -/
  | val (n : Int)
  deriving DecidableEq, Repr

/-- Value of a digit string. -/
def digitsVal (ds : Bytes) : Nat := ds.foldl (fun n d => n * 10 + (d.toNat - 48)) 0

/-- `strtol` saturates. -/
def clampLong (n : Int) : Int := max longMin (min longMax n)

/-- `sscanf(s, "%ld", &n)` (glibc): skip white space, optional sign, digits; text after the
digits is ignored; out-of-range values saturate. -/
def scanLong (s : Bytes) : Scan :=
  match s.dropWhile isSpace with
  | [] => .eof
  | c :: cs =>
    let body := if c == 43 || c == 45 then cs else c :: cs
    let ds := body.takeWhile isDigit
    if ds = [] then .noMatch
    else .val (clampLong (if c == 45 then -(digitsVal ds : Int) else (digitsVal ds : Int)))

end Semla
