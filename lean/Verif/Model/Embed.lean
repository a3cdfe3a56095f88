import Verif.Model.Utils
import Verif.Model.Crypt

/-!
# Keys embedded at build time

Models `create_header_file` (`src/embedfile/obfuscate_utils.c`), `write_initialize_key_macro_body` of the
dummy obfuscator (`src/obfuscators/dummy/src/obfuscator.c`), the way `src/embedfile/obfuscate.c` and
`src/embedfile/randomize_key.c` call it, and what the generated macros do in the C files that include
the header.

Sizes are below 2^31 (`%d` is given a `size_t`).  Failures to read the key file, to draw random bytes or to
write the header end these build tools; they are left out.
-/

namespace Semla

/-- The loop removing carriage returns in place, obfuscate_utils.c:74-80: `n` rounds left, then `i`, `j`
and the array. -/
def stripLoop : Nat → Nat → Nat → Bytes → Nat × Bytes
  | 0, _, j, d => (j, d)
  | n + 1, i, j, d =>
    if d.getD i 0 = 13 then stripLoop n (i + 1) j d
    else stripLoop n (i + 1) (j + 1) (if i ≠ j then d.set j (d.getD i 0) else d)

/-- One digit of `%x`. -/
def hexDigit (n : UInt8) : UInt8 := if n < 10 then 48 + n else 87 + n

/-- `printf("%x", b)` for a byte. -/
def hexByte (b : UInt8) : Bytes :=
  if b < 16 then [hexDigit b] else [hexDigit (b / 16), hexDigit (b % 16)]

/-- The macros of a generated header: the size in `DECLARE_`, the value of `_LEN`, and the assignments of
`INITIALIZE_`, each with its index and the hexadecimal digits in the character constant. -/
structure KeyHeader where
  declared : Nat
  len : Nat
  writes : List (Nat × Bytes)
  deriving DecidableEq, Repr

/-- The assignments of `write_initialize_key_macro_body`, obfuscator.c:21-32 (dummy), from index `i` on. -/
def initWrites : Nat → Bytes → List (Nat × Bytes)
  | _, [] => []
  | i, b :: bs => (i, hexByte b) :: initWrites (i + 1) bs

/-- `create_header_file`, obfuscate_utils.c:68-99. -/
def createHeader (data : Bytes) : KeyHeader :=
  let len := data.length
  let (j, d) := stripLoop len 0 0 data
  let d := if j < len then d.set j 0 else d
  ⟨len + 1, j, initWrites 0 d ++ [(len, b!"0")]⟩

/-- Value of a hexadecimal digit in C source. -/
def hexDigitValue (c : UInt8) : Nat :=
  if 48 ≤ c ∧ c ≤ 57 then (c - 48).toNat
  else if 97 ≤ c ∧ c ≤ 102 then (c - 87).toNat
  else 0

/-- The character constant `'\x<digits>'` converted to `unsigned char`. -/
def hexConstant (s : Bytes) : UInt8 := UInt8.ofNat (s.foldl (fun v c => 16 * v + hexDigitValue c) 0)

/-- `INITIALIZE_<name>()` on the array. -/
def assignAll : List (Nat × Bytes) → List (Option UInt8) → Res (List (Option UInt8))
  | [], cells => .ok cells
  | (i, s) :: ws, cells => do
    let cells ← writeCells cells i [hexConstant s]
    assignAll ws cells

/-- `DECLARE_<name>(); INITIALIZE_<name>();` -/
def KeyHeader.initialize (h : KeyHeader) : Res (List (Option UInt8)) :=
  assignAll h.writes (List.replicate h.declared none)

/-- `CLEAR_<name>()`: `memset(name, 0, name_LEN)`. -/
def KeyHeader.clear (h : KeyHeader) (cells : List (Option UInt8)) : Res (List (Option UInt8)) :=
  writeCells cells 0 (List.replicate h.len 0)

end Semla
