import Verif.Model.Parse

/-!
# Specification of the wire format

Written from `doc/SEMLA.md` (section on the message format), independently of the parser and of
the send functions: a header is the first non-empty line of a message, split into words at
spaces.
-/

namespace Semla.Spec

open Semla

/-- The four message forms of the documentation: what follows the command name. -/
inductive Shape where
  | plain | num | len | numLen
  deriving DecidableEq

/-- Number of arguments after the command name. -/
def Shape.args : Shape → Nat
  | .plain => 0
  | .num => 1
  | .len => 1
  | .numLen => 2

/-- The published commands with their names and shapes. -/
def commands : List (CmdId × Bytes × Shape) :=
  [(.notSimple, b!"NOTSIMPLE", .plain), (.tools, b!"TOOLS", .plain), (.yes, b!"YES", .plain),
   (.version, b!"VERSION", .num),
   (.feature, b!"FEATURE", .len), (.file, b!"FILE", .len), (.fileCont, b!"FILECONT", .len),
   (.lib, b!"LIB", .len), (.license, b!"LICENSE", .len), (.no, b!"NO", .len),
   (.returnFeature, b!"RETURNFEATURE", .len), (.returnLicense, b!"RETURNLICENSE", .len),
   (.toolList, b!"TOOLLIST", .len),
   (.error, b!"ERROR", .numLen)]

/-- Words of a line: the non-empty pieces between spaces. -/
def words (line : Bytes) : List Bytes := (line.splitOn 32).filter (· ≠ [])

/-- Words of the header: the message is read up to its first NUL, and the first non-empty line
counts. -/
def header (msg : Bytes) : List Bytes :=
  match (((msg.takeWhile (· ≠ 0)).splitOn 10).filter (· ≠ [])).head? with
  | some line => words line
  | none => []

/-- `w` denotes the integer `n`: optional white space, optional sign, at least one digit, then
anything that does not start with a digit; values outside the range of a 64-bit signed integer
are moved to the nearest bound. -/
def Denotes (w : Bytes) (n : Int) : Prop :=
  ∃ ws sign ds rest, w = ws ++ sign ++ ds ++ rest ∧
    (∀ c ∈ ws, c = 32 ∨ (9 ≤ c ∧ c ≤ 13)) ∧
    (sign = [] ∨ sign = b!"+" ∨ sign = b!"-") ∧
    ds ≠ [] ∧ (∀ c ∈ ds, 48 ≤ c ∧ c ≤ 57) ∧
    (∀ c ∈ rest.head?, ¬ (48 ≤ c ∧ c ≤ 57)) ∧
    n = max (-2 ^ 63) (min (2 ^ 63 - 1)
      ((if sign = b!"-" then -1 else 1) *
        ((ds.foldl (fun a d => a * 10 + (d.toNat - 48)) 0 : Nat) : Int)))

/-- The message `msg` is a well-formed message of command `c` with number `n` and declared data
length `len`. -/
inductive Accepts (msg : Bytes) : CmdId → Int → Nat → Prop where
  | plain {c name} : (c, name, Shape.plain) ∈ commands → header msg = [name] →
      Accepts msg c 0 0
  | num {c name w n} : (c, name, Shape.num) ∈ commands → header msg = [name, w] →
      Denotes w n → Accepts msg c n 0
  | len {c name w n} : (c, name, Shape.len) ∈ commands → header msg = [name, w] →
      Denotes w n → 0 ≤ n → Accepts msg c 0 n.toNat
  | numLen {c name w v n m} : (c, name, Shape.numLen) ∈ commands →
      header msg = [name, w, v] → Denotes w n → Denotes v m → 0 ≤ m →
      Accepts msg c n m.toNat

/-- The message `msg` is to be rejected with the diagnosis `g`. -/
inductive Rejected (msg : Bytes) : Grammar → Prop where
  /-- no word at all -/
  | empty : header msg = [] → Rejected msg .noTokens
  /-- the first word is not a published command name -/
  | unknown {w ws} : header msg = w :: ws → (∀ e ∈ commands, e.2.1 ≠ w) → Rejected msg .unknownCmd
  /-- fewer words than the shape calls for -/
  | few {c name sh ws} : (c, name, sh) ∈ commands → header msg = name :: ws →
      ws.length < sh.args →
      Rejected msg .tooFewTokens
  /-- more words than the shape calls for -/
  | many {c name sh ws} : (c, name, sh) ∈ commands → header msg = name :: ws →
      ws.length > sh.args →
      Rejected msg .tooManyTokens
  /-- the right number of words, but an argument is not an integer -/
  | notInt {c name sh ws} : (c, name, sh) ∈ commands → header msg = name :: ws →
      ws.length = sh.args →
      (∃ w ∈ ws, ¬ ∃ n, Denotes w n) → Rejected msg .notAnInt
  /-- all arguments are integers, but the data length (the last one) is negative -/
  | negative {c name sh ws n} : (c, name, sh) ∈ commands → sh = .len ∨ sh = .numLen →
      header msg = name :: ws →
      ws.length = sh.args →
      (∀ w ∈ ws, ∃ n, Denotes w n) → (∃ w, ws.getLast? = some w ∧ Denotes w n) → n < 0 →
      Rejected msg .negativeLength

/-- Decimal numeral of `n`: no leading zero unless it is the single digit 0. -/
def IsNumeral (n : Nat) (ds : Bytes) : Prop :=
  ds ≠ [] ∧ (∀ c ∈ ds, 48 ≤ c ∧ c ≤ 57) ∧
    ds.foldl (fun a d => a * 10 + (d.toNat - 48)) 0 = n ∧ (ds.head? = some 48 → ds = [48])

/-- The header line of a message, as the documentation writes it. -/
def line2 (name a : Bytes) : Bytes := name ++ b!" " ++ a ++ b!"\n"
def line3 (name a b : Bytes) : Bytes := name ++ b!" " ++ a ++ b!" " ++ b ++ b!"\n"

/-- A message as the vendor executable tokenises it (the whole message) and as the tool does
(without its last byte, mlle_utils.c:107-113). -/
def Views (msg view : Bytes) : Prop := view = msg ∨ view = msg.dropLast

end Semla.Spec
