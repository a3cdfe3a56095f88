import Verif.Model.Tool
import Verif.Spec.Tls
import Verif.Spec.Wire

/-!
# Specification vocabulary for the tool's calls

What the vendor executable may answer, stated on the records that arrive.
-/

namespace Semla.Spec

open Semla

/-- An answer: a well-formed command with its number and its data, or no usable answer. -/
inductive Reply where
  | command (c : CmdId) (n : Int) (data : Bytes)
  | broken
  deriving DecidableEq

/-- The next record to arrive is `b`. -/
def NextRecord (evs : List Ev) (b : Bytes) : Prop :=
  ∃ pre sizes rest, evs = pre ++ .record b sizes :: rest ∧ b ≠ [] ∧ ∀ e ∈ pre, Idle e

/-- The answer is `r`, and `rest` comes after it.  (The tool parses a record without its last byte, which
does not matter for answers that end with a newline or with data.) -/
inductive Replies (evs rest : List Ev) : Reply → Prop where
  /-- the connection breaks before anything arrives -/
  | failure {pre code q} : evs = pre ++ .fail code q :: rest → (∀ e ∈ pre, Idle e) → Replies evs rest .broken
  /-- more than a TLS record can hold -/
  | tooLong {b} : Delivers evs [b] rest → 16400 < b.length → Replies evs rest .broken
  /-- not a command -/
  | malformed {b g} : Delivers evs [b] rest → Rejected b.dropLast g → Replies evs rest .broken
  /-- a command without data -/
  | plain {b c n} : Delivers evs [b] rest → b.length ≤ 16400 → Accepts b.dropLast c n 0 →
      (c.form = .simple ∨ c.form = .number) → Replies evs rest (.command c n [])
  /-- a command with data, which may go on in further records -/
  | pieces {line part more c n data} : Delivers evs ((line ++ b!"\n" ++ part) :: more) rest →
      (line ++ b!"\n" ++ part).length ≤ 16400 → (∀ x ∈ line, x ≠ 0 ∧ x ≠ 10) →
      Accepts (line ++ b!"\n" ++ part).dropLast c n data.length →
      (c.form = .length ∨ c.form = .numberAndLength) → part ++ more.flatten = data →
      Replies evs rest (.command c n data)
  /-- a command with data and one more byte -/
  | extra {line data x c n} : Delivers evs [line ++ b!"\n" ++ data ++ [x]] rest →
      (line ++ b!"\n" ++ data ++ [x]).length ≤ 16400 → (∀ x ∈ line, x ≠ 0 ∧ x ≠ 10) →
      Accepts (line ++ b!"\n" ++ data) c n data.length →
      (c.form = .length ∨ c.form = .numberAndLength) →
      Replies evs rest (.command c n data)

/-- The answer is this command, with whatever number and data. -/
def Reply.is (r : Reply) (c : CmdId) : Prop := ∃ n data, r = .command c n data

/-- A write returns: the connection does not ask for repetition forever. -/
def Returns (wevs : List WEv) : Prop := ∃ e ∈ wevs, e ≠ .wantWrite

/-- The next write goes through, after some requests to repeat it. -/
def Writes (wevs after : List WEv) : Prop := ∃ n, wevs = List.replicate n .wantWrite ++ .written :: after

/-- The call returned success. -/
def _root_.Semla.ToolOut.isSuccess {α : Type} : ToolOut α → Bool
  | .success _ _ => true
  | _ => false

/-- The message `<name> <length>` with this argument, as the documentation writes it. -/
def Message (name arg m : Bytes) : Prop := ∃ ds, IsNumeral arg.length ds ∧ m = line2 name ds ++ arg

/-- A call of the tool's interface that passes on a string, and what it leaves behind: `name` is the
command that `doc/SEMLA.md` gives for the call, `ok` says whether the call returned success. -/
inductive Ran (m : Nat → Bool) (t : Tool) (arg : Bytes) (loc : ErrLoc) : Bytes → Bool → Tool → Prop where
  | libpath {out t'} : toolLibpath m t arg loc = .ok (out, t') → Ran m t arg loc b!"LIB" out.isSuccess t'
  | feature {out t'} : toolFeature m t arg loc = .ok (out, t') → Ran m t arg loc b!"FEATURE" out.isSuccess t'
  | returnFeature {out t'} : toolReturnFeature m t arg loc = .ok (out, t') →
      Ran m t arg loc b!"RETURNFEATURE" out.isSuccess t'
  | license {out t'} : toolLicense m t arg loc = .ok (out, t') → Ran m t arg loc b!"LICENSE" out.isSuccess t'
  | returnLicense {out t'} : toolReturnLicense m t arg loc = .ok (out, t') →
      Ran m t arg loc b!"RETURNLICENSE" out.isSuccess t'
  | file {out t'} : toolFile m t arg loc = .ok (out, t') → Ran m t arg loc b!"FILE" out.isSuccess t'

/-- A fetched file: all of it is in memory and nothing has been read. -/
def Fetched (f : FileContents) (data : Bytes) : Prop :=
  ∃ tail, f = ⟨data.length, 0, some ⟨data.map some ++ tail⟩⟩

end Semla.Spec
