import Verif.Model.Process

/-! # Specification vocabulary for processes and pipes -/

namespace Semla.Spec

open Semla

/-- The process with these descriptors has the thing open. -/
def Has (t : Fds) (o : Obj) : Prop := ∃ n, t n = some o

/-- Some process has it open. -/
def Open (s : Sys) (o : Obj) : Prop := Has s.tool o ∨ ∃ c ∈ s.children, Has c.fds o

/-- Reading the pipe, once it is empty, reports its end; otherwise it waits. -/
def AtEnd (s : Sys) (k : Nat) (toChild : Bool) : Prop := ¬ Open s (.pipe k toChild true)

/-- Writing into the pipe fails. -/
def Broken (s : Sys) (k : Nat) (toChild : Bool) : Prop := ¬ Open s (.pipe k toChild false)

/-- How many descriptors below `limit` are free. -/
def freeBelow (limit : Nat) (t : Fds) : Nat := (List.range limit).countP fun n => (t n).isNone

/-- A tool that has started nothing yet. -/
def Fresh (t : Fds) : Prop := ∀ n o, t n = some o → o = .other

/-- A state after some history. -/
def Reached (limit : Nat) (s : Sys) : Prop := ∃ t evs, Fresh t ∧ s = (Sys.init t).run limit evs

/-- The vendor executable of connection `l` is running. -/
def Alive (s : Sys) (k : Nat) : Prop := ∃ c ∈ s.children, c.k = k

/-- What one side of connection `l` writes, the other side reads: standard input and output of the vendor
executable and the two descriptors of the tool are ends of two different pipes. -/
def Wired (s : Sys) (l : Link) (c : Child) : Prop :=
  ∃ a b, a ≠ b ∧
    s.tool l.fdTo = some (.pipe l.k a true) ∧ c.fds 0 = some (.pipe l.k a false) ∧
    c.fds 1 = some (.pipe l.k b true) ∧ s.tool l.fdFrom = some (.pipe l.k b false)

/-- No process but the tool and the vendor executable has an end of a pipe of start `k`. -/
def Private (s : Sys) (k : Nat) : Prop :=
  ∀ c ∈ s.children, ∀ n a w, c.fds n = some (.pipe k a w) → c.k = k

/-- Number of successful calls of `mlle_start_executable` among the events. -/
def startCount (limit : Nat) : Sys → List Event → Nat
  | _, [] => 0
  | s, e :: es =>
    (match e with
      | .start env tls => if (startLink limit env tls s).1.isSome then 1 else 0
      | _ => 0) + startCount limit (s.step limit e) es

end Semla.Spec
