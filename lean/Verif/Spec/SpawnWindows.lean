import Verif.Model.SpawnWindows
import Verif.Spec.Wire

/-!
# Descriptors
-/

namespace Semla.Spec

open Semla

/-- What is behind a descriptor. -/
def behind : WinSlot → Option WinObj
  | .opened o _ => some o
  | _ => none

/-- No end of the pipes that are going to be made. -/
def NoPipes (t : WinFds) : Prop := ∀ n b c i, t n ≠ .opened (.pipe b c) i

/-- There are this many descriptors above all that are taken. -/
def Room (k limit : Nat) (t : WinFds) : Prop := ∃ m, m + k ≤ limit ∧ ∀ n, m ≤ n → t n = .free

/-- The text mentions each of the words. -/
def Mentions (m : Bytes) (ws : List Bytes) : Prop := ∀ w ∈ ws, ∃ a b, m = a ++ w ++ b

/-- What a message should mention when starting the vendor executable `exec` fails: the first thing that goes wrong,
with the error number or the reason that the system gives. -/
inductive StartProblem (env : WinEnv) (exec : Bytes) : List Bytes → Prop
  | pipe (h : env.pipeTo = false ∨ env.pipeFrom = false) : StartProblem env exec [b!"_pipe"]
  | input (h : env.pipeTo = true ∧ env.pipeFrom = true) {e : Nat} {ds : Bytes} (he : env.toIn = some e)
      (hd : IsNumeral e ds) :
      StartProblem env exec [b!"duplicate", b!"STDIN", ds]
  | output (h : env.pipeTo = true ∧ env.pipeFrom = true ∧ env.toIn = none) {e : Nat}
      {ds : Bytes} (he : env.toOut = some e)
      (hd : IsNumeral e ds) :
      StartProblem env exec [b!"duplicate", b!"STDOUT", ds]
  | program (h : env.pipeTo = true ∧ env.pipeFrom = true ∧ env.toIn = none ∧ env.toOut = none)
      (hr : env.runs exec = false)
      (hl : 255 < exec.length → env.runs (b!"\\\\?\\" ++ exec.map fun c => if c = 47 then 92 else c) = false) :
      StartProblem env exec [b!"process", exec, env.reason]
  | backIn (h : env.pipeTo = true ∧ env.pipeFrom = true ∧ env.toIn = none ∧ env.toOut = none) {e : Nat}
      (hr : env.runs exec = true ∨
        255 < exec.length ∧ env.runs (b!"\\\\?\\" ++ exec.map fun c => if c = 47 then 92 else c) = true)
      {ds : Bytes} (he : env.backIn = some e)
      (hd : IsNumeral e ds) : StartProblem env exec [b!"reassociate", b!"STDIN", ds]
  | backOut (h : env.pipeTo = true ∧ env.pipeFrom = true ∧ env.toIn = none ∧ env.toOut = none ∧ env.backIn = none)
      {e : Nat} (hr : env.runs exec = true ∨
        255 < exec.length ∧ env.runs (b!"\\\\?\\" ++ exec.map fun c => if c = 47 then 92 else c) = true)
      {ds : Bytes} (he : env.backOut = some e)
      (hd : IsNumeral e ds) : StartProblem env exec [b!"reassociate", b!"STDOUT", ds]
  | memory (h : env.pipeTo = true ∧ env.pipeFrom = true ∧ env.toIn = none ∧ env.toOut = none ∧ env.backIn = none ∧
        env.backOut = none)
      (hr : env.runs exec = true ∨
        255 < exec.length ∧ env.runs (b!"\\\\?\\" ++ exec.map fun c => if c = 47 then 92 else c) = true)
      (he : env.calloc = false) : StartProblem env exec [b!"memory"]

end Semla.Spec
