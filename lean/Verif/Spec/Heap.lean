import Verif.Model.ToolHeap

/-!
# Vocabulary about memory
-/

namespace Semla.Spec

open Semla

/-- Bytes in live blocks. -/
def inUse (h : Heap) : Nat := (h.map fun b => b.getD 0).sum

/-- Bytes that a connection still delivers. -/
def toCome (c : Conn) : Nat :=
  c.cur.length + (c.evs.map fun e => match e with | .record b _ => b.length | _ => 0).sum

/-- What a careful caller does behind a call: free the error object and the file contents. -/
def release (e : CallEnd) (s : Mem) : Res Heap := do
  let s ← s.freeError
  match e with
  | .contents p _ buffer => contentsFree p buffer s.heap
  | _ => .ok s.heap

/-- The heap still has all the blocks that it had before, and the blocks of `more` bytes in addition. -/
def KeepsAnd (before after : Heap) (more : Nat) : Prop :=
  (∃ new, after = before ++ new) ∧ inUse after = inUse before + more

/-- A call without a result. -/
def unitOut : Res (ToolOut Unit × Tool) → Res (ToolOut (Option FileContents) × Tool)
  | .ub u => .ub u
  | .ok (.blocked, t) => .ok (.blocked, t)
  | .ok (.failed l, t) => .ok (.failed l, t)
  | .ok (.success _ l, t) => .ok (.success none l, t)

/-- The calls as values: error location, result and messages, but no memory. -/
def valueCall (m : Nat → Bool) (t : Tool) (loc : ErrLoc) : ToolCall → Res (ToolOut (Option FileContents) × Tool)
  | .version a b => unitOut (toolVersion m t a b loc)
  | .libpath x => unitOut (toolLibpath m t x loc)
  | .feature x => unitOut (toolFeature m t x loc)
  | .returnFeature x => unitOut (toolReturnFeature m t x loc)
  | .license x => unitOut (toolLicense m t x loc)
  | .returnLicense x => unitOut (toolReturnLicense m t x loc)
  | .file x =>
    match toolFile m t x loc with
    | .ub u => .ub u
    | .ok (.blocked, t) => .ok (.blocked, t)
    | .ok (.failed l, t) => .ok (.failed l, t)
    | .ok (.success f l, t) => .ok (.success (some f) l, t)
/-- An error location in memory that goes with one as a value. -/
def SameError : ErrLoc → ErrSlot → Prop
  | none, none => True
  | some none, some none => True
  | some (some e), some (some (_, q)) => e.message.isSome = q.isSome
  | _, _ => False

/-- A call that ends in memory as it does as a value. -/
def SameEnd : ToolOut (Option FileContents) → CallEnd → ErrSlot → Prop
  | .blocked, .blocked, _ => True
  | .failed l, .failed, e => SameError l e
  | .success none l, .success, e => SameError l e
  | .success (some f) l, .contents _ f' b, e => f = f' ∧ f.buffer.isSome = b.isSome ∧ SameError l e
  | _, _, _ => False

/-- The caller passes no error location, or one with NULL. -/
def NoErrorYet (e : ErrSlot) : Prop := e = none ∨ e = some none

/-- The same as a value. -/
def slotValue : ErrSlot → ErrLoc
  | none => none
  | some _ => some none

/-- `mlle_read_command` gets a command that is not ERROR. -/
def OtherAnswer (m : Nat → Bool) (c : Conn) (loc : ErrLoc) : Prop :=
  ∃ cmd l c', readCommand m c loc = .ok (.done cmd l, c') ∧ cmd.id ≠ .error

/-- Calls one after the other on a connection, with the caller releasing what it got after each of them. -/
inductive CallSession (m : Nat → Bool) (slot : ErrSlot) : Tool → Heap → List ToolCall → Tool → Heap → Prop where
  | nil {t : Tool} {h : Heap} : CallSession m slot t h [] t h
  | cons {t t1 t2 : Tool} {h h1 h2 : Heap} {s : Mem} {k : ToolCall} {ks : List ToolCall} {e : CallEnd}
      {r : ToolOut (Option FileContents)} :
      valueCall m t (slotValue slot) k = .ok (r, t1) → callHeap m t ⟨h, slot⟩ k = .ok (e, s, t1) → e ≠ .blocked →
      release e s = .ok h1 → CallSession m slot t1 h1 ks t2 h2 → CallSession m slot t h (k :: ks) t2 h2

end Semla.Spec
