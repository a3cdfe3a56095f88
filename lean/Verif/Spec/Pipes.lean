import Verif.Model.Pipes
import Verif.Spec.Lve

/-!
# Specification vocabulary for the two processes
-/

namespace Semla.Spec

open Semla

/-- Nothing more can happen. -/
def Still (size : Bytes → Nat) (cap : Nat) (tool lve : Program) (s : Net) : Prop :=
  ∀ s', ¬ Step size cap tool lve s s'

/-- However the two processes are scheduled, there is an end to it, and at the end `P` holds of the records
that the tool has received and of those that the vendor executable has received. -/
def EndsWith (size : Bytes → Nat) (cap : Nat) (tool lve : Program) (P : List Bytes → List Bytes → Prop) : Prop :=
  ∃ bound, ∀ n s, Steps size cap tool lve n (.start size tool lve) s →
    n ≤ bound ∧ (Still size cap tool lve s → P s.tool.taken s.lve.taken)

/-- The argument that a call passes on, with the command that carries it. -/
def Argument : Call → Option (CmdId × Bytes)
  | .version _ _ => none
  | .libpath s => some (.lib, s)
  | .feature s => some (.feature, s)
  | .returnFeature s => some (.returnFeature, s)
  | .license s => some (.license, s)
  | .returnLicense s => some (.returnLicense, s)
  | .file s => some (.file, s)

/-- The arguments of a call are C strings of at most 16000 bytes that satisfy `A`; versions are `int`s. -/
def Proper (A : CmdId → Bytes → Prop) (c : Call) : Prop :=
  (∀ a b, c = .version a b → -2 ^ 31 ≤ b ∧ b < 2 ^ 31) ∧
  ∀ k s, Argument c = some (k, s) → (0 : UInt8) ∉ s ∧ s.length ≤ 16000 ∧ A k s

/-- All calls that a program may make are proper. -/
inductive ProperClient (A : CmdId → Bytes → Prop) : Client → Prop where
  | stop : ProperClient A .stop
  | call {c next} : Proper A c → (∀ r, ProperClient A (next r)) → ProperClient A (.call c next)

/-- The messages are handled one after the other, message `i` in `worlds i`. -/
def turnsOf (worlds : Nat → World) (msgs : List Bytes) : List (World × Bytes) :=
  msgs.zipIdx.map fun m => (worlds m.2, m.1)

/-- A message that a proper call sends: a version, or a command with its argument. -/
def Sent (A : CmdId → Bytes → Prop) (m : Bytes) : Prop :=
  (∃ n, Accepts m .version n 0) ∨ ∃ k s, k ∈ CmdId.lib :: licenseStage ∧ Carries m k s ∧ A k s

/-- The vendor executable survives all sessions of such messages and sends no reply that carries 2^63 bytes or
more. -/
def Survives (conf : LveConf) (k : Option Bytes) (worlds : Nat → World) (A : CmdId → Bytes → Prop) : Prop :=
  ∀ msgs : List Bytes, (∀ m ∈ msgs, Sent A m) →
    ∃ st replies, Session conf k (turnsOf worlds msgs) st replies ∧
      ∀ out ∈ replies, ∀ r ∈ out, (Payload r).length < 2 ^ 63

/-- The program runs to its end against the vendor executable, in the same way however small the pipes are, however
the records are encoded and however the processes are scheduled: all calls return, each sends one message, and each
receives one reply as a whole.  The vendor executable has received the messages and handled them in order. -/
def Completes (conf : LveConf) (k : Option Bytes) (worlds : Nat → World) (cl : Client) : Prop :=
  ∃ (st0 st : LveSt) (msgs replies : List Bytes) (results : List CallOut) (t : Tool), lveStart conf k = .ok st0 ∧
    Session conf k (turnsOf worlds msgs) st (replies.map fun r => [r]) ∧
    cl.run (toolOn (replies.flatMap cutRecords)) = .ok (results, true, t) ∧ t.wire = msgs ∧
    results.length = msgs.length ∧ replies.length = msgs.length ∧
    ∀ size cap, 0 < cap → EndsWith size cap (toolProgram cl) (lveProgram conf st0 worlds)
      fun a b => a = replies.flatMap cutRecords ∧ b = msgs

end Semla.Spec
