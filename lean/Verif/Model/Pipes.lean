import Verif.Model.Tool
import Verif.Model.Lve

/-!
# Tool and vendor executable as two processes

The two programs run at the same time and talk over two pipes, one in each direction
(`src/tool/mlle_spawn_posix.c:61-70`, `src/tool/mlle_spawn_windows.c:66-75`), on which `SSL_read` and `SSL_write`
block: a pipe holds only so much, a write waits for room, and a read waits until a whole TLS record is there.
Here the models of the two programs (`src/tool/mlle_licensing.c`, `src/lve/mlle_lve.c`) are run side by side on
such pipes, byte by byte and in any order.

Simplifications: the TLS handshake is over; neither side closes the connection; a write of several bytes to
a pipe is a sequence of writes of one byte (so that writes of up to `PIPE_BUF` bytes are not all-or-nothing
here); reads and writes do not fail.
-/

namespace Semla

/-! ## A program that uses the tool's interface -/

/-- A call of the functions of `src/tool/mlle_licensing.h`, with an empty place for the error object. -/
inductive Call where
  | version (minV maxV : Int)
  | libpath (path : Bytes)
  | feature (name : Bytes)
  | returnFeature (name : Bytes)
  | license (package : Bytes)
  | returnLicense (package : Bytes)
  | file (path : Bytes)
  deriving DecidableEq, Repr

/-- What a call gives. -/
abbrev CallOut := ToolOut (Option FileContents)

/-- The same for a call that gives no file. -/
def ToolOut.plain : ToolOut Unit → CallOut
  | .blocked => .blocked
  | .failed loc => .failed loc
  | .success () loc => .success none loc

/-- The same for a call that gives a file. -/
def ToolOut.withFile : ToolOut FileContents → CallOut
  | .blocked => .blocked
  | .failed loc => .failed loc
  | .success f loc => .success (some f) loc

/-- The call is made, mlle_licensing.c:207-422. -/
def Call.run (c : Call) (t : Tool) : Res (CallOut × Tool) :=
  match c with
  | .version minV maxV => do
    let (r, t) ← toolVersion (fun _ => true) t minV maxV (some none)
    .ok (r.plain, t)
  | .libpath s => do
    let (r, t) ← toolLibpath (fun _ => true) t s (some none)
    .ok (r.plain, t)
  | .feature s => do
    let (r, t) ← toolFeature (fun _ => true) t s (some none)
    .ok (r.plain, t)
  | .returnFeature s => do
    let (r, t) ← toolReturnFeature (fun _ => true) t s (some none)
    .ok (r.plain, t)
  | .license s => do
    let (r, t) ← toolLicense (fun _ => true) t s (some none)
    .ok (r.plain, t)
  | .returnLicense s => do
    let (r, t) ← toolReturnLicense (fun _ => true) t s (some none)
    .ok (r.plain, t)
  | .file s => do
    let (r, t) ← toolFile (fun _ => true) t s (some none)
    .ok (r.withFile, t)

/-- A program that makes calls one after the other; what it does next may depend on what it got. -/
inductive Client where
  | stop
  | call (c : Call) (next : CallOut → Client)

/-- The program runs: the results of the calls that returned, whether it came to its end, and the connection
afterwards. -/
def Client.run : Client → Tool → Res (List CallOut × Bool × Tool)
  | .stop, t => .ok ([], true, t)
  | .call c next, t => do
    let (r, t) ← c.run t
    if r = .blocked then .ok ([], false, t)
    else do
      let (rs, ended, t) ← (next r).run t
      .ok (r :: rs, ended, t)

/-! ## Programs as functions of what they have received -/

/-- What a program does up to the point where it needs more: given the records it has received so far, the
messages it has written so far and whether it has ended. -/
abbrev Program := List Bytes → List Bytes × Bool

/-- The records, as `SSL_read` hands them out. -/
def recordEvs (recs : List Bytes) : List Ev := recs.map fun b => .record b []

/-- The connection of a tool that has received these records; every write goes through. -/
def toolOn (recs : List Bytes) : Tool :=
  ⟨⟨[], [], recordEvs recs⟩, List.replicate (recs.length + 1) .written, []⟩

/-- The program that uses the tool's interface. -/
def toolProgram (cl : Client) : Program := fun recs =>
  match cl.run (toolOn recs) with
  | .ok (_, ended, t) => (t.wire, ended)
  | .ub _ => ([], true)

/-- The vendor executable: message `i` is handled in `worlds i`. -/
def lveProgram (conf : LveConf) (st0 : LveSt) (worlds : Nat → World) : Program := fun recs =>
  match lveReceive conf st0 ((List.range (recs.length + 1)).map fun i => (worlds i, false))
    ⟨[], [], recordEvs recs⟩ with
  | .ok (_, outs) => (outs.flatten, false)
  | .ub _ => ([], true)

/-! ## Pipes -/

/-- Largest plaintext of a TLS record, `SSL3_RT_MAX_PLAIN_LENGTH`. -/
def maxPlain : Nat := 16384

/-- One `SSL_write`: the message is cut into records. -/
def cutFuel : Nat → Bytes → List Bytes
  | 0, _ => []
  | fuel + 1, b => if b = [] then [] else b.take maxPlain :: cutFuel fuel (b.drop maxPlain)

def cutRecords (b : Bytes) : List Bytes := cutFuel b.length b

/-- A byte on a pipe.  Nothing can be made of a record before its last byte, which is the one that carries
the plaintext here. -/
abbrev WireByte := Option Bytes

/-- A record of `size b` bytes and one more. -/
def wireRecord (size : Bytes → Nat) (b : Bytes) : List WireByte :=
  List.replicate (size b) none ++ [some b]

/-- The bytes of a message. -/
def wireMessage (size : Bytes → Nat) (m : Bytes) : List WireByte :=
  (cutRecords m).flatMap (wireRecord size)

/-- A process: the records it has received and the bytes it still has to write before it reads again. -/
structure Side where
  taken : List Bytes
  pending : List WireByte

/-- Both processes and both pipes. -/
structure Net where
  tool : Side
  lve : Side
  /-- from the tool to the vendor executable -/
  up : List WireByte
  /-- from the vendor executable to the tool -/
  down : List WireByte

/-- A process at the start. -/
def Side.start (size : Bytes → Nat) (p : Program) : Side := ⟨[], (p []).1.flatMap (wireMessage size)⟩

/-- A byte is read.  With the last byte of a record the process goes on, up to the next read for which there is
nothing. -/
def Side.take (size : Bytes → Nat) (p : Program) (s : Side) : WireByte → Side
  | none => s
  | some b => ⟨s.taken ++ [b],
      ((p (s.taken ++ [b])).1.drop (p s.taken).1.length).flatMap (wireMessage size)⟩

def Net.start (size : Bytes → Nat) (tool lve : Program) : Net :=
  ⟨.start size tool, .start size lve, [], []⟩

/-- What may happen next, if the pipes hold `cap` bytes each. -/
inductive Step (size : Bytes → Nat) (cap : Nat) (tool lve : Program) : Net → Net → Prop where
  | toolWrites {taken x more l up down} : up.length < cap →
      Step size cap tool lve ⟨⟨taken, x :: more⟩, l, up, down⟩ ⟨⟨taken, more⟩, l, up ++ [x], down⟩
  | toolReads {taken l up x down} : (tool taken).2 = false →
      Step size cap tool lve ⟨⟨taken, []⟩, l, up, x :: down⟩
        ⟨Side.take size tool ⟨taken, []⟩ x, l, up, down⟩
  | lveWrites {t taken x more up down} : down.length < cap →
      Step size cap tool lve ⟨t, ⟨taken, x :: more⟩, up, down⟩ ⟨t, ⟨taken, more⟩, up, down ++ [x]⟩
  | lveReads {t taken x up down} : (lve taken).2 = false →
      Step size cap tool lve ⟨t, ⟨taken, []⟩, x :: up, down⟩
        ⟨t, Side.take size lve ⟨taken, []⟩ x, up, down⟩

/-- `n` things happen, one after the other. -/
inductive Steps (size : Bytes → Nat) (cap : Nat) (tool lve : Program) : Nat → Net → Net → Prop where
  | nil (s) : Steps size cap tool lve 0 s s
  | snoc {n s t u} : Steps size cap tool lve n s t → Step size cap tool lve t u →
      Steps size cap tool lve (n + 1) s u

end Semla
