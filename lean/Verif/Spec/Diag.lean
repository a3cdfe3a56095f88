import Verif.Spec.Lve
import Verif.Spec.Heap
import Verif.Spec.Tool

/-!
# What error messages say

Texts for messages that cannot be taken, stated on the words of the message, and error objects for answers that
a call of the tool interface cannot use.
-/

namespace Semla.Spec

open Semla

/-- What follows the name of the command in the documented form of a message. -/
def Shape.form : Shape → Bytes
  | .plain => []
  | .num => b!" <number>"
  | .len => b!" <length>"
  | .numLen => b!" <number> <length>"

/-- White space only. -/
def Blank (w : Bytes) : Prop := ∀ c ∈ w, c = 32 ∨ (9 ≤ c ∧ c ≤ 13)

/-- What there is to say about a message that is not a command. -/
inductive Complaint (msg : Bytes) : Bytes → Prop where
  | empty : header msg = [] → Complaint msg b!"No tokens in message."
  | unknown {w ws} : header msg = w :: ws → (∀ e ∈ commands, e.2.1 ≠ w) →
      Complaint msg (b!"Unknown command " ++ w ++ b!".")
  | few {c name sh ws} : (c, name, sh) ∈ commands → header msg = name :: ws → ws.length < sh.args →
      Complaint msg (b!"Too few arguments for command " ++ name ++ b!". Expected form is " ++ name ++ sh.form)
  | many {c name sh ws} : (c, name, sh) ∈ commands → header msg = name :: ws → ws.length > sh.args →
      Complaint msg (b!"Too many arguments for command " ++ name ++ b!". Expected form is " ++ name ++ sh.form)
  /-- `w` is the first argument that is not an integer -/
  | notInt {c name sh good w more} : (c, name, sh) ∈ commands → header msg = name :: (good ++ w :: more) →
      (good ++ w :: more).length = sh.args → (∀ v ∈ good, ∃ n, Denotes v n) → (¬ ∃ n, Denotes w n) → ¬ Blank w →
      Complaint msg (b!"Parse error. Argument " ++ w ++ b!" to command " ++ name ++ b!" is not an integer.")
  | negative {c name sh ws w} {n : Int} {ds : Bytes} : (c, name, sh) ∈ commands → sh = .len ∨ sh = .numLen →
      header msg = name :: ws → ws.length = sh.args → (∀ w ∈ ws, ∃ n, Denotes w n) → ws.getLast? = some w →
      Denotes w n → n < 0 → IsNumeral n.natAbs ds →
      Complaint msg (b!"Parse error. Length argument -" ++ ds ++ b!" to command " ++ name ++ b!" is negative.")

/-- The right number of arguments, and the first one that is not an integer is white space. -/
def BlankArgument (msg : Bytes) : Prop :=
  ∃ c name sh good w more, (c, name, sh) ∈ commands ∧ header msg = name :: (good ++ w :: more) ∧
    (good ++ w :: more).length = sh.args ∧ (∀ v ∈ good, ∃ n, Denotes v n) ∧ Blank w

/-- Commands that only the vendor executable sends. -/
def answerCommands : List CmdId := [.notSimple, .yes, .fileCont, .no, .toolList, .error]

/-- What a session waits for. -/
def awaited : LveState → Bytes
  | .version => b!"VERSION"
  | .tools => b!"is one of TOOLS, LIB"
  | .lib => b!"LIB"
  | .license => b!"is one of FEATURE, FILE, LICENSE, RETURNFEATURE, RETURNLICENSE"

/-- What there is to say about a command that comes at the wrong time. -/
inductive OutOfTurn (s : LveState) (c : CmdId) : Bytes → Prop where
  | never {name sh} : (c, name, sh) ∈ commands → c ∈ answerCommands →
      OutOfTurn s c (b!"Protocol error: Command " ++ name ++ b!" can't be sent to the library vendor executable.")
  | now {name sh} : (c, name, sh) ∈ commands → c ∉ answerCommands → ¬ Allowed s c →
      OutOfTurn s c (b!"Protocol error: Command " ++ name ++ b!" is not valid in this state, expected command " ++
        awaited s ++ b!".")

/-- Why a tool whose key is not trusted gets no files of a library at `root`: the code and the text.  What is wrong
with the path comes first. -/
inductive NoFiles (w : World) (root : Bytes) : Nat → Bytes → Prop where
  | missing : w.stat root = none → NoFiles w root 4 b!"Library path does not exist."
  | notDirectory : w.stat root = some false → NoFiles w root 4 b!"Library path is not a directory."
  | notTrusted : w.stat root = some true → NoFiles w root 5 b!"Not a valid tool"

/-- The license manager has no license for a library that needs one, for this reason. -/
def Unlicensed (conf : LveConf) (root why : Bytes) : Prop :=
  ∃ g, conf.globalFeature = some g ∧
    (conf.licenseManager [.new (some root)] = .failure (some why) ∨
     conf.licenseManager [.new (some root)] = .success ∧
       conf.licenseManager [.new (some root), .checkout g] = .failure (some why))

/-! ## Error objects of the tool -/

/-- Names of the commands that a call takes for an answer. -/
def takes : ToolCall → List Bytes
  | .version _ _ => [b!"VERSION"]
  | .libpath _ => [b!"YES"]
  | .feature _ => [b!"YES", b!"NO"]
  | .returnFeature _ => [b!"YES"]
  | .license _ => [b!"YES", b!"NOTSIMPLE", b!"NO"]
  | .returnLicense _ => [b!"YES"]
  | .file _ => [b!"FILECONT"]

/-- The string that a call passes on. -/
def callText : ToolCall → Bytes
  | .version _ _ => []
  | .libpath x => x
  | .feature x => x
  | .returnFeature x => x
  | .license x => x
  | .returnLicense x => x
  | .file x => x

/-- Names of OpenSSL error codes. -/
def sslNames : List (Nat × Bytes) :=
  [(1, b!"SSL_ERROR_SSL"), (2, b!"SSL_ERROR_WANT_READ"), (3, b!"SSL_ERROR_WANT_WRITE"), (5, b!"SSL_ERROR_SYSCALL")]

/-- Names separated by commas. -/
def listing : List Bytes → Bytes
  | [] => []
  | [a] => a
  | a :: b :: l => a ++ b!", " ++ listing (b :: l)

/-- Why a call fails that gets this answer: domain, code and text of the error object. -/
inductive Explains (k : ToolCall) (evs rest : List Ev) : Err → Prop where
  | connection {pre code queue why} : evs = pre ++ .fail code queue :: rest → (∀ e ∈ pre, Idle e) →
      queue.getLast? = some why →
      Explains k evs rest ⟨1, 1, some (cstr (((sslNames.lookup code).getD [] ++ b!". reason: " ++ why).take 4095))⟩
  | malformed {b text} : Delivers evs [b] rest → b.length ≤ 16400 → ¬ BlankArgument b.dropLast →
      Complaint b.dropLast text → Explains k evs rest ⟨1, 1, some (text.take 4095)⟩
  | error {n d} : Replies evs rest (.command .error n d) →
      Explains k evs rest ⟨2, 1, some ((b!"Got ERROR command with message: " ++ cstr d).take 2047)⟩
  | notThis {c name sh n d a} : Replies evs rest (.command c n d) → (c, name, sh) ∈ commands → c ≠ .error →
      takes k = [a] → name ≠ a →
      Explains k evs rest ⟨2, 1, some (b!"Unexpected command. Expected command " ++ a ++ b!", but got command " ++
        name ++ b!".")⟩
  | noneOf {c name sh n d} : Replies evs rest (.command c n d) → (c, name, sh) ∈ commands → c ≠ .error →
      1 < (takes k).length → name ∉ takes k →
      Explains k evs rest ⟨2, 1, some (b!"Unexpected command " ++ name ++
        b!". Expected one of the following commands: " ++ listing (takes k))⟩
  | tooLow {lo hi n d} : k = .version lo hi → Replies evs rest (.command .version n d) → n < lo →
      Explains k evs rest ⟨2, 1, some b!"Protocol version from LVE too low."⟩
  | tooHigh {lo hi n d} : k = .version lo hi → Replies evs rest (.command .version n d) → lo ≤ n → hi < n →
      Explains k evs rest ⟨2, 1, some b!"Protocol version from LVE too high."⟩
  | notSimple {x n d} : k = .license x → Replies evs rest (.command .notSimple n d) →
      Explains k evs rest ⟨2, 4, some
        b!"Library vendor executable doesn't use simplified licensing, use command FEATURE instead."⟩
  | refused {x n d} : k = .license x ∨ k = .feature x → Replies evs rest (.command .no n d) →
      Explains k evs rest ⟨2, 3, some ((cstr d).take 2047)⟩

/-- Failures that no text is given for: the connection breaks and OpenSSL has no reason for it, an answer is longer
than a record may be, or an argument in the answer is white space. -/
def Unexplained (evs rest : List Ev) : Prop :=
  (∃ pre code, evs = pre ++ .fail code [] :: rest ∧ ∀ e ∈ pre, Idle e) ∨
  ∃ b, Delivers evs [b] rest ∧ (16400 < b.length ∨ BlankArgument b.dropLast)

end Semla.Spec
