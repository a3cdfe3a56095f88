import Verif.Model.Lve
import Verif.Spec.Wire

/-!
# Specification vocabulary for sessions with the vendor executable

Replies as the documentation (`doc/SEMLA.md`, protocol section) writes them, which commands are allowed
when, and what a legal sequence of commands looks like.
-/

namespace Semla.Spec

open Semla

/-! ## Replies -/

/-- `ERROR <code> <length>` with this text. -/
def ErrorReply (code : Nat) (text r : Bytes) : Prop :=
  ∃ ns ds, IsNumeral code ns ∧ IsNumeral text.length ds ∧ r = line3 b!"ERROR" ns ds ++ text

/-- `<name> <length>` with this data. -/
def DataReply (name data r : Bytes) : Prop :=
  ∃ ds, IsNumeral data.length ds ∧ r = line2 name ds ++ data

/-- A message of the given kind: its first bytes are the command name and a space or a newline. -/
def OfKind (name r : Bytes) : Prop := (name ++ b!" ") <+: r ∨ (name ++ b!"\n") <+: r

/-! ## Sessions -/

/-- All allocations succeed. -/
def Ample (w : World) : Prop := ∀ n, w.malloc n = true

/-- A session: the tool presented `toolKey` and sent the messages `turns`, each one handled in its
world, without the executable misbehaving. -/
def Session (conf : LveConf) (toolKey : Option Bytes) (turns : List (World × Bytes)) (st : LveSt)
    (replies : List (List Bytes)) : Prop :=
  ∃ st0, lveStart conf toolKey = .ok st0 ∧ lveRun conf st0 turns = .ok (st, replies)

/-- Commands of the license stage. -/
def licenseStage : List CmdId := [.feature, .returnFeature, .license, .returnLicense, .file]

/-- Which commands are accepted in which state. -/
inductive Allowed : LveState → CmdId → Prop where
  | version : Allowed .version .version
  | tools : Allowed .tools .tools
  | lib1 : Allowed .tools .lib
  | lib2 : Allowed .lib .lib
  | stage {c} : c ∈ licenseStage → Allowed .license c

/-- The message is malformed, or a command that is not allowed in this state. -/
def Refusable (s : LveState) (msg : Bytes) : Prop :=
  (∃ g, Rejected msg g) ∨ ∃ c n len, Accepts msg c n len ∧ ¬ Allowed s c

/-- A complete legal sequence of commands (with the number they carry): versions that are too low, an
acceptable version, possibly TOOLS, LIB, then commands of the license stage. -/
def FullOrder (cs : List (CmdId × Int)) : Prop :=
  ∃ lows v tools l rest, cs = lows ++ v :: tools ++ l :: rest ∧
    (∀ x ∈ lows, x.1 = .version ∧ x.2 < 1) ∧ (v.1 = .version ∧ 1 ≤ v.2) ∧
    (tools = [] ∨ ∃ n, tools = [(.tools, n)]) ∧ l.1 = .lib ∧ ∀ x ∈ rest, x.1 ∈ licenseStage

/-- The beginning of a legal sequence. -/
def LegalOrder (cs : List (CmdId × Int)) : Prop := ∃ more, FullOrder (cs ++ more)

/-- Which of the messages sent in a session were handled rather than refused, going by the replies
alone: a message is refused if the reply is `ERROR 1`. -/
inductive Handled : List (World × Bytes) → List (List Bytes) → List (CmdId × Int) → Prop where
  | nil : Handled [] [] []
  | refused {w msg r text turns replies cs} : ErrorReply 1 text r → Handled turns replies cs →
      Handled ((w, msg) :: turns) ([r] :: replies) cs
  | handled {w msg out c n len turns replies cs} : (∀ r ∈ out, ∀ text, ¬ ErrorReply 1 text r) →
      Accepts msg c n len → Handled turns replies cs →
      Handled ((w, msg) :: turns) (out :: replies) ((c, n) :: cs)

/-- The message is a well-formed command `c` whose data part, after the first line, is `data`
(one more byte is tolerated). -/
def Carries (msg : Bytes) (c : CmdId) (data : Bytes) : Prop :=
  ∃ line part n, (∀ b ∈ line, b ≠ 0 ∧ b ≠ 10) ∧ msg = line ++ b!"\n" ++ part ∧
    Accepts msg c n data.length ∧ part.take data.length = data ∧ part.length ≤ data.length + 1

/-- What follows the first line of a message. -/
def Payload (msg : Bytes) : Bytes := (msg.dropWhile (· ≠ 10)).drop 1

/-- The session is as before except for the text in the scratch buffer for error messages. -/
def SameSession (st st' : LveSt) : Prop := { st' with errMsg := st.errMsg } = st

/-! ## Answers

What `doc/SEMLA.md` gives as the answer to each command (sections "Handshake" to "List of supported
tools"), and after which commands which error code may come (section "Error handling"). -/

/-- The answers to a command if no error occurs.  (For a version that is too low "Handshake" has `NO` with a
reason and "Error handling" an ERROR 2; here it is the error.) -/
inductive Answer : CmdId → Bytes → Prop where
  | version {v : Nat} {ds : Bytes} : IsNumeral v ds → Answer .version (line2 b!"VERSION" ds)
  | tools {list r} : DataReply b!"TOOLLIST" list r → Answer .tools r
  | lib : Answer .lib b!"YES\n"
  | feature : Answer .feature b!"YES\n"
  | noFeature {reason r} : DataReply b!"NO" reason r → Answer .feature r
  | returnFeature : Answer .returnFeature b!"YES\n"
  | license : Answer .license b!"YES\n"
  | noLicense {reason r} : DataReply b!"NO" reason r → Answer .license r
  | notSimple : Answer .license b!"NOTSIMPLE\n"
  | returnLicense : Answer .returnLicense b!"YES\n"
  | file {content r} : DataReply b!"FILECONT" content r → Answer .file r

/-- The error codes that may come after a command. -/
inductive ErrorAfter : CmdId → Nat → Prop where
  | notUnderstood {c} : ErrorAfter c 1
  | versionTooLow : ErrorAfter .version 2
  | noLicensing {c} : c = .feature ∨ c = .license → ErrorAfter c 3
  | notFound {c} : c = .file ∨ c = .lib → ErrorAfter c 4
  | notAllowed : ErrorAfter .file 5
  | io {c} : ErrorAfter c 6
  | licenseError {c} : ErrorAfter c 7
  | other {c} : ErrorAfter c 8

/-! ## Files -/

/-- The file name has extension `.moc` in any letter case. -/
def IsMoc (p : Bytes) : Prop := ∃ base ext, p = base ++ b!"." ++ ext ∧ ext.length = 3 ∧
  (ext[0]? = some 109 ∨ ext[0]? = some 77) ∧ (ext[1]? = some 111 ∨ ext[1]? = some 79) ∧
  (ext[2]? = some 99 ∨ ext[2]? = some 67)

/-- Reading the file at `path` delivers `content`: as many bytes as its size says, or all there are. -/
def Holds (w : World) (path content : Bytes) : Prop :=
  ∃ size bytes io, w.files path = .stream size bytes io ∧ content = bytes.take size ∧
    (io = none ∨ size ≤ bytes.length)

/-- The file at `path` cannot be read: it cannot be opened, its size cannot be found out, or an error
occurs before all of it has been read. -/
def Unreadable (w : World) (path : Bytes) : Prop :=
  ∃ why, w.files path = .noOpen why ∨ w.files path = .noStat why ∨ w.files path = .refused why ∨
    ∃ size bytes, w.files path = .stream size bytes (some why) ∧ bytes.length < size

/-- What there is to say about it: the path and the reason the system gives; on Windows (`refused`), the text of `readFileWin`. -/
inductive ReadTrouble (w : World) (path : Bytes) : Bytes → Prop where
  | noOpen {why} : w.files path = .noOpen why →
      ReadTrouble w path (b!"Couldn't open file " ++ path ++ b!". The error message was: " ++ why)
  | noSize {why} : w.files path = .noStat why →
      ReadTrouble w path (b!"Couldn't find file size for " ++ path ++ b!". The error message was: " ++ why)
  | refused {msg} : w.files path = .refused msg → ReadTrouble w path msg
  | noRead {size bytes why} : w.files path = .stream size bytes (some why) → bytes.length < size →
      ReadTrouble w path (b!"I/O error while reading file " ++ path ++ b!". The error message was: " ++ why)

/-- The encrypted files `outs` are found below `root`. -/
def Serves (w : World) (root : Bytes) (outs : List (Bytes × Bytes)) : Prop :=
  ∀ o ∈ outs, Holds w (root ++ b!"/" ++ o.1) o.2

/-! ## Paths

What a path means to the operating system if no symbolic links are involved. -/

/-- The parts between the slashes. -/
def components : Bytes → List Bytes
  | [] => [[]]
  | c :: cs =>
    if c = 47 then [] :: components cs
    else (c :: (components cs).headD []) :: (components cs).tail

/-- Walking the parts of a path, the directories entered so far given innermost first. -/
def walk : List Bytes → List Bytes → List Bytes
  | here, [] => here
  | here, c :: cs =>
    if c = [] ∨ c = b!"." then walk here cs
    else if c = b!".." then walk here.tail cs
    else walk (c :: here) cs

/-- A slash or a backslash. -/
def IsSep (b : UInt8) : Prop := b = 47 ∨ b = 92

/-- `root` is `data` without its trailing separators, but never empty. -/
def IsRootOf (data root : Bytes) : Prop :=
  ∃ seps, data = root ++ seps ∧ (∀ b ∈ seps, IsSep b) ∧ root ≠ [] ∧
    (root.length = 1 ∨ ∀ b ∈ root.getLast?, ¬ IsSep b)

/-- `path` denotes something in or below `root`. -/
def Inside (root path : Bytes) : Prop := ∃ below, walk [] (components path) = below ++ walk [] (components root)

end Semla.Spec
