import Verif.Basic

/-!
# Message forms and commands

Models `src/common/mlle_protocol.h` and `src/common/mlle_protocol.c`.
-/

namespace Semla

/-- `enum mlle_protocol_msg_form`, mlle_protocol.h:34-43. -/
inductive Form where
  | undefined | simple | number | length | numberAndLength
  deriving DecidableEq, Repr

/-- `enum mlle_protocol_command_id`, mlle_protocol.h:45-64, in the same order. -/
inductive CmdId where
  | undefined | notSimple | tools | yes | version | feature | file | fileCont | lib | license
  | no | returnFeature | returnLicense | toolList | error
  deriving DecidableEq, Repr

/-- The order of the enum (0 to 14); loops over command ids in C follow this list. -/
def CmdId.all : List CmdId :=
  [.undefined, .notSimple, .tools, .yes, .version, .feature, .file, .fileCont, .lib, .license,
   .no, .returnFeature, .returnLicense, .toolList, .error]

/-- The ids from `MLLE_PROTOCOL_UNDEFINED_CMD + 1` on. -/
def CmdId.defined : List CmdId := CmdId.all.tail

/-- `mlle_command_info[id].msg_form`, mlle_protocol.c:29-54. -/
def CmdId.form : CmdId → Form
  | .undefined => .undefined
  | .notSimple => .simple
  | .tools => .simple
  | .yes => .simple
  | .version => .number
  | .feature => .length
  | .file => .length
  | .fileCont => .length
  | .lib => .length
  | .license => .length
  | .no => .length
  | .returnFeature => .length
  | .returnLicense => .length
  | .toolList => .length
  | .error => .numberAndLength

/-- `mlle_command_info[id].name`, mlle_protocol.c:29-54. -/
def CmdId.name : CmdId → Bytes
  | .undefined => b!"[unknown_command]"
  | .notSimple => b!"NOTSIMPLE"
  | .tools => b!"TOOLS"
  | .yes => b!"YES"
  | .version => b!"VERSION"
  | .feature => b!"FEATURE"
  | .file => b!"FILE"
  | .fileCont => b!"FILECONT"
  | .lib => b!"LIB"
  | .license => b!"LICENSE"
  | .no => b!"NO"
  | .returnFeature => b!"RETURNFEATURE"
  | .returnLicense => b!"RETURNLICENSE"
  | .toolList => b!"TOOLLIST"
  | .error => b!"ERROR"

/-- `mlle_nbr_tokens_for_form`, mlle_protocol.c:24-26. -/
def Form.nbrTokens : Form → Nat
  | .undefined => 0
  | .simple => 1
  | .number => 2
  | .length => 2
  | .numberAndLength => 3

/-- `MLLE_PROTOCOL_MAX_TOKENS_PER_MSG`, mlle_protocol.h:30. -/
def maxTokens : Nat := 3

/-- `(size_t) MLLE_PROTOCOL_TOO_MANY_TOKENS`, i.e. `(size_t) -1`, mlle_protocol.h:31. -/
def tooManyTokens : Nat := sizeMod - 1

/-- `MLLE_PROTOCOL_MAX_CMD_LENGTH`, mlle_protocol.h:32. -/
def maxCmdLength : Nat := 17

/-- `enum mlle_protocol_error_id`, mlle_protocol.h:66-80, as the numbers sent on the wire. -/
def errUndefined : Int := 0
def errCommandNotUnderstood : Int := 1
def errVersionTooLow : Int := 2
def errLveNotLicensing : Int := 3
def errFileNotFound : Int := 4
def errToolNotAllowed : Int := 5
def errFileIo : Int := 6
def errLicense : Int := 7
def errOther : Int := 8
def errSsl : Int := 9

/-- A `char *` data buffer of a command.  The object has `cells.length` bytes; `none` is a byte
that was never written (`malloc` does not initialise). -/
structure Buf where
  cells : List (Option UInt8)
  deriving DecidableEq, Repr

/-- The buffer holding exactly these bytes. -/
def Buf.ofBytes (b : Bytes) : Buf := ⟨b.map some⟩

/-- `struct mlle_command`, mlle_protocol.h:88-93.  `data = none` is the null pointer. -/
structure Command where
  id : CmdId
  number : Int
  length : Nat
  data : Option Buf
  deriving DecidableEq, Repr

/-- `struct mlle_command c = { 0 }`. -/
def Command.zero : Command := ⟨.undefined, 0, 0, none⟩

/-- Read the first `n` bytes of a buffer: undefined if the object is shorter or one of the
bytes was never written. -/
def readCells : List (Option UInt8) → Nat → Res Bytes
  | _, 0 => .ok []
  | [], _ + 1 => .ub .oobRead
  | none :: _, _ + 1 => .ub .uninit
  | some b :: cs, n + 1 => do let r ← readCells cs n; .ok (b :: r)

/-- Read a C string: undefined if no NUL is found inside the object or if a byte that was
never written is reached first. -/
def readCStr : List (Option UInt8) → Res Bytes
  | [] => .ub .oobRead
  | none :: _ => .ub .uninit
  | some b :: cs => if b = 0 then .ok [] else do let r ← readCStr cs; .ok (b :: r)

end Semla
