import Verif.Model.ReadCommand
import Verif.Model.Send

/-!
# Licensing calls of the tool

Models `src/tool/mlle_licensing.c:101-472`: the functions a Modelica tool calls once it is connected
to the vendor executable.  Not modelled: setting up the connection (lines 1-98) and releasing it.
-/

namespace Semla

/-- The tool's end of a connection: what arrives, how writes go, and the messages put on the wire so
far. -/
structure Tool where
  inn : Conn
  wevs : List WEv
  wire : List Bytes
  deriving DecidableEq, Repr

/-- What a tool call does. -/
inductive ToolOut (α : Type) where
  /-- does not return -/
  | blocked
  /-- returns 0 or NULL -/
  | failed (loc : ErrLoc)
  /-- returns 1 or a result -/
  | success (a : α) (loc : ErrLoc)
  deriving DecidableEq, Repr

/-- `MLLE_ERROR_DOMAIN_TOOL` and the codes `MLLE_TOOL_ERROR_NO_LICENSE` and
`MLLE_TOOL_ERROR_NOT_SIMPLIFIED`, mlle_licensing.h:30, 42-48. -/
def domainTool : Int := 2
def codeNoLicense : Int := 3
def codeNotSimplified : Int := 4

/-- A call of `ssl_write_message` on the tool's connection; `none` when it does not return. -/
def Tool.write (t : Tool) (msg : Bytes) : Option Int × Tool :=
  match sslWriteMessage msg t.wevs with
  | (none, r) => (none, { t with wevs := r })
  | (some (n, b), r) => (some n, { t with wevs := r, wire := if b = [] then t.wire else t.wire ++ [b] })

/-- `mlle_send_string` on the tool's connection; the result of the write is ignored
(mlle_io.c:230-232).  False when the write does not return. -/
def Tool.sendString (mallocOk : Nat → Bool) (t : Tool) (c : CmdId) (s : Bytes) : Res (Bool × Tool) := do
  match ← Semla.sendString mallocOk c s with
  | none => .ok (true, t)
  | some m =>
    match t.write m with
    | (none, t) => .ok (false, t)
    | (some _, t) => .ok (true, t)

/-- `mlle_error_set(error, domain, code, prefix "%s", command->data)`: the data is only looked at when
there is an error location and it is empty. -/
def errorSetData (mallocOk : Nat → Bool) (loc : ErrLoc) (domain code : Int) (pre : Bytes)
    (data : Option Buf) : Res ErrLoc :=
  match loc, data with
  | some none, none => .ub .nullDeref
  | some none, some buf => do
    let text ← readCStr buf.cells
    errorSet mallocOk loc domain code (pre ++ text)
  | _, _ => errorSet mallocOk loc domain code pre

/-- `mlle_expect_command`, mlle_licensing.c:101-133. -/
def expectCommand (mallocOk : Nat → Bool) (t : Tool) (expected : CmdId) (loc : ErrLoc) :
    Res (ToolOut Command × Tool) := do
  let (r, c) ← readCommand mallocOk t.inn loc
  let t := { t with inn := c }
  match r with
  | .blocked => .ok (.blocked, t)
  | .fail loc => .ok (.failed loc, t)
  | .done cmd loc =>
    if cmd.id = .error then do
      let loc ← errorSetData mallocOk loc domainTool 1 b!"Got ERROR command with message: " cmd.data
      .ok (.failed loc, t)
    else if cmd.id ≠ expected then do
      let loc ← errorSet mallocOk loc domainTool 1
        (b!"Unexpected command. Expected command " ++ expected.name ++ b!", but got command "
          ++ cmd.id.name ++ b!".")
      .ok (.failed loc, t)
    else .ok (.success cmd loc, t)

/-- `snprintf(&buf[off], limit, ...)` into an object of `size` bytes whose text so far is `old`: the
limit passed is not reduced by the offset (mlle_licensing.c:178), so the write must be shown to fit.  What is written behind the end of the text is not part of it. -/
def snprintfOff (size off limit : Nat) (old s : Bytes) : Res Bytes :=
  if limit = 0 then .ok old
  else if off + (min s.length (limit - 1) + 1) ≤ size then
    .ok (if off ≤ old.length then old.take off ++ s.take (limit - 1) else old)
  else .ub .oobWrite

/-- The loop of mlle_licensing.c:177-180; `written` is the sum of the lengths `snprintf` reports. -/
def expectedLoop (size : Nat) : List CmdId → Nat → Bytes → Res Bytes
  | [], _, text => .ok text
  | c :: cs, written, text => do
    let text ← snprintfOff size written size text (b!", " ++ c.name)
    expectedLoop size cs (written + (b!", " ++ c.name).length) text

/-- Size of the buffer, mlle_licensing.c:168. -/
def expectedSize (n : Nat) : Nat := 100 + (maxCmdLength + 2) * (n + 1)

/-- The text about unexpected commands, mlle_licensing.c:172-181; `first` and `more` are the expected
commands. -/
def expectedText (got first : CmdId) (more : List CmdId) : Res Bytes := do
  let size := expectedSize (more.length + 1)
  let head := b!"Unexpected command " ++ got.name ++
    b!". Expected one of the following commands: " ++ first.name
  let text ← snprintfOff size 0 size [] head
  expectedLoop size more head.length text

/-- `mlle_expect_commands`, mlle_licensing.c:135-190, for a non-empty list of expected commands. -/
def expectCommands (mallocOk : Nat → Bool) (t : Tool) (first : CmdId) (more : List CmdId)
    (loc : ErrLoc) : Res (ToolOut Command × Tool) := do
  let (r, c) ← readCommand mallocOk t.inn loc
  let t := { t with inn := c }
  match r with
  | .blocked => .ok (.blocked, t)
  | .fail loc => .ok (.failed loc, t)
  | .done cmd loc =>
    if cmd.id = .error then do
      let loc ← errorSetData mallocOk loc domainTool 1 b!"Got ERROR command with message: " cmd.data
      .ok (.failed loc, t)
    else if cmd.id ∈ first :: more then .ok (.success cmd loc, t)
    else if mallocOk (expectedSize (more.length + 1)) then do
      let text ← expectedText cmd.id first more
      let loc ← errorSetLiteral mallocOk loc domainTool 1 (some text)
      .ok (.failed loc, t)
    else do
      let loc ← errorSetLiteral mallocOk loc domainTool 1 none
      .ok (.failed loc, t)

/-- `mlle_tool_version`, mlle_licensing.c:207-237.  `minV` and `maxV` are `int`s. -/
def toolVersion (mallocOk : Nat → Bool) (t : Tool) (minV maxV : Int) (loc : ErrLoc) :
    Res (ToolOut Unit × Tool) :=
  match t.write (sendNumber .version maxV) with
  | (none, t) => .ok (.blocked, t)
  | (some n, t) =>
    if n < 0 then .ok (.failed loc, t)
    else do
      match ← expectCommand mallocOk t .version loc with
      | (.blocked, t) => .ok (.blocked, t)
      | (.failed loc, t) => .ok (.failed loc, t)
      | (.success cmd loc, t) =>
        if cmd.number < minV then do
          let loc ← errorSet mallocOk loc domainTool 1 b!"Protocol version from LVE too low."
          .ok (.failed loc, t)
        else if cmd.number > maxV then do
          let loc ← errorSet mallocOk loc domainTool 1 b!"Protocol version from LVE too high."
          .ok (.failed loc, t)
        else .ok (.success () loc, t)

/-- Sending a string and expecting YES: `mlle_tool_libpath`, `mlle_tool_returnfeature` and
`mlle_tool_returnlicense`, mlle_licensing.c:254-268, 319-336, 376-393, which differ in the command. -/
def sendExpectYes (mallocOk : Nat → Bool) (t : Tool) (c : CmdId) (arg : Bytes) (loc : ErrLoc) :
    Res (ToolOut Unit × Tool) := do
  match ← t.sendString mallocOk c arg with
  | (false, t) => .ok (.blocked, t)
  | (true, t) =>
    match ← expectCommand mallocOk t .yes loc with
    | (.blocked, t) => .ok (.blocked, t)
    | (.failed loc, t) => .ok (.failed loc, t)
    | (.success _ loc, t) => .ok (.success () loc, t)

/-- `mlle_tool_libpath`, mlle_licensing.c:254-268. -/
def toolLibpath (mallocOk : Nat → Bool) (t : Tool) (path : Bytes) (loc : ErrLoc) :
    Res (ToolOut Unit × Tool) := sendExpectYes mallocOk t .lib path loc

/-- `mlle_tool_returnfeature`, mlle_licensing.c:319-336. -/
def toolReturnFeature (mallocOk : Nat → Bool) (t : Tool) (feature : Bytes) (loc : ErrLoc) :
    Res (ToolOut Unit × Tool) := sendExpectYes mallocOk t .returnFeature feature loc

/-- `mlle_tool_returnlicense`, mlle_licensing.c:376-393. -/
def toolReturnLicense (mallocOk : Nat → Bool) (t : Tool) (package : Bytes) (loc : ErrLoc) :
    Res (ToolOut Unit × Tool) := sendExpectYes mallocOk t .returnLicense package loc

/-- `mlle_tool_feature`, mlle_licensing.c:285-317. -/
def toolFeature (mallocOk : Nat → Bool) (t : Tool) (feature : Bytes) (loc : ErrLoc) :
    Res (ToolOut Unit × Tool) := do
  match ← t.sendString mallocOk .feature feature with
  | (false, t) => .ok (.blocked, t)
  | (true, t) =>
    match ← expectCommands mallocOk t .yes [.no] loc with
    | (.blocked, t) => .ok (.blocked, t)
    | (.failed loc, t) => .ok (.failed loc, t)
    | (.success cmd loc, t) =>
      if cmd.id = .yes then .ok (.success () loc, t)
      else if cmd.id = .no then do
        let loc ← errorSetData mallocOk loc domainTool codeNoLicense [] cmd.data
        .ok (.failed loc, t)
      else .ub .assertFail

/-- `mlle_tool_license`, mlle_licensing.c:338-374. -/
def toolLicense (mallocOk : Nat → Bool) (t : Tool) (package : Bytes) (loc : ErrLoc) :
    Res (ToolOut Unit × Tool) := do
  match ← t.sendString mallocOk .license package with
  | (false, t) => .ok (.blocked, t)
  | (true, t) =>
    match ← expectCommands mallocOk t .yes [.notSimple, .no] loc with
    | (.blocked, t) => .ok (.blocked, t)
    | (.failed loc, t) => .ok (.failed loc, t)
    | (.success cmd loc, t) =>
      if cmd.id = .yes then .ok (.success () loc, t)
      else if cmd.id = .notSimple then do
        let loc ← errorSetLiteral mallocOk loc domainTool codeNotSimplified
          (some b!"Library vendor executable doesn't use simplified licensing, use command FEATURE instead.")
        .ok (.failed loc, t)
      else if cmd.id = .no then do
        let loc ← errorSetData mallocOk loc domainTool codeNoLicense [] cmd.data
        .ok (.failed loc, t)
      else .ub .assertFail

/-- `struct mlle_file_contents`, mlle_licensing.h:36-40. -/
structure FileContents where
  size : Nat
  offset : Nat
  buffer : Option Buf
  deriving DecidableEq, Repr

/-- Argument of the allocation oracle for `calloc(1, sizeof(struct mlle_file_contents))`.  The size is 24
on LP64, the same as that of an error object; one more is used here so that the oracle can let the two
allocations fare differently. -/
def fileContentsSize : Nat := 25

/-- `mlle_tool_file`, mlle_licensing.c:395-422. -/
def toolFile (mallocOk : Nat → Bool) (t : Tool) (path : Bytes) (loc : ErrLoc) :
    Res (ToolOut FileContents × Tool) := do
  match ← t.sendString mallocOk .file path with
  | (false, t) => .ok (.blocked, t)
  | (true, t) =>
    match ← expectCommand mallocOk t .fileCont loc with
    | (.blocked, t) => .ok (.blocked, t)
    | (.failed loc, t) => .ok (.failed loc, t)
    | (.success cmd loc, t) =>
      if mallocOk fileContentsSize then .ok (.success ⟨cmd.length, 0, cmd.data⟩ loc, t)
      else do
        let loc ← errorSetLiteral mallocOk loc 1 1 (some b!"Out of memory.")
        .ok (.failed loc, t)

/-- `mlle_tool_get_file_size`, mlle_licensing.c:438-442. -/
def toolGetFileSize (f : FileContents) : Nat := f.size

/-- `mlle_tool_read_bytes`, mlle_licensing.c:444-472.  The result is the bytes written to the start of
the caller's buffer, whose number is the return value; `none` stands for (size_t)-1. -/
def toolReadBytes (f : FileContents) (bufferSize : Nat) : Res (Option Bytes × FileContents) :=
  match f.buffer with
  | none => .ok (none, { f with offset := f.size })
  | some buf =>
    if f.offset ≥ f.size then .ok (none, { f with buffer := none })
    else do
      let left := f.size - f.offset
      let length := if bufferSize < left then bufferSize else left
      let bytes ← readCells (buf.cells.drop f.offset) length
      let offset := f.offset + length
      .ok (some bytes, ⟨f.size, offset, if offset ≥ f.size then none else some buf⟩)

/-- Successive calls of `mlle_tool_read_bytes`. -/
def toolReads : FileContents → List Nat → Res (List (Option Bytes) × FileContents)
  | f, [] => .ok ([], f)
  | f, n :: ns => do
    let (r, f) ← toolReadBytes f n
    let (rs, f) ← toolReads f ns
    .ok (r :: rs, f)

end Semla
