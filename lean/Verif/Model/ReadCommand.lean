import Verif.Model.Ssl
import Verif.Model.Error
import Verif.Model.Utils

/-!
# Reading a reply on the tool side

Models `mlle_read_command`, `src/common/mlle_utils.c:84-172`.
-/

namespace Semla

/-- `ERROR_SIZE`, mlle_lve.h:39; `SSL_RECORD_SIZE`, mlle_utils.c:27. -/
def errorSize : Nat := 4096
def sslRecordSize : Nat := 16400

/-- What `mlle_read_command` does. -/
inductive ReadOut where
  /-- waits for data that never comes -/
  | blocked
  /-- return value 0 -/
  | fail (loc : ErrLoc)
  /-- return value 1 -/
  | done (cmd : Command) (loc : ErrLoc)
  deriving DecidableEq, Repr

/-- The loop reading the rest of the data, mlle_utils.c:160-169.  The result of the read is not
checked: -1 becomes a huge `size_t`.  Every round adds at least one byte, so `length - total` rounds
are enough; `fuel` is that bound. -/
def moreLoop (mallocOk : Nat → Bool) : Nat → Conn → Command → Nat → Res (Option Command × Conn)
  | 0, c, cmd, _ => .ok (some cmd, c)
  | fuel + 1, c, cmd, total =>
    if total < cmd.length then do
      let (r, c) ← sslReadMessage mallocOk c
      match r with
      | .blocked => .ok (none, c)
      | .failed _ _ => .ub .oobWrite
      | .message cells n _ => do
        let bytes ← readCells cells n
        match cmd.data with
        | none => .ub .nullDeref
        | some buf => do
          let cells ← writeCells buf.cells total bytes
          moreLoop mallocOk fuel c { cmd with data := some ⟨cells⟩ } (total + n)
    else .ok (some cmd, c)

/-- `mlle_read_command`, mlle_utils.c:84-172, with the connection and the caller's error location.
The command structure of the caller is overwritten entirely by the parser.  The `assert` of line 144
holds by `c01_accept_iff`. -/
def readCommand (mallocOk : Nat → Bool) (c : Conn) (loc : ErrLoc) : Res (ReadOut × Conn) :=
  if mallocOk sslRecordSize then do
    let (r, c) ← sslReadMessage mallocOk c
    match r with
    | .blocked => .ok (.blocked, c)
    | .failed code q => do
      let loc ← errorSetLiteral mallocOk loc 1 1 (some (sslErrorString errorSize code q []))
      .ok (.fail loc, c)
    | .message cells n _ =>
      if n > sslRecordSize then do
        let loc ← errorSetLiteral mallocOk loc 1 1 (some [])
        .ok (.fail loc, c)
      else if mallocOk (n + 1) then do
        let bytes ← readCells cells n
        -- the last byte is overwritten by the terminator
        let (g, cmd, emsg) ← parseCommand errorSize bytes.dropLast []
        if g ≠ .valid then do
          let text := if g = .unknownError then b!"Internal error in parsing." else emsg
          let loc ← errorSetLiteral mallocOk loc 1 1 (some text)
          .ok (.fail loc, c)
        else if cmd.id.form = .length ∨ cmd.id.form = .numberAndLength then do
          let (cmd, total) ← extractData mallocOk cmd bytes
          let loc ← if cmd.data = none then
              errorSetLiteral mallocOk loc 1 1 (some b!"End Of File.") else .ok loc
          let (cmd?, c) ← moreLoop mallocOk (cmd.length - total) c cmd total
          match cmd? with
          | none => .ok (.blocked, c)
          | some cmd => .ok (.done cmd loc, c)
        else .ok (.done cmd loc, c)
      else do
        let loc ← errorSetLiteral mallocOk loc 1 1
          (some b!"Failed to allocate memory for the token buffer")
        .ok (.fail loc, c)
  else do
    let loc ← errorSetLiteral mallocOk loc 1 1
      (some b!"Failed to allocate memory for the message buffer")
    .ok (.fail loc, c)

end Semla
