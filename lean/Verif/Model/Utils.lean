import Verif.Model.Parse

/-!
# Data part of a message

Models `extract_data`, `src/common/mlle_utils.c:42-75`.
-/

namespace Semla

/-- `strstr(buffer, "\n")` on an object of exactly the bytes `buf`: the offset of the first
newline before the first NUL (`some (some i)`), `some none` when a NUL comes first, and `none`
when the search runs past the end of the object (the receive buffer is not NUL-terminated:
`malloc(neededSpace)` in mlle_ssl.c:376 has exactly the received size). -/
def findNewline : Bytes → Option (Option Nat)
  | [] => none
  | c :: cs =>
    if c = 10 then some (some 0)
    else if c = 0 then some none
    else (findNewline cs).map (·.map (· + 1))

/-- `memcpy(dst, src, |src|)` into an object of `cells`, starting at `off`. -/
def writeCells (cells : List (Option UInt8)) (off : Nat) (src : Bytes) :
    Res (List (Option UInt8)) :=
  if off + src.length ≤ cells.length then
    .ok (cells.take off ++ src.map some ++ cells.drop (off + src.length))
  else .ub .oobWrite

/-- `extract_data`, mlle_utils.c:42-75.  Returns the command with its `data` field updated and
the return value (number of data bytes found in this buffer).

`mallocOk` is the allocator oracle for `malloc(length + 1)`. -/
def extractData (mallocOk : Nat → Bool) (cmd : Command) (buf : Bytes) : Res (Command × Nat) :=
  match findNewline buf with
  | none => .ub .oobRead
  | some none => .ok ({ cmd with data := none }, 0)
  | some (some i) =>
    let part := buf.drop (i + 1)
    let size := (cmd.length + 1) % sizeMod
    if mallocOk size then do
      let cells ← writeCells (List.replicate size none) 0 part
      let cells ← writeCells cells cmd.length [0]
      .ok ({ cmd with data := some ⟨cells⟩ }, part.length)
    else .ok ({ cmd with data := none }, 0)

end Semla
