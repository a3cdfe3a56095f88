import Verif.Model.Lve

/-!
# Reading a file on Windows

Models `mlle_io_read_file` of `src/common/mlle_io.c` with the branches compiled for Windows
(`#ifdef _WIN32`).  The vendor executable reads library files with it (mlle_lve_file.c:60 and
mlle_cr_decrypt.c:150).  `Verif/Model/Lve.lean` has the Linux branches.
-/

namespace Semla

/-- An open stream, as far as the function uses it. -/
structure WinStream where
  /-- `ftell` behind `fseek(file, 0, SEEK_END)`; `none`: `fseek` fails, or `ftell` is not 0 behind `rewind` -/
  endPos : Option Int
  /-- what can be read -/
  bytes : Bytes
  /-- end of file (`none`) or an error behind the bytes -/
  ioError : Option Bytes
  deriving DecidableEq, Repr

/-- What the function depends on, for each path it hands over. -/
structure WinFiles where
  /-- `fopen(path, "rb")` -/
  fopen : Bytes → Option WinStream
  /-- `st_size`; `none`: `_stat` fails -/
  stat : Bytes → Option Nat
  /-- `strerror(errno)` -/
  why : Bytes → Bytes
  malloc : Nat → Bool

/-- `MAX_FILEPATH_LENGTH_SUPPORTED`, mlle_io.c:69. -/
def maxWinPath : Nat := 4096

/-- `char long_file_path[MAX_FILEPATH_LENGTH_SUPPORTED + 1]`, mlle_io.c:70; not initialised. -/
def longPathBuf : List (Option UInt8) := List.replicate (maxWinPath + 1) none

/-- `strncpy(buf + off, s, n)`: exactly `n` bytes are written, zeros behind the end of `s`. -/
def strncpyAt (buf : List (Option UInt8)) (off : Nat) (s : Bytes) (n : Nat) : Res (List (Option UInt8)) :=
  if off + n ≤ buf.length then
    .ok (buf.take off ++ (s.take n ++ List.replicate (n - s.length) 0).map some ++ buf.drop (off + n))
  else .ub .oobWrite

/-- The loop of mlle_io.c:99-105 over the string in the buffer, and the string it leaves: backslashes for
slashes. -/
def backslashed : List (Option UInt8) → Res Bytes
  | [] => .ub .oobRead
  | none :: _ => .ub .uninit
  | some c :: rest =>
    if c = 0 then .ok []
    else do
      let s ← backslashed rest
      .ok ((if c = 47 then 92 else c) :: s)

/-- The prefix for long paths. -/
def longPrefix : Bytes := b!"\\\\?\\"

/-- The path in `long_file_path`, mlle_io.c:90-105. -/
def longPath (path : Bytes) : Res Bytes := do
  let buf ←
    if path.length > 255 ∧ path.take 4 ≠ longPrefix then do
      let buf ← strncpyAt longPathBuf 0 longPrefix 5
      strncpyAt buf 4 path (maxWinPath + 1 - 4)
    else strncpyAt longPathBuf 0 path (maxWinPath + 1)
  backslashed buf

/-- mlle_io.c:130-175: `file` is open, `path` is what the messages call it. -/
def readStreamWin (w : WinFiles) (path : Bytes) (file : WinStream) : ReadFile :=
  let size :=
    match w.stat path with
    | some n => some n
    | none =>
      match file.endPos with
      | some pos => if pos > 0 then some pos.toNat else none
      | none => none
  match size with
  | none => .failed (errorNew w.malloc 1 1 (b!"Couldn't find file size for " ++ path ++
      b!". The error message was: " ++ w.why path))
  | some size =>
    if w.malloc (size + 1) then
      let got := file.bytes.take size
      match file.ioError with
      | some why =>
        if got.length < size then
          .failed (errorNew w.malloc 1 1 (b!"I/O error while reading file " ++ path ++
            b!". The error message was: " ++ why))
        else .contents got
      | none => .contents got
    else .failed (errorNew w.malloc 1 1 (b!"Couldn't allocate memory to read file: " ++ path))

/-- `mlle_io_read_file`, mlle_io.c:58-175 (Windows), with `*error == NULL` before the call. -/
def readFileWin (w : WinFiles) (path : Bytes) : Res ReadFile :=
  match w.fopen path with
  | some file => .ok (readStreamWin w path file)
  | none =>
    if path.length > maxWinPath - 4 then
      .ok (.failed (errorNew w.malloc 1 1 (b!"File name length is too long for " ++ path ++ b!". Cannot open file.")))
    else do
      let long ← longPath path
      match w.fopen long with
      | none =>
        .ok (.failed (errorNew w.malloc 1 1 (
          if path.length > 255 then b!"Cannot handle long file name for file " ++ path ++ b!"."
          else b!"Couldn't open file " ++ path ++ b!". The error message was: " ++ w.why long)))
      | some file => .ok (readStreamWin w long file)

end Semla
