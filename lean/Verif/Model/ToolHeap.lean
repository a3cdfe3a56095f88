import Verif.Model.Tool

/-!
# Memory of the tool

The calls of `Model/Tool` once more, this time with the blocks of memory they allocate and free: `ssl_read_message`
(`src/common/mlle_ssl.c:309-410`), `mlle_read_command` and `extract_data` (`src/common/mlle_utils.c:42-172`), the
senders (`src/common/mlle_io.c:209-283`), error objects (`src/common/mlle_error.c`) and the licensing calls
(`src/tool/mlle_licensing.c:101-472`).  What is sent, received and parsed is taken from the functions of the other
models; `c74_same` says that the two go together.

Left out: memory allocated inside of OpenSSL and of the C library.
-/

namespace Semla

/-- Blocks in the order of their allocation: the size of a live block, or `none` once it is freed.  The address of a
block is its position, so no address is used twice. -/
abbrev Heap := List (Option Nat)

/-- `malloc(n)` when it succeeds. -/
def Heap.alloc (h : Heap) (n : Nat) : Nat × Heap := (h.length, h ++ [some n])

/-- `free`. -/
def Heap.free (h : Heap) : Option Nat → Res Heap
  | none => .ok h
  | some a =>
    match h[a]? with
    | some (some _) => .ok (h.set a none)
    | _ => .ub .badFree

/-- The error location of the caller: `none` is the null pointer, `some none` a location with NULL, otherwise the
address of the error object and of its message. -/
abbrev ErrSlot := Option (Option (Nat × Option Nat))

/-- Memory, and the error location of the caller. -/
structure Mem where
  heap : Heap
  error : ErrSlot
  deriving DecidableEq, Repr

/-- The object and the message of an error: `calloc` and then `calloc` or `strdup` of `n` bytes, mlle_error.c:72-84,
114-125 (`none`: no message). -/
def newError (mallocOk : Nat → Bool) (n : Option Nat) (h : Heap) : Option (Nat × Option Nat) × Heap :=
  if mallocOk errStructSize then
    let (p, h) := h.alloc errStructSize
    match n with
    | none => (some (p, none), h)
    | some n =>
      if mallocOk n then
        let (q, h) := h.alloc n
        (some (p, some q), h)
      else (some (p, none), h)
  else (none, h)

/-- `mlle_error_set`, mlle_error.c:89-104, and `mlle_error_set_literal`, 130-140: `n` is the size of the message. -/
def Mem.setError (mallocOk : Nat → Bool) (n : Option Nat) (s : Mem) : Res Mem :=
  match s.error with
  | none => .ok s
  | some (some _) => .ub .assertFail
  | some none =>
    let (e, h) := newError mallocOk n s.heap
    .ok ⟨h, some e⟩

def Mem.setLiteral (mallocOk : Nat → Bool) (msg : Option Bytes) (s : Mem) : Res Mem :=
  s.setError mallocOk (msg.map fun t => (cstr t).length + 1)

def Mem.setFormat (mallocOk : Nat → Bool) (s : Mem) : Res Mem := s.setError mallocOk (some defaultMsgSize)

/-- `mlle_error_set` with the data of the command. -/
def Mem.setData (mallocOk : Nat → Bool) (data : Option Buf) (s : Mem) : Res Mem :=
  match s.error, data with
  | some none, none => .ub .nullDeref
  | some none, some buf => do
    let _ ← readCStr buf.cells
    s.setFormat mallocOk
  | _, _ => s.setFormat mallocOk

/-- `mlle_error_free`, mlle_error.c:143-157 (`cause` is always NULL). -/
def Mem.freeError (s : Mem) : Res Mem :=
  match s.error with
  | some (some (p, q)) => do
    let h ← s.heap.free q
    let h ← h.free (some p)
    .ok ⟨h, some none⟩
  | _ => .ok s

/-- The loop of `ssl_read_message`, mlle_ssl.c:322-401: the block that `*messageBuffer` points to afterwards (`none`:
it is left as it is).  `buffer` is the current block. -/
def readLoopHeap (mallocOk : Nat → Bool) : Nat → Conn → Option Nat → Nat → Heap → Res (Option Nat × Heap)
  | 0, _, _, _, h => .ok (none, h)
  | fuel + 1, c, buffer, total, h =>
    match sslRead readMax c with
    | (.block, _) => .ok (none, h)
    | (.again _, c) => readLoopHeap mallocOk fuel c buffer total h
    | (.err _ _, _) => .ok (none, h)
    | (.data b, c) =>
      let needed := total + b.length + c.cur.length
      if mallocOk needed then do
        let (p, h) := h.alloc needed
        let h ← h.free buffer
        if c.cur = [] then .ok (some p, h)
        else readLoopHeap mallocOk fuel c (some p) (total + b.length) h
      else .ok (none, h)

/-- `ssl_read_message`, mlle_ssl.c:309-410. -/
def sslReadHeap (mallocOk : Nat → Bool) (c : Conn) (h : Heap) : Res (Option Nat × Heap) :=
  readLoopHeap mallocOk c.weight c none 0 h

/-- The loop reading the rest of the data, mlle_utils.c:160-169.  `messageBuffer` is overwritten in every round. -/
def moreLoopHeap (mallocOk : Nat → Bool) : Nat → Conn → Command → Nat → Heap → Res (Option Command × Heap × Conn)
  | 0, c, cmd, _, h => .ok (some cmd, h, c)
  | fuel + 1, c, cmd, total, h =>
    if total < cmd.length then do
      let (_, h) ← sslReadHeap mallocOk c h
      let (r, c) ← sslReadMessage mallocOk c
      match r with
      | .blocked => .ok (none, h, c)
      | .failed _ _ => .ub .oobWrite
      | .message cells n _ => do
        let bytes ← readCells cells n
        match cmd.data with
        | none => .ub .nullDeref
        | some buf => do
          let cells ← writeCells buf.cells total bytes
          moreLoopHeap mallocOk fuel c { cmd with data := some ⟨cells⟩ } (total + n) h
    else .ok (some cmd, h, c)

/-- What a tool call got from `mlle_read_command`, and the block of the data. -/
inductive Got where
  | blocked
  | failed
  | command (cmd : Command) (data : Option Nat)
  deriving DecidableEq, Repr

/-- `mlle_read_command`, mlle_utils.c:84-172: nothing frees `messageBuffer`. -/
def readCommandHeap (mallocOk : Nat → Bool) (c : Conn) (s : Mem) : Res (Got × Mem × Conn) :=
  if mallocOk sslRecordSize then do
    let (_, h) := s.heap.alloc sslRecordSize
    let (_, h) ← sslReadHeap mallocOk c h
    let (r, c) ← sslReadMessage mallocOk c
    match r with
    | .blocked => .ok (.blocked, ⟨h, s.error⟩, c)
    | .failed code q => do
      let s ← Mem.setLiteral mallocOk (some (sslErrorString errorSize code q [])) ⟨h, s.error⟩
      .ok (.failed, s, c)
    | .message cells n _ =>
      if n > sslRecordSize then do
        let s ← Mem.setLiteral mallocOk (some []) ⟨h, s.error⟩
        .ok (.failed, s, c)
      else if mallocOk (n + 1) then do
        let (token, h) := h.alloc (n + 1)
        let bytes ← readCells cells n
        let (g, cmd, emsg) ← parseCommand errorSize bytes.dropLast []
        let h ← h.free (some token)
        if g ≠ .valid then do
          let text := if g = .unknownError then b!"Internal error in parsing." else emsg
          let s ← Mem.setLiteral mallocOk (some text) ⟨h, s.error⟩
          .ok (.failed, s, c)
        else if cmd.id.form = .length ∨ cmd.id.form = .numberAndLength then do
          let (cmd, total) ← extractData mallocOk cmd bytes
          let (data, h) := if cmd.data = none then (none, h) else
            let (d, h) := h.alloc ((cmd.length + 1) % sizeMod)
            (some d, h)
          let s ← if cmd.data = none then Mem.setLiteral mallocOk (some b!"End Of File.") ⟨h, s.error⟩
            else .ok ⟨h, s.error⟩
          let (cmd?, h, c) ← moreLoopHeap mallocOk (cmd.length - total) c cmd total s.heap
          match cmd? with
          | none => .ok (.blocked, ⟨h, s.error⟩, c)
          | some cmd => .ok (.command cmd data, ⟨h, s.error⟩, c)
        else .ok (.command cmd none, ⟨h, s.error⟩, c)
      else do
        let s ← Mem.setLiteral mallocOk (some b!"Failed to allocate memory for the token buffer") ⟨h, s.error⟩
        .ok (.failed, s, c)
  else do
    let s ← s.setLiteral mallocOk (some b!"Failed to allocate memory for the message buffer")
    .ok (.failed, s, c)

/-- `mlle_expect_command`, mlle_licensing.c:101-133. -/
def expectHeap (mallocOk : Nat → Bool) (t : Tool) (expected : CmdId) (s : Mem) : Res (Got × Mem × Tool) := do
  let (g, s, c) ← readCommandHeap mallocOk t.inn s
  let t := { t with inn := c }
  match g with
  | .blocked => .ok (.blocked, s, t)
  | .failed => .ok (.failed, s, t)
  | .command cmd data =>
    if cmd.id = .error then do
      let s ← s.setData mallocOk cmd.data
      let h ← s.heap.free data
      .ok (.failed, ⟨h, s.error⟩, t)
    else if cmd.id ≠ expected then do
      let s ← s.setFormat mallocOk
      .ok (.failed, s, t)
    else .ok (.command cmd data, s, t)

/-- `mlle_expect_commands`, mlle_licensing.c:135-190. -/
def expectsHeap (mallocOk : Nat → Bool) (t : Tool) (first : CmdId) (more : List CmdId) (s : Mem) :
    Res (Got × Mem × Tool) := do
  let (g, s, c) ← readCommandHeap mallocOk t.inn s
  let t := { t with inn := c }
  match g with
  | .blocked => .ok (.blocked, s, t)
  | .failed => .ok (.failed, s, t)
  | .command cmd data =>
    if cmd.id = .error then do
      let s ← s.setData mallocOk cmd.data
      let h ← s.heap.free data
      .ok (.failed, ⟨h, s.error⟩, t)
    else if cmd.id ∈ first :: more then .ok (.command cmd data, s, t)
    else if mallocOk (expectedSize (more.length + 1)) then do
      let (msg, h) := s.heap.alloc (expectedSize (more.length + 1))
      let text ← expectedText cmd.id first more
      let s ← Mem.setLiteral mallocOk (some text) ⟨h, s.error⟩
      let h ← s.heap.free (some msg)
      .ok (.failed, ⟨h, s.error⟩, t)
    else do
      let s ← s.setLiteral mallocOk none
      .ok (.failed, s, t)

/-- `mlle_send_string` with its block, mlle_io.c:209-248. -/
def sendHeap (mallocOk : Nat → Bool) (data : Bytes) (h : Heap) : Res Heap :=
  let size := (numberBufSize + (cstr data).length + 1) % sizeMod
  if mallocOk size then
    let (p, h) := h.alloc size
    h.free (some p)
  else .ok h

/-- How a call ends: the result of `mlle_tool_file` is the address of a `struct mlle_file_contents` and of its
buffer. -/
inductive CallEnd where
  | blocked
  | failed
  | success
  | contents (p : Nat) (f : FileContents) (buffer : Option Nat)
  deriving DecidableEq, Repr

/-- The calls of the tool. -/
inductive ToolCall where
  | version (minV maxV : Int)
  | libpath (path : Bytes)
  | feature (name : Bytes)
  | returnFeature (name : Bytes)
  | license (package : Bytes)
  | returnLicense (package : Bytes)
  | file (path : Bytes)
  deriving DecidableEq, Repr

/-- `mlle_tool_version`, mlle_licensing.c:207-237. -/
def versionHeap (mallocOk : Nat → Bool) (t : Tool) (minV maxV : Int) (s : Mem) : Res (CallEnd × Mem × Tool) :=
  match t.write (sendNumber .version maxV) with
  | (none, t) => .ok (.blocked, s, t)
  | (some n, t) =>
    if n < 0 then .ok (.failed, s, t)
    else do
      let (g, s, t) ← expectHeap mallocOk t .version s
      match g with
      | .blocked => .ok (.blocked, s, t)
      | .failed => .ok (.failed, s, t)
      | .command cmd _ =>
        if cmd.number < minV then do
          let s ← s.setFormat mallocOk
          .ok (.failed, s, t)
        else if cmd.number > maxV then do
          let s ← s.setFormat mallocOk
          .ok (.failed, s, t)
        else .ok (.success, s, t)

/-- `mlle_tool_libpath`, `mlle_tool_returnfeature`, `mlle_tool_returnlicense`, mlle_licensing.c:254-268, 319-336,
376-393. -/
def yesHeap (mallocOk : Nat → Bool) (t : Tool) (c : CmdId) (arg : Bytes) (s : Mem) : Res (CallEnd × Mem × Tool) := do
  let (sent, t) ← t.sendString mallocOk c arg
  let h ← sendHeap mallocOk arg s.heap
  if sent then do
    let (g, s, t) ← expectHeap mallocOk t .yes ⟨h, s.error⟩
    match g with
    | .blocked => .ok (.blocked, s, t)
    | .failed => .ok (.failed, s, t)
    | .command _ _ => .ok (.success, s, t)
  else .ok (.blocked, ⟨h, s.error⟩, t)

/-- `mlle_tool_feature`, mlle_licensing.c:285-317: the data of NO is not freed. -/
def featureHeap (mallocOk : Nat → Bool) (t : Tool) (feature : Bytes) (s : Mem) : Res (CallEnd × Mem × Tool) := do
  let (sent, t) ← t.sendString mallocOk .feature feature
  let h ← sendHeap mallocOk feature s.heap
  if sent then do
    let (g, s, t) ← expectsHeap mallocOk t .yes [.no] ⟨h, s.error⟩
    match g with
    | .blocked => .ok (.blocked, s, t)
    | .failed => .ok (.failed, s, t)
    | .command cmd _ =>
      if cmd.id = .yes then .ok (.success, s, t)
      else if cmd.id = .no then do
        let s ← s.setData mallocOk cmd.data
        .ok (.failed, s, t)
      else .ub .assertFail
  else .ok (.blocked, ⟨h, s.error⟩, t)

/-- `mlle_tool_license`, mlle_licensing.c:338-374. -/
def licenseHeap (mallocOk : Nat → Bool) (t : Tool) (package : Bytes) (s : Mem) : Res (CallEnd × Mem × Tool) := do
  let (sent, t) ← t.sendString mallocOk .license package
  let h ← sendHeap mallocOk package s.heap
  if sent then do
    let (g, s, t) ← expectsHeap mallocOk t .yes [.notSimple, .no] ⟨h, s.error⟩
    match g with
    | .blocked => .ok (.blocked, s, t)
    | .failed => .ok (.failed, s, t)
    | .command cmd _ =>
      if cmd.id = .yes then .ok (.success, s, t)
      else if cmd.id = .notSimple then do
        let s ← s.setLiteral mallocOk
          (some b!"Library vendor executable doesn't use simplified licensing, use command FEATURE instead.")
        .ok (.failed, s, t)
      else if cmd.id = .no then do
        let s ← s.setData mallocOk cmd.data
        .ok (.failed, s, t)
      else .ub .assertFail
  else .ok (.blocked, ⟨h, s.error⟩, t)

/-- `mlle_tool_file`, mlle_licensing.c:395-422. -/
def fileHeap (mallocOk : Nat → Bool) (t : Tool) (path : Bytes) (s : Mem) : Res (CallEnd × Mem × Tool) := do
  let (sent, t) ← t.sendString mallocOk .file path
  let h ← sendHeap mallocOk path s.heap
  if sent then do
    let (g, s, t) ← expectHeap mallocOk t .fileCont ⟨h, s.error⟩
    match g with
    | .blocked => .ok (.blocked, s, t)
    | .failed => .ok (.failed, s, t)
    | .command cmd data =>
      if mallocOk fileContentsSize then
        let (p, h) := s.heap.alloc fileContentsSize
        .ok (.contents p ⟨cmd.length, 0, cmd.data⟩ data, ⟨h, s.error⟩, t)
      else do
        let s ← s.setLiteral mallocOk (some b!"Out of memory.")
        .ok (.failed, s, t)
  else .ok (.blocked, ⟨h, s.error⟩, t)

/-- A call. -/
def callHeap (mallocOk : Nat → Bool) (t : Tool) (s : Mem) : ToolCall → Res (CallEnd × Mem × Tool)
  | .version minV maxV => versionHeap mallocOk t minV maxV s
  | .libpath path => yesHeap mallocOk t .lib path s
  | .feature name => featureHeap mallocOk t name s
  | .returnFeature name => yesHeap mallocOk t .returnFeature name s
  | .license package => licenseHeap mallocOk t package s
  | .returnLicense package => yesHeap mallocOk t .returnLicense package s
  | .file path => fileHeap mallocOk t path s

/-- `mlle_tool_read_bytes`, mlle_licensing.c:444-472: contents as in `toolReadBytes`, and the block of the buffer. -/
def readBytesHeap (f : FileContents) (buffer : Option Nat) (n : Nat) (h : Heap) :
    Res (FileContents × Option Nat × Heap) := do
  let (_, f') ← toolReadBytes f n
  if f.buffer.isSome ∧ f'.buffer = none then do
    let h ← h.free buffer
    .ok (f', none, h)
  else .ok (f', buffer, h)

/-- Successive calls of `mlle_tool_read_bytes`. -/
def readsHeap : FileContents → Option Nat → List Nat → Heap → Res (FileContents × Option Nat × Heap)
  | f, b, [], h => .ok (f, b, h)
  | f, b, n :: ns, h => do
    let (f, b, h) ← readBytesHeap f b n h
    readsHeap f b ns h

/-- `mlle_file_contents_free`, mlle_licensing.c:425-436. -/
def contentsFree (p : Nat) (buffer : Option Nat) (h : Heap) : Res Heap := do
  let h ← h.free buffer
  h.free (some p)

end Semla
