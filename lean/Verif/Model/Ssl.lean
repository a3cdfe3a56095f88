import Verif.Basic

/-!
# Reading and writing over TLS

Models `ssl_read_message` and `ssl_write_message`, `src/common/mlle_ssl.c:264-410`.

OpenSSL is modelled by the events its `SSL_read` produces: application data arrives in records; one
call hands out at most the requested number of bytes of the current record (possibly fewer, as the
schedule says); between records a call may ask to be repeated or fail.  `SSL_pending` is the number
of bytes left in the current record, and `SSL_want_read` is false after a successful read.
-/

namespace Semla

/-- What the connection does next, once the current record is used up. -/
inductive Ev where
  /-- a record with its plaintext; `sizes` are the numbers of bytes successive `SSL_read` calls
  return (clamped to what is asked for and what is there) -/
  | record (bytes : Bytes) (sizes : List Nat)
  | wantRead
  | wantWrite
  /-- any other error: the value of `SSL_get_error` and the reasons in the OpenSSL error queue -/
  | fail (code : Nat) (queue : List Bytes)
  deriving DecidableEq, Repr

/-- Incoming side of a connection. -/
structure Conn where
  cur : Bytes
  sizes : List Nat
  evs : List Ev
  deriving DecidableEq, Repr

/-- Outcome of one `SSL_read`. -/
inductive Rd where
  | data (b : Bytes)
  | again (code : Nat)
  | err (code : Nat) (queue : List Bytes)
  /-- nothing arrives: the call does not return -/
  | block
  deriving DecidableEq, Repr

/-- Number of bytes `SSL_read` hands out: at least one, at most `max`, at most the rest of the
record. -/
def chunkSize (max : Nat) (sizes : List Nat) (cur : Bytes) : Nat :=
  min (Nat.max 1 (sizes.headD max)) (min max cur.length)

/-- The connection with `rest` left of the current record. -/
def Conn.inRecord (rest : Bytes) (sizes : List Nat) (evs : List Ev) : Conn :=
  if rest = [] then ⟨[], [], evs⟩ else ⟨rest, sizes, evs⟩

/-- `SSL_read(ssl, buf, max)` with nothing left of the previous record. -/
def sslReadEvs (max : Nat) : List Ev → Rd × Conn
  | [] => (.block, ⟨[], [], []⟩)
  | .record b sizes :: evs =>
    if b = [] then sslReadEvs max evs
    else
      let k := chunkSize max sizes b
      (.data (b.take k), .inRecord (b.drop k) sizes.tail evs)
  | .wantRead :: evs => (.again 2, ⟨[], [], evs⟩)
  | .wantWrite :: evs => (.again 3, ⟨[], [], evs⟩)
  | .fail c q :: evs => (.err c q, ⟨[], [], evs⟩)

/-- `SSL_read(ssl, buf, max)`. -/
def sslRead (max : Nat) (c : Conn) : Rd × Conn :=
  if c.cur = [] then sslReadEvs max c.evs
  else
    let k := chunkSize max c.sizes c.cur
    (.data (c.cur.take k), .inRecord (c.cur.drop k) c.sizes.tail c.evs)

/-- `MSG_SIZE - 1`, mlle_lve.h:38, mlle_protocol.h:29. -/
def readMax : Nat := 1023

/-- Result of `ssl_read_message`. -/
inductive ReadMsg where
  | blocked
  /-- return value -1 (`queue` is what OpenSSL has in its error queue) -/
  | failed (code : Nat) (queue : List Bytes)
  /-- success: the message buffer, the number of bytes read, and the contents
  of the buffers released on the way at the time of their release -/
  | message (cells : List (Option UInt8)) (total : Nat) (freed : List (List (Option UInt8)))
  deriving DecidableEq, Repr

/-- The loop of `ssl_read_message`, mlle_ssl.c:322-401.  `buffer` is the current message buffer (its
size is the length of the list), `total` is `totalBytesRead`, `errorCode` the value of `*errorCode`.

`bufferLen` stays 0 in the C code, so the test `neededSpace > bufferLen` is always true here (a read
returns at least one byte), a new buffer is allocated in every round, and
`memset(tmpPointer, 0, bufferLen)` writes nothing; the released buffers are recorded with the
contents they have.  `fuel` bounds the number of rounds (see `Conn.weight`). -/
def readLoop (mallocOk : Nat → Bool) : Nat → Conn → Option (List (Option UInt8)) → Nat → Nat →
    List (List (Option UInt8)) → Res (ReadMsg × Conn)
  | 0, c, _, _, _, _ => .ok (.blocked, c)
  | fuel + 1, c, buffer, total, errorCode, freed =>
    match sslRead readMax c with
    | (.block, c) => .ok (.blocked, c)
    | (.again code, c) => readLoop mallocOk fuel c buffer total code freed
    | (.err code q, c) => .ok (.failed code q, c)
    | (.data b, c) =>
      let pending := c.cur.length
      let needed := total + b.length + pending
      if mallocOk needed then
        let fresh : List (Option UInt8) := List.replicate needed none
        match buffer with
        | none =>
          -- memcpy(buffer + totalBytesRead, tmpBuffer, noOfBytes)
          if total + b.length ≤ fresh.length then
            let cells := fresh.take total ++ b.map some ++ fresh.drop (total + b.length)
            if c.cur = [] then .ok (.message cells (total + b.length) freed, c)
            else readLoop mallocOk fuel c (some cells) (total + b.length) errorCode freed
          else .ub .oobWrite
        | some old =>
          -- memcpy(buffer, tmpPointer, totalBytesRead)
          if old.length < total then .ub .oobRead
          else if fresh.length < total then .ub .oobWrite
          else
            let fresh := old.take total ++ fresh.drop total
            if total + b.length ≤ fresh.length then
              let cells := fresh.take total ++ b.map some ++ fresh.drop (total + b.length)
              if c.cur = [] then .ok (.message cells (total + b.length) (freed ++ [old]), c)
              else readLoop mallocOk fuel c (some cells) (total + b.length) errorCode (freed ++ [old])
            else .ub .oobWrite
      else .ok (.failed errorCode [], c)

/-- Upper bound on the number of rounds: bytes and events still to come. -/
def Ev.weight : Ev → Nat
  | .record b _ => b.length + 1
  | _ => 1

def Conn.weight (c : Conn) : Nat := c.cur.length + (c.evs.map Ev.weight).sum + 1

/-- `ssl_read_message`, mlle_ssl.c:309-410. -/
def sslReadMessage (mallocOk : Nat → Bool) (c : Conn) : Res (ReadMsg × Conn) :=
  readLoop mallocOk c.weight c none 0 0 []

/-- Outcome of one `SSL_write` call of a whole message (partial writes are not enabled). -/
inductive WEv where
  | written
  | wantWrite
  | zero
  | fail (code : Nat)
  deriving DecidableEq, Repr

/-- `ssl_write_message`, mlle_ssl.c:264-292: return value, bytes put on the wire, events left.  The
message is at most `INT_MAX` bytes (line 270 converts the length to `int`).  Running out of events
means the call does not return (`none`). -/
def sslWriteMessage (msg : Bytes) : List WEv → Option (Int × Bytes) × List WEv
  | [] => (none, [])
  | .written :: r => (some ((msg.length : Int), msg), r)
  | .wantWrite :: r => sslWriteMessage msg r
  | .zero :: r => (some (-1, []), r)
  | .fail _ :: r => (some (-1, []), r)

/-- `SSL_ERROR_...` values of the OpenSSL headers used by `ssl_get_error_string`. -/
def sslErrorName (code : Nat) : Bytes :=
  if code = 2 then b!"SSL_ERROR_WANT_READ"
  else if code = 3 then b!"SSL_ERROR_WANT_WRITE"
  else if code = 5 then b!"SSL_ERROR_SYSCALL"
  else if code = 1 then b!"SSL_ERROR_SSL"
  else []

/-- `ssl_get_error_string`, mlle_ssl.c:423-450: every entry of the error queue overwrites the
buffer, so the last one stays; an empty queue leaves it alone.  Simplification: a queue entry without
a reason string (`ERR_reason_error_string` returns NULL) is not modelled. -/
def sslErrorString (cap : Nat) (code : Nat) (queue : List Bytes) (old : Bytes) : Bytes :=
  match queue.getLast? with
  | none => old
  | some r => snprintf cap (sslErrorName code ++ b!". reason: " ++ r)

end Semla
