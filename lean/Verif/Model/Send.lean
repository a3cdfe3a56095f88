import Verif.Model.Protocol

/-!
# Composing outgoing messages

Models the `mlle_send_*` functions of `src/common/mlle_io.c` (lines 173-295) up to the call of
`ssl_write_message`.  The result is the byte string handed to `ssl_write_message`, or `none`
when nothing is sent because `malloc` failed.

Not modelled: the `(int) len` conversion inside `ssl_write_message` (messages of 2 GiB or more)
and the cleaning `memset` before `free`.
-/

namespace Semla

/-- `SIMPLE_FORM_BUFFER_SIZE`, `NUMBER_FORM_BUFFER_SIZE`, `NUMBER_AND_LENGTH_FORM_BUFFER_SIZE`,
mlle_io.h:39-43. -/
def simpleBufSize : Nat := 20
def numberBufSize : Nat := simpleBufSize + 1 + 20
def numberAndLengthBufSize : Nat := numberBufSize + 1 + 20

/-- `mlle_send_simple_form`, mlle_io.c:176-188: the text in the buffer up to its NUL. -/
def sendSimple (c : CmdId) : Bytes :=
  cstr (snprintf simpleBufSize (c.name ++ b!"\n"))

/-- `mlle_send_number_form`, mlle_io.c:193-207. -/
def sendNumber (c : CmdId) (n : Int) : Bytes :=
  cstr (snprintf numberBufSize (c.name ++ b!" " ++ decInt n ++ b!"\n"))

/-- Tail of `mlle_send_length_form` and `mlle_send_number_and_length_form`: an object of `size`
bytes receives `header` by `snprintf` (with that size as limit) and then `data` by `memcpy` at
offset `strlen(header)`; `strlen(header) + strlen(data)` bytes are sent. -/
def composeWithData (size : Nat) (header data : Bytes) : Res Bytes :=
  if header.length + data.length ≤ size ∧ header.length < size then .ok (header ++ data)
  else .ub .oobWrite

/-- `mlle_send_length_form`, mlle_io.c:209-240, with `length` the length of `data` (all callers
pass an object of at least that many initialised bytes).  The buffer size is a `size_t`
addition.  `mallocOk` says whether an allocation of the given size succeeds. -/
def sendLength (mallocOk : Nat → Bool) (c : CmdId) (data : Bytes) : Res (Option Bytes) :=
  let size := (numberBufSize + data.length + 1) % sizeMod
  if mallocOk size then do
    let m ← composeWithData size (c.name ++ b!" " ++ decNat data.length ++ b!"\n") data
    .ok (some m)
  else .ok none

/-- `mlle_send_string`, mlle_io.c:242-248. -/
def sendString (mallocOk : Nat → Bool) (c : CmdId) (s : Bytes) : Res (Option Bytes) :=
  sendLength mallocOk c (cstr s)

/-- `mlle_send_number_and_length_form`, mlle_io.c:250-283. -/
def sendNumberAndLength (mallocOk : Nat → Bool) (c : CmdId) (n : Int) (data : Bytes) :
    Res (Option Bytes) :=
  let size := (numberAndLengthBufSize + data.length + 1) % sizeMod
  if mallocOk size then do
    let m ← composeWithData size
      (c.name ++ b!" " ++ decInt n ++ b!" " ++ decNat data.length ++ b!"\n") data
    .ok (some m)
  else .ok none

/-- `mlle_send_error`, mlle_io.c:285-295.  `none` is the null pointer: `strlen` is called before
the null check. -/
def sendError (mallocOk : Nat → Bool) (code : Int) (msg : Option Bytes) : Res (Option Bytes) :=
  match msg with
  | none => .ub .nullDeref
  | some m => sendNumberAndLength mallocOk .error code (cstr m)

end Semla
