import Verif.Basic

/-!
# Starting the vendor executable on Windows

Models `src/tool/mlle_spawn_windows.c` and the part of the Microsoft C runtime it uses: descriptors with the flag
`_O_NOINHERIT`, `_pipe`, `_dup`, `_dup2`, `_close`, `_spawnl`.

About the runtime it is assumed (trusted base): `_pipe` and `_dup` take the lowest free descriptors; duplicates are
inherited, whatever the original is; a started process gets the descriptors that are inherited, with their numbers; in a
program without console the descriptors 0 to 2 are taken, but there is nothing behind them and `_dup` fails with `EBADF`.
Not modelled: buffering (`setvbuf`, `fflush`), bytes inside pipes.
-/

namespace Semla

/-- What a descriptor refers to: an end of one of the two pipes made for this start, or anything else. -/
inductive WinObj where
  | pipe (toChild write : Bool)
  | other (i : Nat)
  deriving DecidableEq, Repr

/-- A descriptor: free, taken without anything behind it, or open, and whether it is inherited. -/
inductive WinSlot where
  | free
  | noHandle
  | opened (o : WinObj) (inherited : Bool)
  deriving DecidableEq, Repr

abbrev WinFds := Nat → WinSlot

namespace WinFds

def set (t : WinFds) (n : Nat) (s : WinSlot) : WinFds := fun m => if m = n then s else t m

/-- `_close`. -/
def close (t : WinFds) (n : Nat) : WinFds := t.set n .free

/-- The lowest free descriptor. -/
def firstFree (limit : Nat) (t : WinFds) : Option Nat := (List.range limit).find? fun n => t n = .free

/-- `_pipe(fd, BUFSIZ, _O_BINARY | _O_NOINHERIT)`: `fd[0]`, `fd[1]` and the descriptors. -/
def pipe (limit : Nat) (t : WinFds) (toChild : Bool) : Option (Nat × Nat × WinFds) :=
  match t.firstFree limit with
  | none => none
  | some r =>
    let t := t.set r (.opened (.pipe toChild false) false)
    match t.firstFree limit with
    | none => none
    | some w => some (r, w, t.set w (.opened (.pipe toChild true) false))

/-- `EBADF` and `EMFILE`. -/
def ebadf : Nat := 9
def emfile : Nat := 24

/-- `_dup(n)`: the new descriptor, or `errno`. -/
def dup (limit : Nat) (t : WinFds) (n : Nat) : Except Nat (Nat × WinFds) :=
  match t n with
  | .opened o _ =>
    match t.firstFree limit with
    | some m => .ok (m, t.set m (.opened o true))
    | none => .error emfile
  | _ => .error ebadf

/-- `_dup2(old, new)`, or `errno`. -/
def dup2 (t : WinFds) (old new : Nat) : Except Nat WinFds :=
  match t old with
  | .opened o _ => .ok (if old = new then t else t.set new (.opened o true))
  | _ => .error ebadf

/-- The descriptors of a process that is started. -/
def inherit (t : WinFds) : WinFds := fun n =>
  match t n with
  | .opened o true => .opened o true
  | _ => .free

end WinFds

/-- What `mlle_spawn` depends on: other reasons for `_pipe` and `_dup2` to fail (`errno`), the files that can be started,
the text of `strerror_s`, and `calloc`. -/
structure WinEnv where
  pipeTo : Bool := true
  pipeFrom : Bool := true
  toIn : Option Nat := none
  toOut : Option Nat := none
  backIn : Option Nat := none
  backOut : Option Nat := none
  runs : Bytes → Bool
  reason : Bytes := []
  calloc : Bool := true

/-- The descriptors in `struct mlle_connections`. -/
structure WinLink where
  fdTo : Nat
  fdFrom : Nat
  deriving DecidableEq, Repr

/-- How `mlle_spawn` ends: with a message, or a connection. -/
inductive WinOut where
  | failed (msg : Bytes)
  | link (l : WinLink)
  deriving DecidableEq, Repr

/-- Result, the descriptors of the tool, and those of the vendor executable, if it was started. -/
structure WinRes where
  out : WinOut
  tool : WinFds
  child : Option WinFds

/-- `MLLE_LONG_FILE_NAME_MAX`, mlle_error.h:24. -/
def winLongMax : Nat := 4096

/-- `long_name`, mlle_spawn_windows.c:46, 135-142. -/
def longName (exec : Bytes) : Bytes :=
  if exec.length < winLongMax - 5 then b!"\\\\?\\" ++ exec.map fun c => if c = 47 then 92 else c else b!"\\\\?\\"

/-- A call of `_dup2` that may fail for other reasons. -/
def winDup2 (bad : Option Nat) (t : WinFds) (old new : Nat) : Except Nat WinFds :=
  match bad with
  | some e => .error e
  | none => t.dup2 old new

/-- Starting the process, mlle_spawn_windows.c:128-154: the message if it fails. -/
def winStart (env : WinEnv) (exec : Bytes) : Option Bytes :=
  if env.runs exec then none
  else if exec.length > 255 then
    if env.runs (longName exec) then none
    else some (b!"Failed to start the process (" ++ env.reason ++
      b!"). Potentially due to too long executable file name (" ++ exec ++ b!")")
  else some (b!"Failed to create a new process (" ++ exec ++ b!", " ++ env.reason ++ b!").")

/-- A call of `_dup` for a standard stream, mlle_spawn_windows.c:81-102: the duplicate, unless there is nothing behind the
descriptor, or the message. -/
def winSave (limit : Nat) (t : WinFds) (n : Nat) (name : Bytes) : Except Bytes (Option Nat × WinFds) :=
  match t.dup limit n with
  | .ok (m, t) => .ok (some m, t)
  | .error e =>
    if e = WinFds.ebadf then .ok (none, t)
    else .error (b!"Failed to duplicate " ++ name ++ b!" stream (errno: " ++ decNat e ++ b!").")

/-- Giving a standard stream back, mlle_spawn_windows.c:159-183. -/
def winRestore (bad : Option Nat) (t : WinFds) (saved : Option Nat) (n : Nat) (name : Bytes) : Except Bytes WinFds :=
  match saved with
  | none => .ok t
  | some m =>
    match winDup2 bad t m n with
    | .error e => .error (b!"Failed to reassociate " ++ name ++ b!" stream (errno: " ++ decNat e ++ b!").")
    | .ok t => .ok (t.close m)

/-- The end, mlle_spawn_windows.c:156-193, when the vendor executable runs. -/
def winFinish (env : WinEnv) (toW fromR : Nat) (savedIn savedOut : Option Nat) (t : WinFds) : WinOut × WinFds :=
  match winRestore env.backIn t savedIn 0 b!"STDIN" with
  | .error m => (.failed m, t)
  | .ok t =>
    match winRestore env.backOut t savedOut 1 b!"STDOUT" with
    | .error m => (.failed m, t)
    | .ok t => (if env.calloc then .link ⟨toW, fromR⟩ else .failed b!"Out of memory.", t)

/-- The middle, mlle_spawn_windows.c:109-154: the pipes become the standard streams, and the process is started. -/
def winConnect (env : WinEnv) (exec : Bytes) (toR toW fromR fromW : Nat) (savedIn savedOut : Option Nat) (t : WinFds) :
    WinRes :=
  match winDup2 env.toIn t toR 0 with
  | .error e => ⟨.failed (b!"Failed to duplicate (and close) STDIN stream (errno: " ++ decNat e ++ b!")."), t, none⟩
  | .ok t =>
    match winDup2 env.toOut t fromW 1 with
    | .error e => ⟨.failed (b!"Failed to duplicate (and close) STDOUT stream (errno: " ++ decNat e ++ b!")."), t, none⟩
    | .ok t =>
      let t := (t.close toR).close fromW
      match winStart env exec with
      | some m => ⟨.failed m, t, none⟩
      | none =>
        let (out, t') := winFinish env toW fromR savedIn savedOut t
        ⟨out, t', some t.inherit⟩

/-- `mlle_spawn`, mlle_spawn_windows.c:41-194. -/
def winSpawn (limit : Nat) (env : WinEnv) (exec : Bytes) (t : WinFds) : WinRes :=
  match (if env.pipeTo then t.pipe limit true else none) with
  | none => ⟨.failed b!"_pipe() failed.", t, none⟩
  | some (toR, toW, t) =>
    match (if env.pipeFrom then t.pipe limit false else none) with
    | none => ⟨.failed b!"_pipe() failed.", t, none⟩
    | some (fromR, fromW, t) =>
      match winSave limit t 0 b!"STDIN" with
      | .error m => ⟨.failed m, t, none⟩
      | .ok (savedIn, t) =>
        match winSave limit t 1 b!"STDOUT" with
        | .error m => ⟨.failed m, t, none⟩
        | .ok (savedOut, t) => winConnect env exec toR toW fromR fromW savedIn savedOut t

end Semla
