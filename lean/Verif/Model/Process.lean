import Verif.Basic

/-!
# Starting the vendor executable: processes, descriptors and pipes

Models `src/tool/mlle_spawn_posix.c`, `mlle_start_executable` and `mlle_connections_free`
(`src/tool/mlle_licensing.c:46-97`) as far as descriptors are concerned, and the part of POSIX they use:
descriptor tables, `pipe`, `fork`, `dup2`, `close`, the end of a process.

A pipe is named by the start it was made for and its direction.  The child's steps between `fork` and
`execl` are taken at once.  Not modelled: bytes inside pipes, signals, other processes the tool starts,
threads.  Tool and vendor executable leave the descriptors of connections alone except through the calls
modelled here.
-/

namespace Semla

/-- What a descriptor refers to: an end of the pipe of start `k` that leads to the child or from it, or
anything else. -/
inductive Obj where
  | pipe (k : Nat) (toChild write : Bool)
  | other
  deriving DecidableEq, Repr

/-- The descriptors of a process. -/
abbrev Fds := Nat → Option Obj

namespace Fds

def set (t : Fds) (n : Nat) (o : Obj) : Fds := fun m => if m = n then some o else t m

/-- `close(n)`; closing what is not open has no effect. -/
def close (t : Fds) (n : Nat) : Fds := fun m => if m = n then none else t m

/-- The lowest free descriptor. -/
def firstFree (limit : Nat) (t : Fds) : Option Nat := (List.range limit).find? fun n => (t n).isNone

/-- `pipe(fd)`: `fd[0]`, `fd[1]` and the table; `none` if it fails. -/
def pipe (limit : Nat) (t : Fds) (k : Nat) (toChild : Bool) : Option (Nat × Nat × Fds) :=
  match firstFree limit t with
  | none => none
  | some r =>
    let t := t.set r (.pipe k toChild false)
    match firstFree limit t with
    | none => none
    | some w => some (r, w, t.set w (.pipe k toChild true))

/-- `dup2(old, new)`; `none` if `old` is not open. -/
def dup2 (t : Fds) (old new : Nat) : Option Fds := (t old).map fun o => t.set new o

end Fds

/-- A connection of the tool: its two descriptors (`struct mlle_connections`, mlle_types.h:23-27), and the
number of the start. -/
structure Link where
  fdTo : Nat
  fdFrom : Nat
  k : Nat
  deriving DecidableEq, Repr

/-- A running vendor executable: the number of its start, and its descriptors. -/
structure Child where
  k : Nat
  fds : Fds

/-- The tool, the vendor executables it started, its connections, and the number of the next start. -/
structure Sys where
  tool : Fds
  children : List Child
  links : List Link
  next : Nat

/-- The tool before it starts anything. -/
def Sys.init (t : Fds) : Sys := ⟨t, [], [], 0⟩

/-- What `mlle_spawn` depends on: results of `access`, other reasons for `pipe` to fail, and results of
`fork`, `calloc` and `execl`. -/
structure SpawnEnv where
  found : Bool := true
  executable : Bool := true
  pipeTo : Bool := true
  pipeFrom : Bool := true
  fork : Bool := true
  calloc : Bool := true
  exec : Bool := true
  deriving DecidableEq, Repr

/-- How `mlle_spawn` ends. -/
inductive SpawnOut where
  | noFile
  | noPermission
  | pipeFailed
  | forkFailed
  | noMemory
  | link (l : Link)
  deriving DecidableEq, Repr

/-- The child up to `execl`, mlle_spawn_posix.c:76-94; `none`: `_exit(3)`. -/
def childSetup (t : Fds) (toR toW fromR fromW : Nat) : Option Fds :=
  let t := t.close toW
  let t := t.close 0
  match t.dup2 toR 0 with
  | none => none
  | some t =>
    let t := t.close toR
    let t := t.close fromR
    let t := t.close 1
    match t.dup2 fromW 1 with
    | none => none
    | some t => some (t.close fromW)

/-- The child after `fork`, mlle_spawn_posix.c:76-98: the processes it adds. -/
def forkChild (env : SpawnEnv) (k : Nat) (t : Fds) (toR toW fromR fromW : Nat) : List Child :=
  match childSetup t toR toW fromR fromW with
  | none => []
  | some t => if env.exec then [⟨k, t⟩] else []

/-- `mlle_spawn`, mlle_spawn_posix.c:38-112, without its messages. -/
def spawn (limit : Nat) (env : SpawnEnv) (s : Sys) : SpawnOut × Sys :=
  if ¬ env.found then (.noFile, s)
  else if ¬ env.executable then (.noPermission, s)
  else
    match (if env.pipeTo then s.tool.pipe limit s.next true else none) with
    | none => (.pipeFailed, s)
    | some (toR, toW, t) =>
      let s := { s with tool := t, next := s.next + 1 }
      match (if env.pipeFrom then t.pipe limit (s.next - 1) false else none) with
      | none => (.pipeFailed, s)
      | some (fromR, fromW, t) =>
        let s := { s with tool := t }
        if ¬ env.fork then (.forkFailed, s)
        else
          let s := { s with
            children := s.children ++ forkChild env (s.next - 1) t toR toW fromR fromW
            tool := t.close toR }
          if env.calloc then (.link ⟨toW, fromR, s.next - 1⟩, s) else (.noMemory, s)

/-- The two calls of `close` in `mlle_connections_free`, mlle_licensing.c:57-58. -/
def Sys.closeLink (s : Sys) (l : Link) : Sys :=
  { s with tool := (s.tool.close l.fdTo).close l.fdFrom }

/-- `mlle_start_executable`, mlle_licensing.c:64-97, for descriptors: `tls` says whether both
`ssl_setup_tool` and `tool_perform_handshake` work. -/
def startLink (limit : Nat) (env : SpawnEnv) (tls : Bool) (s : Sys) : Option Link × Sys :=
  match spawn limit env s with
  | (.link l, s) => if tls then (some l, s) else (none, s.closeLink l)
  | (_, s) => (none, s)

/-- What can happen: the tool calls `mlle_start_executable`, or `mlle_connections_free` for one of its
connections; a vendor executable ends; the tool opens a file, or closes one. -/
inductive Event where
  | start (env : SpawnEnv) (tls : Bool)
  | free (l : Link)
  | exit (k : Nat)
  | openFile
  | closeFile (n : Nat)
  deriving DecidableEq, Repr

/-- One event. -/
def Sys.step (limit : Nat) (s : Sys) : Event → Sys
  | .start env tls =>
    match startLink limit env tls s with
    | (some l, s) => { s with links := s.links ++ [l] }
    | (none, s) => s
  | .free l =>
    if l ∈ s.links then { s.closeLink l with links := s.links.filter (· ≠ l) } else s
  | .exit k => { s with children := s.children.filter (·.k ≠ k) }
  | .openFile =>
    match s.tool.firstFree limit with
    | some n => { s with tool := s.tool.set n .other }
    | none => s
  | .closeFile n => if s.tool n = some .other then { s with tool := s.tool.close n } else s

/-- Events in sequence. -/
def Sys.run (limit : Nat) (s : Sys) (evs : List Event) : Sys := evs.foldl (Sys.step limit) s

end Semla
