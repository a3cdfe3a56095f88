import Verif.Model.FullDisk
import Verif.Model.Pack

/-!
# Copying a file in the packaging tool, on Linux

Models `copyFile`, utils.c:2037-2113, and `linuxCopyFilePermissions`, utils.c:447-471.  In `Model/Pack` what is copied is an
oracle (`Source.copied`, `PackEnv.lveCopied`); here it follows from the file, from what reading delivers and from the
room on the disk.  Messages are not modelled.
-/

namespace Semla

/-- What copying a file depends on. -/
structure CopyCalls where
  /-- contents and permissions of the file; `none`: `fopen(.., "rb")` fails -/
  source : Option (Bytes × Nat)
  /-- `st_size` of the first `stat`; `none`: it fails -/
  size : Option Nat
  /-- how many bytes can be read before there is an error -/
  readable : Nat
  /-- `calloc` works -/
  memory : Bool
  /-- `fopen(.., "wb")` works -/
  opens : Bool
  /-- the disk below the copy -/
  disk : OutDisk
  /-- permissions of a new file -/
  newMode : Nat
  /-- permissions by the second `stat`; `none`: it fails -/
  mode : Option Nat
  /-- `chmod` works -/
  chmod : Bool

/-- A file: contents and permissions. -/
abbrev FileCopy := Bytes × Nat

/-- The buffer after `calloc` and `fread`, utils.c:2062-2071: zeros where nothing has been read. -/
def copyBuffer (content : Bytes) (readable size : Nat) : Bytes :=
  (content.take (min readable size)) ++ List.replicate (size - (content.take (min readable size)).length) 0

/-- `linuxCopyFilePermissions`, utils.c:447-471: the permissions of the copy, and the result. -/
def copyPermissions (c : CopyCalls) : Nat × Bool :=
  match c.mode with
  | none => (c.newMode, false)
  | some m => if c.chmod then (m, true) else (c.newMode, false)

/-- `copyFile`, utils.c:2037-2113: the copy, if there is one, and the result.  Reading less than the size gives a message
only; the results of `fwrite` and `fclose` are not looked at. -/
def copyFile (c : CopyCalls) : Option FileCopy × Bool :=
  match c.source, c.size with
  | some (content, _), some size =>
    if ¬ c.memory then (none, false)
    else if ¬ c.opens then (none, false)
    else
      let (m, ok) := copyPermissions c
      (some (c.disk.closed (copyBuffer content c.readable size), m), ok)
  | _, _ => (none, false)

/-- A machine on which the files of the library and the vendor executables are copied in this way. -/
def PackEnv.copying (env : PackEnv) (library : List Bytes → CopyCalls) (lve : Bytes → CopyCalls) : PackEnv :=
  { env with
    librarySource := { env.librarySource with copied := fun p => (copyFile (library p)).1.map (·.1) }
    lveCopied := fun n => ((copyFile (lve n)).1.map (·.1), (copyFile (lve n)).2) }

end Semla
