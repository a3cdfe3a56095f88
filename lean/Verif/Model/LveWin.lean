import Verif.Model.ReadFileWin

/-!
# The vendor executable on Windows

The executable has the same sources on Windows, except that `mlle_io_read_file` of `src/common/mlle_io.c` is
compiled with other branches (`Verif/Model/ReadFileWin.lean`) and that `mlle_lve_init`, mlle_lve.c:268-275, switches
the pipes to binary mode.  The functions of `Verif/Model/Lve.lean` and `Verif/Model/LveMain.lean` see files through a
`World`; here is the world on a Windows machine.
-/

namespace Semla

/-- What the executable depends on when it handles a message. -/
structure WinMachine where
  files : WinFiles
  /-- `stat` of the library path, mlle_lve_libpath.c:147-157: `none` if it fails, otherwise whether it is a
  directory -/
  dir : Bytes → Option Bool

/-- What `mlle_io_read_file` makes of a path on Windows, in terms of `readFile`: contents, or the text of its
error. -/
def WinFiles.observe (w : WinFiles) (path : Bytes) : FileObs :=
  match readFileWin w path with
  | .ok (.contents x) => .stream x.length x none
  | .ok (.failed (some e)) => .refused (e.message.getD [])
  | .ok (.failed none) => .refused []
  | .ub _ => .refused []

/-- The world that the executable sees on Windows.  Right if there is enough memory: then `readFile` is
`readFileWin` in it (`c90_reads`). -/
def WinMachine.world (m : WinMachine) : World := ⟨m.files.observe, m.dir, m.files.malloc⟩

end Semla
