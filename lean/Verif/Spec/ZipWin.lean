import Verif.Model.Miniz
import Verif.Spec.Zip

/-!
# Making an archive on Windows

Conditions under which the files of a package get into the archive.
-/

namespace Semla.Spec
open Semla

/-- The system does what it is asked for: there is memory, and reading and writing succeed. -/
structure AllWell (io : ZipIo) : Prop where
  memory : io.state = true ∧ io.dirs = true ∧ io.room = true ∧ io.comp = true
  opens : io.opens = true ∧ io.seek = true ∧ io.reopens = true
  read : ∀ k, io.read k = true
  write : ∀ k, io.write k = none
  flush : io.flush = true

/-- `_stat` works for files that are smaller than 2 GiB. -/
def StatSmall (io : ZipIo) : Prop := ∀ n, n < 2 ^ 31 → io.stat n = true

/-- What the compressor makes of more than three bytes is decompressed to the same bytes. -/
def Restores (inflate : Bytes → Option Bytes) (deflate : Bytes → List Bytes) : Prop :=
  ∀ d, 3 < d.length → inflate (deflate d).flatten = some d

/-- The name of a file relative to a directory, with slashes: it may stand in an archive. -/
def ArchiveName (n : Bytes) : Prop :=
  n.length ≤ 65535 ∧ 92 ∉ n ∧ 58 ∉ n ∧ (∀ r, n ≠ 47 :: r) ∧ ∀ r, n ≠ r ++ [47]

/-- How many bytes a file takes in an archive: two headers, the name twice, the comment and the data, which
are compressed if there are more than three bytes. -/
def roomFor (deflate : Bytes → List Bytes) (name data : Bytes) : Nat :=
  30 + 46 + 2 * name.length + b!"Modelica_archive".length +
    (if data.length ≤ 3 then data.length else (deflate data).flatten.length)

/-- How many bytes an archive of the files has. -/
def archiveRoom (deflate : Bytes → List Bytes) (files : List (ZipIo × Bytes × Bytes)) : Nat :=
  (files.map fun x => roomFor deflate x.2.1 x.2.2).sum + 22

end Semla.Spec
