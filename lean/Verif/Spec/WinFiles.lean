import Verif.Model.ReadFileWin

/-!
# Specification vocabulary for files on Windows
-/

namespace Semla.Spec

/-- Names of files and directories. -/
structure FileName (n : Bytes) : Prop where
  some : n ≠ []
  noSep : ∀ c ∈ n, c ≠ 0 ∧ c ≠ 47 ∧ c ≠ 92
  notDot : n ≠ b!"." ∧ n ≠ b!".."

/-- `Spells d p ns`: `p` is a path, from drive `d`, through the directories `ns`, with `/` or `\` between
names. -/
inductive Spells (d : UInt8) : Bytes → List Bytes → Prop
  | drive : d ≠ 0 → d ≠ 47 → d ≠ 92 → Spells d [d, 58] []
  | name {p ns n} (s : UInt8) : Spells d p ns → s = 47 ∨ s = 92 → FileName n → Spells d (p ++ s :: n) (ns ++ [n])

/-- The same path with `\` only. -/
def winPath (d : UInt8) (ns : List Bytes) : Bytes := [d, 58] ++ ns.flatMap (92 :: ·)

/-- `p` leads to `ns` on drive `d`, perhaps starting with `\\?\`. -/
def Leads (d : UInt8) (p : Bytes) (ns : List Bytes) : Prop :=
  Spells d p ns ∨ ∃ q, p = b!"\\\\?\\" ++ q ∧ Spells d q ns

/-- The calls in `w` work as on a Windows machine that has the files `files`: paths with at most 259
characters are looked up, longer ones at least if they start with `\\?\` and have `\` only; `stat` tells the
size if the path has at most 259 characters, otherwise it may fail; sizes from 2^31 on need not be told. -/
structure OnWindows (w : WinFiles) (files : UInt8 → List Bytes → Option Bytes) : Prop where
  short : ∀ d p ns, Spells d p ns → p.length ≤ 259 → (w.fopen p).map (·.bytes) = files d ns
  long : ∀ d p ns, Leads d p ns → w.fopen p = none ∨ (w.fopen p).map (·.bytes) = files d ns
  extended : ∀ d p ns, Spells d p ns → (w.fopen (b!"\\\\?\\" ++ winPath d ns)).map (·.bytes) = files d ns
  whole : ∀ p f, w.fopen p = some f → f.ioError = none
  stat : ∀ d p ns x, Spells d p ns → p.length ≤ 259 → files d ns = some x → x.length < 2 ^ 31 →
    w.stat p = some x.length
  statRight : ∀ p f n, w.fopen p = some f → w.stat p = some n → n = f.bytes.length
  told : ∀ p f, w.fopen p = some f → f.bytes.length < 2 ^ 31 → f.endPos = some (f.bytes.length : Int)
  toldRight : ∀ p f n, w.fopen p = some f → f.endPos = some n → 0 < n → n = f.bytes.length

/-- As before Windows 10, and without `longPathAware` since: paths with more than 259 characters need the
prefix, with which `stat` cannot be called. -/
structure ShortPathsOnly (w : WinFiles) : Prop where
  fopen : ∀ p, 259 < p.length → p.take 4 ≠ b!"\\\\?\\" → w.fopen p = none
  stat : ∀ p, w.stat (b!"\\\\?\\" ++ p) = none

end Semla.Spec
