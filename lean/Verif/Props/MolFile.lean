import Verif.Lemmas.MolFile
import Verif.Spec.MolFile
import Verif.Props.PackWin
import Verif.Props.PackServe
import Verif.Props.Zip

/-!
# The package file on Windows: C89

Vocabulary is defined in `Verif/Spec/MolFile.lean`, the reader of ZIP archives in `Verif/Spec/Zip.lean`.
-/

namespace Semla.Props

open Semla Spec

theorem noHelp {args : List Bytes} (h : NoHelp args) : helpRequested args = false := by
  unfold helpRequested
  rw [List.any_eq_false]
  intro x hx
  simp only [Bool.or_eq_true, beq_iff_eq, not_or]
  exact ⟨fun he => h.1 (he ▸ hx), fun he => h.2 (he ▸ hx)⟩

theorem molCalls_room (m : MolEnv) (a : Archive) : archiveRoom m.deflate (molCalls m 0 a) = packageRoom m.deflate a := by
  unfold archiveRoom packageRoom
  have h := congrArg (List.map fun x : Bytes × Bytes => roomFor m.deflate x.1 x.2) (molCalls_files m a 0)
  simp only [List.map_map, Function.comp_def] at h
  rw [h]
  simp only [joinPath_eq]

theorem modelica_name {p : List Bytes} (h : ModelicaName (relPath p)) : ModelicaName (nameOf p) := by
  by_cases hp : p = []
  · subst hp
    exact h
  rw [← dropLast_nameOf hp, nameOf_append]
  rw [← dropLast_nameOf hp] at h
  by_cases hd : p.dropLast = []
  · rw [hd] at h
    exact h
  rw [relPath_snoc _ _ hd] at h
  obtain ⟨a, b, h1, h2⟩ := h
  have hb : (47 : UInt8) ∉ b := by
    intro hm
    have h3 := List.mem_map_of_mem (f := toLower) hm
    rw [beq_iff_eq.1 h2] at h3
    revert h3
    decide
  rcases List.append_eq_append_iff.1 h1 with ⟨c, h3, h4⟩ | ⟨c, h3, h4⟩
  · exact ⟨c, b, h4, h2⟩
  · rw [h4] at hb
    cases c with
    | nil => exact ⟨[], b, h4.symm, h2⟩
    | cons x c =>
      exfalso
      have := congrArg List.getLast? h3
      rw [List.getLast?_append, List.getLast?_append] at this
      simp only [List.getLast?_singleton, Option.some_or] at this
      have hx : (47 : UInt8) ∈ x :: c := by
        refine List.mem_of_getLast? ?_
        cases hg : (x :: c).getLast? with
        | none => simp at hg
        | some y =>
          rw [hg] at this
          simpa using this.symm
      exact hb (List.mem_append_left _ hx)

/-- **C89**, in full: if the tool reports success on Windows, a reader that checks every size and check sum gets
from the file `<library>.mol` exactly the files of the package.  This is false (`c89_full_not`). -/
def c89_full : Prop :=
  ∀ (inflate : Bytes → Option Bytes) (m : MolEnv) (w : PackWinEnv) (args : List Bytes) (file : Option Bytes),
    Restores inflate m.deflate → (∀ k, StatSmall (m.io k)) → (∀ p, w.env.zipAdds p = true) → NoHelp args →
    packMol m w args = .ok ⟨0, file⟩ →
    ∃ a f, packToolWin w args = .ok ⟨0, some a⟩ ∧ file = some f ∧ unzip inflate f = some (asZip a)

/-- **C89, partial.** If the tool reports success on Windows, whatever happened while it was reading, writing and
allocating, a reader that checks every size and check sum gets from the file `<library>.mol` exactly the files of the
package (those of C83) under their names, in their order, with their contents.

Missing for the full claim: a previous file that cannot be removed (`c89_previous_not`), archives of 2 GiB and more
(`c87_two_gigabytes_not`), the compressor, which is a parameter.  `zipAdds` is not used by `packMol`. -/
theorem c89_contents_partial (inflate : Bytes → Option Bytes) (m : MolEnv) (w : PackWinEnv) (args : List Bytes)
    (hc : Restores inflate m.deflate) (hst : ∀ k, StatSmall (m.io k)) (hz : ∀ p, w.env.zipAdds p = true)
    (hh : NoHelp args) (hold : OldGone m) (file : Option Bytes) (h : packMol m w args = .ok ⟨0, file⟩) :
    ∃ a, packToolWin w args = .ok ⟨0, some a⟩ ∧ (packageRoom m.deflate a < 2 ^ 31 →
      ∃ f, file = some f ∧ f.length = packageRoom m.deflate a ∧ unzip inflate f = some (asZip a)) := by
  obtain ⟨a, h1, hne, h2⟩ := packMol_ok hz (noHelp hh) h
  refine ⟨a, h1, fun hr => ?_⟩
  have hn : (if m.removed then none else m.previous) = none := by
    rcases hold with ho | ho
    · rw [ho]; split <;> rfl
    · rw [if_pos ho]
  rw [hn] at h2
  obtain ⟨f, g1, g2, g3⟩ := c87_archive_partial inflate m.deflate hc (molCalls m 0 a)
    (by
      intro he
      have := molCalls_length m a 0
      rw [he] at this
      exact hne (List.length_eq_zero_iff.1 this.symm))
    (fun x hx => by
      obtain ⟨⟨i, hi⟩, -⟩ := molCalls_mem hx
      rw [hi]
      exact hst i) (by rw [molCalls_room]; exact hr) file h2
  refine ⟨f, g1, by rw [g2, molCalls_room], ?_⟩
  rw [g3, molCalls_files]
  unfold asZip
  simp only [joinPath_eq]

/-- **C89, made, partial.** A package of fewer than 19280 files that takes less than 80 MB is made if the system does
what it is asked for.

Missing: larger packages, of which a few are refused (`c87_signature_not`). -/
theorem c89_made_partial (inflate : Bytes → Option Bytes) (m : MolEnv) (w : PackWinEnv) (args : List Bytes)
    (hc : Restores inflate m.deflate) (hi : inflate [] = none) (hio : ∀ k, StatSmall (m.io k) ∧ AllWell (m.io k))
    (hold : OldGone m) (a : Archive) (h : packToolWin w args = .ok ⟨0, some a⟩)
    (hn : ∀ e ∈ a, ArchiveName (relPath e.1) ∧ e.2.length < 2 ^ 32 - 1) (hcount : a.length < 19280)
    (hs : packageRoom m.deflate a < 80000000) : ∃ file, packMol m w args = .ok ⟨0, file⟩ := by
  have hn' : (if m.removed then none else m.previous) = none := by
    rcases hold with ho | ho
    · rw [ho]; split <;> rfl
    · rw [if_pos ho]
  have := c87_accepts_partial inflate m.deflate hc hi (molCalls m 0 a)
    (fun x hx => by
      obtain ⟨⟨i, hi⟩, -⟩ := molCalls_mem hx
      rw [hi]
      exact hio i)
    (fun x hx => by
      obtain ⟨-, e, he, hx⟩ := molCalls_mem hx
      rw [hx, joinPath_eq]
      exact hn e he) (by rw [molCalls_length]; exact hcount) (by rw [molCalls_room]; exact hs)
  refine ⟨(addFiles m.deflate (molCalls m 0 a) none).1, packMol_back h ?_⟩
  rw [hn', ← this]

/-- **C89, no sources, partial.** If encryption is asked for and the tool reports success, the reader gets no file
from the archive whose name ends with `.mo` in any letter case.

Missing: as for `c89_contents_partial`; a previous file that is not removed may have such files
(`c89_previous_not`). -/
theorem c89_no_source_partial (inflate : Bytes → Option Bytes) (m : MolEnv) (w : PackWinEnv) (args : List Bytes)
    (hc : Restores inflate m.deflate) (hst : ∀ k, StatSmall (m.io k)) (hz : ∀ p, w.env.zipAdds p = true)
    (hh : NoHelp args) (hold : OldGone m) (ps : List (Bytes × Bytes)) (hp : ArgPairs args ps) (he : AsksEncryption ps)
    (hroom : ∀ a, packToolWin w args = .ok ⟨0, some a⟩ → packageRoom m.deflate a < 2 ^ 31) (file : Option Bytes)
    (h : packMol m w args = .ok ⟨0, file⟩) :
    ∃ f es, file = some f ∧ unzip inflate f = some es ∧
      ∀ e ∈ es, ¬ ModelicaName e.1 := by
  obtain ⟨a, h1, h2⟩ := c89_contents_partial inflate m w args hc hst hz hh hold file h
  obtain ⟨f, g1, -, g3⟩ := h2 (hroom a h1)
  refine ⟨f, _, g1, g3, ?_⟩
  intro e hm
  obtain ⟨x, hx, rfl⟩ := List.mem_map.1 hm
  exact fun hm => c83_no_source w args _ h1 a rfl ps hp he x hx (modelica_name hm)

/-- **C89, complete, partial.** Every regular file of the library outside `.library` is among the files that the reader
gets: unchanged, or, if it is a Modelica file and encryption is on, as its encrypted twin.

Missing: as for `c89_contents_partial` and `c83_complete_partial`. -/
theorem c89_complete_partial (inflate : Bytes → Option Bytes) (m : MolEnv) (w : PackWinEnv) (lin : PackEnv)
    (args : List Bytes) (hc : Restores inflate m.deflate) (hst : ∀ k, StatSmall (m.io k))
    (hz : ∀ p, w.env.zipAdds p = true) (hh : NoHelp args) (hold : OldGone m)
    (hroom : ∀ a, packToolWin w args = .ok ⟨0, some a⟩ → packageRoom m.deflate a < 2 ^ 31) (file : Option Bytes)
    (h : packMol m w args = .ok ⟨0, file⟩) (ps : List (Bytes × Bytes))
    (path lib : Bytes) (hs : SamePlace w lin) (hp : ArgPairs args ps) (hpath : (b!"librarypath", path) ∈ ps)
    (hlib : LibraryName (withSlashes path) lib) (P : List Bytes → Prop) (hP : CaseApart w lib P)
    (hi : IconOnTop w P ps) (hn : NoPackageDirs w) (hstat : AllStat w) (l : Listing) (hl : w.env.library = some l)
    (content : List Bytes → Bytes) (hco : Copyable lin.librarySource l content) (ht : Truthful lin lib)
    (hpk : AsksEncryption ps → PlainPackages l ∧ GoodCrypto lin ∧ ∀ p, lin.canRead (lib :: p) = true) :
    ∃ f es, file = some f ∧ unzip inflate f = some es ∧ ∀ p, (p, Kind.file) ∈ entries l → Outside p →
      (AsksEncryption ps → ∀ q, IsSource l q → p ≠ twin q) →
      (¬ (AsksEncryption ps ∧ ModelicaName (nameOf p)) → (relPath (lib :: p), content p) ∈ es) ∧
      (AsksEncryption ps ∧ ModelicaName (nameOf p) → ∃ out, (relPath (lib :: twin p), out) ∈ es ∧ ∃ key stored,
        Encrypted lin.C key (key.take lin.keyLen) (lin.iv p) (content p ++ stored) out ∧
        (stored = [] ∨ stored = lin.mask p)) := by
  obtain ⟨a, h1, h2⟩ := c89_contents_partial inflate m w args hc hst hz hh hold file h
  obtain ⟨f, g1, -, g3⟩ := h2 (hroom a h1)
  refine ⟨f, _, g1, g3, fun p hf ho hclash => ?_⟩
  obtain ⟨k1, k2⟩ := c83_complete_partial w lin args ps path lib hs hp hpath hlib P hP hi hn hstat a h1 l hl content hco
    ht hpk p hf ho hclash
  refine ⟨fun hno => List.mem_map.2 ⟨_, k1 hno, rfl⟩, fun hyes => ?_⟩
  obtain ⟨out, k3, k4⟩ := k2 hyes
  exact ⟨out, List.mem_map.2 ⟨_, k3, rfl⟩, k4⟩

/-- The files of an archive that a tool can ask for have been unpacked: its directory `lib` is at `root`. -/
def UnpackedBut (l : Listing) (es : List (Bytes × Bytes)) (lib root : Bytes) (w : World) : Prop :=
  ∀ p out, (relPath (lib :: p), out) ∈ es → Askable l p → Spec.Holds w (root ++ b!"/" ++ relPath p) out

theorem unpacked_but {l : Listing} {es : List (Bytes × Bytes)} {lib root : Bytes} {w : World}
    (h : UnpackedAt es lib root w) : UnpackedBut l es lib root w := by
  intro p out hm hp
  cases p with
  | nil => exact absurd rfl hp.ne_nil
  | cons n p => exact h _ _ hm

/-- What `c89_served_partial` and `c90_served_partial` share. -/
theorem mol_serves (inflate : Bytes → Option Bytes) (m : MolEnv) (w : PackWinEnv) (lin : PackEnv)
    (args : List Bytes) (hz : Restores inflate m.deflate) (hst : ∀ k, StatSmall (m.io k))
    (hadds : ∀ p, w.env.zipAdds p = true) (hh : NoHelp args) (hold : OldGone m)
    (hroom : ∀ a, packToolWin w args = .ok ⟨0, some a⟩ → packageRoom m.deflate a < 2 ^ 31) (file : Option Bytes)
    (h : packMol m w args = .ok ⟨0, file⟩) (ps : List (Bytes × Bytes))
    (path lib : Bytes) (hs : SamePlace w lin) (hp : ArgPairs args ps) (he : AsksEncryption ps)
    (hpath : (b!"librarypath", path) ∈ ps) (hlib : LibraryName (withSlashes path) lib) (P : List Bytes → Prop)
    (hP : CaseApart w lib P) (hi : IconOnTop w P ps) (hnd : NoPackageDirs w) (hstat : AllStat w) (l : Listing)
    (hl : w.env.library = some l) (content : List Bytes → Bytes) (hc : Copyable lin.librarySource l content)
    (ht : Truthful lin lib) (hg : GoodCrypto lin) (hr : ∀ p, lin.canRead (lib :: p) = true) (hx : PlainExtras lin)
    (hpk : PlainPackages l) (hn : NamesOk l) (hall : PackagesEverywhere l content)
    {conf : LveConf} (hsame : SameKey lin conf) {dir root : Bytes} (hroot : IsRootOf dir root)
    (hnul : (0 : UInt8) ∉ dir) (hdl : dir.length ≤ 16000)
    (hsize : ∀ p, IsSource l p → root.length + 1 + (relPath (p.dropLast ++ [b!"package.moc"])).length < 4096 ∧
      (content p).length + 96 < 2 ^ 31)
    (hlic : Licensed conf root) {key : Bytes} (hkey : key ∈ conf.trusted) (hk0 : (0 : UInt8) ∉ key)
    (hks : ∀ t ∈ conf.trusted, (0 : UInt8) ∉ t) {minV maxV : Int} (hmin : minV ≤ 1) (hmax : 1 ≤ maxV)
    (hint : maxV < 2 ^ 31) :
    ∃ f es, file = some f ∧ unzip inflate f = some es ∧ ∀ (w0 w1 : World) (reqs : List (World × Bytes × Bytes)),
      Ample w0 → UnpackedBut l es lib root w0 → Ample w1 → UnpackedBut l es lib root w1 → w1.stat root = some true →
      (∀ q ∈ reqs, Ample q.1 ∧ UnpackedBut l es lib root q.1 ∧ q.2.1.length ≤ 16000 ∧
        InLibrary l content q.2.1 q.2.2) →
      GetsAll conf key minV maxV dir w0 w1 reqs := by
  obtain ⟨a, h1, h2⟩ := c89_contents_partial inflate m w args hz hst hadds hh hold file h
  obtain ⟨f, g1, -, g3⟩ := h2 (hroom a h1)
  obtain ⟨a', k1, k2⟩ := c83_same_partial w lin args ps path lib hs hp hpath hlib P hP hi hnd hstat a h1
  have hpath' : (b!"librarypath", withSlashes path) ∈ slashPairs ps :=
    List.mem_map.2 ⟨_, hpath, by simp [slashValue, withSlashes_eq]⟩
  have hask : AsksEncryption (slashPairs ps) := by
    obtain ⟨v, h3, h4⟩ := he
    exact ⟨v, List.mem_map.2 ⟨_, h3, rfl⟩, h4⟩
  have hbut : ∀ w', UnpackedBut l (asZip a) lib root w' → InstalledBut l a' lib root w' := by
    intro w' hu p out hm hp
    refine hu _ _ (List.mem_map.2 ⟨(lib :: p, out), ?_, rfl⟩) hp
    rw [k2]
    refine List.mem_map.2 ⟨_, hm, ?_⟩
    unfold winFile
    rw [if_neg]
    intro hx
    injection hx with _ hx
    exact hp.ne_manifest hx
  refine ⟨f, _, g1, g3, fun w0 w1 reqs hw0 hu0 hw1 hu1 hdir hreqs => ?_⟩
  exact installed_serves lin (slashArgs args) a' k1 (slashPairs ps) (argPairs_slash hp) hask (withSlashes path) lib hpath'
    hlib l (by rw [hs.library, hl]) content hc ht hg hr hx hpk hn hall hsame hroot hnul hdl hsize hlic hkey hk0 hks hmin
    hmax hint hw0 (hbut _ hu0) hw1 (hbut _ hu1) hdir fun q hq =>
      ⟨(hreqs q hq).1, hbut _ (hreqs q hq).2.1, (hreqs q hq).2.2⟩

/-- **C89, all the way, partial.** A library is packaged with encryption on Windows, and what the reader gets from the
file `<library>.mol` is unpacked somewhere, but for the manifest perhaps.  A tool whose key is trusted by the vendor
executable starts it, opens the library at that place, there being a license, and asks for any files of the library,
any number of times and in any order.  Then it gets exactly the texts of the Modelica files and the contents of the
other files that the vendor packaged.

Missing: as for `c89_contents_partial`, `c83_same_partial` and `c70_partial`. -/
theorem c89_served_partial (inflate : Bytes → Option Bytes) (m : MolEnv) (w : PackWinEnv) (lin : PackEnv)
    (args : List Bytes) (hz : Restores inflate m.deflate) (hst : ∀ k, StatSmall (m.io k))
    (hadds : ∀ p, w.env.zipAdds p = true) (hh : NoHelp args) (hold : OldGone m)
    (hroom : ∀ a, packToolWin w args = .ok ⟨0, some a⟩ → packageRoom m.deflate a < 2 ^ 31) (file : Option Bytes)
    (h : packMol m w args = .ok ⟨0, file⟩) (ps : List (Bytes × Bytes))
    (path lib : Bytes) (hs : SamePlace w lin) (hp : ArgPairs args ps) (he : AsksEncryption ps)
    (hpath : (b!"librarypath", path) ∈ ps) (hlib : LibraryName (withSlashes path) lib) (P : List Bytes → Prop)
    (hP : CaseApart w lib P) (hi : IconOnTop w P ps) (hnd : NoPackageDirs w) (hstat : AllStat w) (l : Listing)
    (hl : w.env.library = some l) (content : List Bytes → Bytes) (hc : Copyable lin.librarySource l content)
    (ht : Truthful lin lib) (hg : GoodCrypto lin) (hr : ∀ p, lin.canRead (lib :: p) = true) (hx : PlainExtras lin)
    (hpk : PlainPackages l) (hn : NamesOk l) (hall : PackagesEverywhere l content)
    {conf : LveConf} (hsame : SameKey lin conf) {dir root : Bytes} (hroot : IsRootOf dir root)
    (hnul : (0 : UInt8) ∉ dir) (hdl : dir.length ≤ 16000)
    (hsize : ∀ p, IsSource l p → root.length + 1 + (relPath (p.dropLast ++ [b!"package.moc"])).length < 4096 ∧
      (content p).length + 96 < 2 ^ 31)
    (hlic : Licensed conf root) {key : Bytes} (hkey : key ∈ conf.trusted) (hk0 : (0 : UInt8) ∉ key)
    (hks : ∀ t ∈ conf.trusted, (0 : UInt8) ∉ t) {minV maxV : Int} (hmin : minV ≤ 1) (hmax : 1 ≤ maxV)
    (hint : maxV < 2 ^ 31) :
    ∃ f es, file = some f ∧ unzip inflate f = some es ∧ ∀ (w0 w1 : World) (reqs : List (World × Bytes × Bytes)),
      Ample w0 → UnpackedAt es lib root w0 → Ample w1 → UnpackedAt es lib root w1 → w1.stat root = some true →
      (∀ q ∈ reqs, Ample q.1 ∧ UnpackedAt es lib root q.1 ∧ q.2.1.length ≤ 16000 ∧
        InLibrary l content q.2.1 q.2.2) →
      GetsAll conf key minV maxV dir w0 w1 reqs := by
  obtain ⟨f, es, h1, h2, h3⟩ := mol_serves inflate m w lin args hz hst hadds hh hold hroom file h ps path lib hs hp he
    hpath hlib P hP hi hnd hstat l hl content hc ht hg hr hx hpk hn hall hsame hroot hnul hdl hsize hlic hkey hk0 hks hmin
    hmax hint
  exact ⟨f, es, h1, h2, fun w0 w1 reqs hw0 hu0 hw1 hu1 hdir hreqs => h3 w0 w1 reqs hw0 (unpacked_but hu0) hw1
    (unpacked_but hu1) hdir fun q hq => ⟨(hreqs q hq).1, unpacked_but (hreqs q hq).2.1, (hreqs q hq).2.2⟩⟩

/-! ## Cases -/

/-- A system on which everything works, with a previous file. -/
def toyMol (previous : Option Bytes) (removed : Bool) : MolEnv := ⟨toyDeflate, fun _ => wellIo, previous, removed⟩

/-- A library of two files. -/
def molLib : Listing := .file b!"x.mo" (.file b!"package.mo" .done)

/-- Its package. -/
def molPackage (encrypt : Bytes) : Archive :=
  match packToolWin (winMachine molLib) (winCommand encrypt) with
  | .ok ⟨_, some a⟩ => a
  | _ => []

theorem mol_package (encrypt : Bytes) (h : encrypt = b!"True" ∨ encrypt = b!"no") :
    packToolWin (winMachine molLib) (winCommand encrypt) = .ok ⟨0, some (molPackage encrypt)⟩ := by
  rcases h with rfl | rfl <;> rfl

/-- Names that may stand in an archive, decided. -/
theorem archiveName_of {n : Bytes} (h : n.length ≤ 65535 ∧ 92 ∉ n ∧ 58 ∉ n ∧ n.head? ≠ some 47 ∧ n.getLast? ≠ some 47) :
    ArchiveName n :=
  ⟨h.1, h.2.1, h.2.2.1, fun r hr => h.2.2.2.1 (by rw [hr]; rfl), fun r hr => h.2.2.2.2 (by rw [hr]; simp)⟩

theorem mol_facts (encrypt : Bytes) (h : encrypt = b!"True" ∨ encrypt = b!"no") :
    (∀ e ∈ molPackage encrypt, ArchiveName (relPath e.1) ∧ e.2.length < 2 ^ 32 - 1) ∧
      (molPackage encrypt).length < 100 ∧ packageRoom toyDeflate (molPackage encrypt) < 10000 := by
  have : (∀ e ∈ molPackage encrypt, ((relPath e.1).length ≤ 65535 ∧ 92 ∉ relPath e.1 ∧ 58 ∉ relPath e.1 ∧
      (relPath e.1).head? ≠ some 47 ∧ (relPath e.1).getLast? ≠ some 47) ∧ e.2.length < 2 ^ 32 - 1) ∧
      (molPackage encrypt).length < 100 ∧ packageRoom toyDeflate (molPackage encrypt) < 10000 := by
    rcases h with rfl | rfl <;> decide +kernel
  exact ⟨fun e he => ⟨archiveName_of (this.1 e he).1, (this.1 e he).2⟩, this.2⟩

theorem mol_made (encrypt : Bytes) (h : encrypt = b!"True" ∨ encrypt = b!"no") (old : Option Bytes) :
    ∃ file, packMol (toyMol old true) (winMachine molLib) (winCommand encrypt) = .ok ⟨0, file⟩ :=
  c89_made_partial toyInflate _ _ _ toy_restores rfl (fun _ => wellIo_well.symm) (Or.inr rfl) _ (mol_package encrypt h)
    (mol_facts encrypt h).1 (Nat.lt_trans (mol_facts encrypt h).2.1 (by decide))
    (Nat.lt_trans (mol_facts encrypt h).2.2 (by decide))

/-- The package of the sample library is made, and the reader gets its files. -/
example : ∃ f, packMol (toyMol (some b!"old") true) (winMachine molLib) (winCommand b!"True") = .ok ⟨0, some f⟩ ∧
    (unzip toyInflate f).map (fun es => es.map (·.1)) = some [b!"Lib/x.moc", b!"Lib/package.moc",
      b!"Lib/.library/manifest.xml", b!"Lib/.library/lve_linux64"] := by
  obtain ⟨file, h⟩ := mol_made b!"True" (Or.inl rfl) (some b!"old")
  obtain ⟨a, h1, h2⟩ := c89_contents_partial toyInflate _ _ _ toy_restores (fun _ => wellIo_well.2) (fun _ => rfl)
    (by unfold NoHelp; decide) (Or.inr rfl) file h
  rw [mol_package _ (Or.inl rfl)] at h1
  simp only [Res.ok.injEq, PackResult.mk.injEq, Option.some.injEq, true_and] at h1
  subst h1
  obtain ⟨f, rfl, -, h3⟩ := h2 (Nat.lt_trans (mol_facts _ (Or.inl rfl)).2.2 (by decide))
  refine ⟨f, h, ?_⟩
  rw [h3]
  decide +kernel

/-- No source texts in it. -/
example (file : Option Bytes)
    (h : packMol (toyMol (some b!"old") true) (winMachine molLib) (winCommand b!"True") = .ok ⟨0, file⟩) :
    ∃ f es, file = some f ∧ unzip toyInflate f = some es ∧
      ∀ e ∈ es, ¬ ModelicaName e.1 :=
  c89_no_source_partial toyInflate _ _ _ toy_restores (fun _ => wellIo_well.2) (fun _ => rfl) (by unfold NoHelp; decide)
    (Or.inr rfl) _ (win_pairs b!"True" (by decide)) ⟨b!"True", by decide, by decide⟩ (fun a ha => by
      rw [mol_package _ (Or.inl rfl)] at ha
      simp only [Res.ok.injEq, PackResult.mk.injEq, Option.some.injEq, true_and] at ha
      subst ha
      exact Nat.lt_trans (mol_facts _ (Or.inl rfl)).2.2 (by decide)) file h

/-- The package of the library with an icon. -/
def iconPackage : Archive :=
  match packToolWin iconWin (iconArgs b!"True") with
  | .ok ⟨_, some a⟩ => a
  | _ => []

theorem icon_package : packToolWin iconWin (iconArgs b!"True") = .ok ⟨0, some iconPackage⟩ := rfl

theorem icon_room (a : Archive) (h : packToolWin iconWin (iconArgs b!"True") = .ok ⟨0, some a⟩) :
    packageRoom toyDeflate a < 2 ^ 31 := by
  rw [icon_package] at h
  simp only [Res.ok.injEq, PackResult.mk.injEq, Option.some.injEq, true_and] at h
  subst h
  decide +kernel

theorem icon_everywhere : PackagesEverywhere winIconLib (fun p => b!"text of " ++ relPath p) := by
  intro p hp ds hds
  have h1 : ∀ e ∈ entries winIconLib, Outside e.1 → e.1.dropLast.length < 3 ∧ ∀ n : Fin 3,
      (e.1.dropLast.take n ++ [b!"package.mo"], Kind.file) ∈ entries winIconLib := by decide +kernel
  obtain ⟨h2, h3⟩ := h1 _ hp.1 hp.2.1
  have h4 := List.prefix_iff_eq_take.1 hds
  have h5 := h3 ⟨ds.length, Nat.lt_of_le_of_lt hds.length_le h2⟩
  rw [← h4] at h5
  exact ⟨h5, by simp⟩

/-- Names that are not those of Modelica files, decided. -/
theorem notModelica_of {n : Bytes} (h : (n.drop (n.length - 3)).map toLower ≠ b!".mo") : ¬ ModelicaName n := by
  rintro ⟨a, b, rfl, hmo⟩
  have hl : b.length = 3 := by
    have := congrArg List.length (beq_iff_eq.1 hmo)
    simpa using this
  rw [List.length_append, hl, Nat.add_sub_cancel, List.drop_left] at h
  exact h (beq_iff_eq.1 hmo)

theorem icon_crypto : GoodCrypto iconLin :=
  ⟨toy_good, by simp [iconLin, linMachine, sampleMachine], by simp [iconLin, linMachine, sampleMachine],
    fun _ => by simp [iconLin, linMachine, sampleMachine, toyIv],
    fun p => by simp [iconLin, linMachine, sampleMachine, toyMask]⟩

/-- All files of the library with an icon are in the file. -/
example (file : Option Bytes) (h : packMol (toyMol none true) iconWin (iconArgs b!"True") = .ok ⟨0, file⟩) :
    ∃ f es, file = some f ∧ unzip toyInflate f = some es ∧ (b!"Lib/i.png", b!"text of i.png") ∈ es := by
  obtain ⟨f, es, h1, h2, h3⟩ := c89_complete_partial toyInflate _ iconWin iconLin _ toy_restores (fun _ => wellIo_well.2)
    (fun _ => rfl) (by unfold NoHelp; decide) (Or.inl rfl) icon_room file h _ _ _ icon_place win_icon_pairs (by decide)
    win_name _ icon_apart (icon_top _) icon_dirs icon_stat winIconLib rfl (fun p => b!"text of " ++ relPath p)
    (sample_copyable winIconLib (by decide +kernel) (by decide +kernel)) icon_truthful
    (fun _ => ⟨by unfold PlainPackages; decide +kernel, icon_crypto, fun _ => rfl⟩)
  refine ⟨f, es, h1, h2, (h3 [b!"i.png"] (by decide +kernel) (by decide) ?_).1 ?_⟩
  · have h1 : ∀ e ∈ entries winIconLib, ∀ f ∈ entries winIconLib, f.1 ≠ twin e.1 := by decide +kernel
    exact fun _ q hq => h1 _ hq.1 ([b!"i.png"], Kind.file) (by decide +kernel)
  · exact fun hx => notModelica_of (n := b!"i.png") (by decide) hx.2

/-- The files of the package at `/opt/Lib`. -/
def iconInstalled : World := roomy ((asZip iconPackage).map fun e => (b!"/opt/" ++ e.1, e.2)) [b!"/opt/Lib"]

theorem iconInstalled_at : UnpackedAt (asZip iconPackage) b!"Lib" b!"/opt/Lib" iconInstalled := by
  have : ∀ e ∈ asZip iconPackage,
      iconInstalled.files (b!"/opt/Lib" ++ b!"/" ++ e.1.drop 4) = .stream e.2.length e.2 none := by decide +kernel
  intro r out h
  exact ⟨_, _, _, this _ h, by simp, Or.inl rfl⟩

/-- All the way: a Modelica file of the library packaged on Windows, served on Linux. -/
example (file : Option Bytes) (h : packMol (toyMol none true) iconWin (iconArgs b!"True") = .ok ⟨0, file⟩) :
    GetsAll (toyConf [b!"k"] (some b!"G") generous) b!"k" 1 2 b!"/opt/Lib/" iconInstalled iconInstalled
      [(iconInstalled, b!"A/y.MOc", b!"text of A/y.MO")] := by
  obtain ⟨f, es, rfl, h2, h3⟩ := c89_served_partial toyInflate _ iconWin iconLin _ toy_restores (fun _ => wellIo_well.2)
    (fun _ => rfl) (by unfold NoHelp; decide) (Or.inl rfl) icon_room file h _ _ _ icon_place win_icon_pairs
    ⟨b!"True", by decide, by decide⟩ (by decide)
    win_name _ icon_apart (icon_top _) icon_dirs icon_stat winIconLib rfl (fun p => b!"text of " ++ relPath p)
    (sample_copyable winIconLib (by decide +kernel) (by decide +kernel)) icon_truthful icon_crypto (fun _ => rfl)
    (by
      intro l hl
      simp only [iconLin, Option.some.injEq] at hl
      subst hl
      intro e he
      simp only [entries, List.mem_cons, List.not_mem_nil, or_false] at he
      subst he
      exact notModelica_of (n := b!"r.txt") (by decide))
    (by unfold PlainPackages; decide +kernel) (by unfold NamesOk IsName; decide +kernel) icon_everywhere
    (conf := toyConf [b!"k"] (some b!"G") generous) (dir := b!"/opt/Lib/") (key := b!"k") (minV := 1) (maxV := 2)
    ⟨rfl, rfl, rfl⟩ (root := b!"/opt/Lib") ⟨b!"/", by decide, by
      intro b hb; simp at hb; subst hb; exact Or.inl rfl, by decide, Or.inr (by
      intro b hb; simp at hb; subst hb; unfold IsSep; decide)⟩ (by decide) (by decide)
    (by
      have : ∀ e ∈ entries winIconLib, b!"/opt/Lib".length + 1 +
        (relPath (e.1.dropLast ++ [b!"package.moc"])).length < 4096 ∧
        (b!"text of " ++ relPath e.1).length + 96 < 2 ^ 31 := by decide +kernel
      exact fun p hp => this _ hp.1)
    (Or.inr ⟨b!"G", rfl, rfl, rfl⟩) (by decide) (by decide) (by decide) (by decide) (by decide) (by decide)
  obtain ⟨a, k1, k2⟩ := c89_contents_partial toyInflate _ _ _ toy_restores (fun _ => wellIo_well.2) (fun _ => rfl)
    (by unfold NoHelp; decide) (Or.inl rfl) _ h
  obtain ⟨f', k3, -, k4⟩ := k2 (icon_room a k1)
  rw [icon_package] at k1
  simp only [Res.ok.injEq, PackResult.mk.injEq, Option.some.injEq, true_and] at k1 k3
  subst k1 k3
  rw [h2] at k4
  cases k4
  refine h3 _ _ _ (roomy_ample _ _) iconInstalled_at (roomy_ample _ _) iconInstalled_at (by decide +kernel) ?_
  intro q hq
  simp only [List.mem_cons, List.not_mem_nil, or_false] at hq
  subst hq
  refine ⟨roomy_ample _ _, iconInstalled_at, by decide, ?_⟩
  exact .source (p := [b!"A", b!"y.MO"]) ⟨by decide +kernel, by decide, ⟨b!"y", b!".MO", rfl, by decide⟩⟩

/-! ## Where it does not hold -/

/-- **C89, the other side.** If a previous package is not removed, its files stay: the reader gets them, followed by
those of the new package, although the tool reports success. -/
theorem c89_appends (inflate : Bytes → Option Bytes) (m m' : MolEnv) (w w' : PackWinEnv) (args args' : List Bytes)
    (hc : Restores inflate m.deflate) (hd : m'.deflate = m.deflate)
    (hst : ∀ k, StatSmall (m.io k) ∧ StatSmall (m'.io k)) (hz : ∀ p, w.env.zipAdds p = true ∧ w'.env.zipAdds p = true)
    (hh : NoHelp args ∧ NoHelp args') (hold : OldGone m) (file file' : Option Bytes)
    (h : packMol m w args = .ok ⟨0, file⟩) (hprev : m'.previous = file) (hrem : m'.removed = false)
    (h' : packMol m' w' args' = .ok ⟨0, file'⟩) :
    ∃ a a', packToolWin w args = .ok ⟨0, some a⟩ ∧ packToolWin w' args' = .ok ⟨0, some a'⟩ ∧
      (packageRoom m.deflate (a ++ a') < 2 ^ 31 →
        ∃ f, file' = some f ∧ unzip inflate f = some (asZip a ++ asZip a')) := by
  obtain ⟨a, h1, hne, h2⟩ := packMol_ok (fun p => (hz p).1) (noHelp hh.1) h
  obtain ⟨a', k1, -, k2⟩ := packMol_ok (fun p => (hz p).2) (noHelp hh.2) h'
  refine ⟨a, a', h1, k1, fun hr => ?_⟩
  have hn : (if m.removed then none else m.previous) = none := by
    rcases hold with ho | ho
    · rw [ho]; split <;> rfl
    · rw [if_pos ho]
  rw [hn] at h2
  rw [hrem, if_neg (by decide), hprev, hd] at k2
  have hall : addFiles m.deflate (molCalls m 0 a ++ molCalls m' 0 a') none = (file', true) := by
    rw [addFiles_append, h2]
    exact k2
  have hroom : archiveRoom m.deflate (molCalls m 0 a ++ molCalls m' 0 a') = packageRoom m.deflate (a ++ a') := by
    have e1 := molCalls_room m a
    have e2 := molCalls_room m' a'
    rw [hd] at e2
    unfold archiveRoom packageRoom at e1 e2 ⊢
    rw [List.map_append, List.map_append, List.sum_append, List.sum_append]
    omega
  obtain ⟨f, g1, -, g3⟩ := c87_archive_partial inflate m.deflate hc (molCalls m 0 a ++ molCalls m' 0 a')
    (by
      intro he
      have := molCalls_length m a 0
      rw [(List.append_eq_nil_iff.1 he).1] at this
      exact hne (List.length_eq_zero_iff.1 this.symm))
    (fun x hx => by
      rcases List.mem_append.1 hx with hx | hx <;> obtain ⟨⟨i, hi⟩, -⟩ := molCalls_mem hx <;> rw [hi]
      · exact (hst i).1
      · exact (hst i).2) (by rw [hroom]; exact hr) file' hall
  refine ⟨f, g1, ?_⟩
  rw [g3, List.map_append, molCalls_files, molCalls_files]
  unfold asZip
  simp only [joinPath_eq]

/-- **C89, the other side.** The vendor packages a library without encryption first and with encryption afterwards; the
first package cannot be removed, for instance because another program has it open.  Both runs report success.  The
package that is said to be encrypted has the source texts. -/
theorem c89_previous_not : ∃ old f, packMol (toyMol none true) (winMachine molLib) (winCommand b!"no") = .ok ⟨0, old⟩ ∧
    packMol (toyMol old false) (winMachine molLib) (winCommand b!"True") = .ok ⟨0, some f⟩ ∧
    AsksEncryption (winPairs b!"True") ∧
    ∃ es, unzip toyInflate f = some es ∧ (b!"Lib/x.mo", b!"text of x.mo") ∈ es := by
  obtain ⟨old, h⟩ := mol_made b!"no" (Or.inr rfl) none
  have hp := mol_package b!"True" (Or.inl rfl)
  have hq := mol_package b!"no" (Or.inr rfl)
  obtain ⟨f1, f2, f3⟩ := mol_facts b!"True" (Or.inl rfl)
  obtain ⟨q1, q2, q3⟩ := mol_facts b!"no" (Or.inr rfl)
  -- the second run succeeds
  obtain ⟨a, h1, -, h2⟩ := packMol_ok (fun _ => rfl) (by decide) h
  rw [hq] at h1
  simp only [Res.ok.injEq, PackResult.mk.injEq, Option.some.injEq, true_and] at h1
  subst h1
  have hroom : packageRoom toyDeflate (molPackage b!"no" ++ molPackage b!"True") < 20000 := by
    unfold packageRoom at f3 q3 ⊢
    rw [List.map_append, List.sum_append]
    omega
  have hr : archiveRoom toyDeflate (molCalls (toyMol none true) 0 (molPackage b!"no") ++
      molCalls (toyMol old false) 0 (molPackage b!"True")) < 80000000 := by
    have e1 := molCalls_room (toyMol none true) (molPackage b!"no")
    have e2 := molCalls_room (toyMol old false) (molPackage b!"True")
    simp only [toyMol] at e1 e2
    unfold archiveRoom packageRoom at e1 e2
    unfold archiveRoom
    unfold packageRoom at f3 q3
    rw [List.map_append, List.sum_append]
    simp only [toyMol]
    omega
  have hok := c87_accepts_partial toyInflate toyDeflate toy_restores rfl
    (molCalls (toyMol none true) 0 (molPackage b!"no") ++ molCalls (toyMol old false) 0 (molPackage b!"True"))
    (fun x hx => by
      rcases List.mem_append.1 hx with hx | hx <;> obtain ⟨⟨i, hi⟩, -⟩ := molCalls_mem hx <;> rw [hi] <;>
        exact wellIo_well.symm)
    (fun x hx => by
      rcases List.mem_append.1 hx with hx | hx <;> obtain ⟨-, e, he, hx⟩ := molCalls_mem hx <;> rw [hx, joinPath_eq]
      · exact q1 e he
      · exact f1 e he) (by
      rw [List.length_append, molCalls_length, molCalls_length]
      omega) hr
  have h2' : addFiles toyDeflate (molCalls (toyMol none true) 0 (molPackage b!"no")) none = (old, true) := h2
  rw [addFiles_append, h2', if_pos rfl] at hok
  have hsec : packMol (toyMol old false) (winMachine molLib) (winCommand b!"True") =
      .ok ⟨0, (addFiles toyDeflate (molCalls (toyMol old false) 0 (molPackage b!"True")) old).1⟩ := by
    refine packMol_back hp ?_
    show addFiles toyDeflate _ old = _
    rw [← hok]
  obtain ⟨a, a', k1, k2, k3⟩ := c89_appends toyInflate (toyMol none true) (toyMol old false) (winMachine molLib)
    (winMachine molLib) _ _ toy_restores rfl (fun _ => ⟨wellIo_well.2, wellIo_well.2⟩) (fun _ => ⟨rfl, rfl⟩)
    (by unfold NoHelp; decide) (Or.inl rfl) old _ h rfl rfl hsec
  rw [hq] at k1
  rw [hp] at k2
  simp only [Res.ok.injEq, PackResult.mk.injEq, Option.some.injEq, true_and] at k1 k2
  subst k1 k2
  obtain ⟨f, g1, g2⟩ := k3 (Nat.lt_trans hroom (by decide))
  refine ⟨old, f, h, by rw [hsec, g1], ⟨b!"True", by decide, by decide⟩, _, g2, List.mem_append_left _ ?_⟩
  have : (b!"Lib/x.mo", b!"text of x.mo") ∈ asZip (molPackage b!"no") := by decide +kernel
  exact this

/-- The full claim is false. -/
theorem c89_full_not : ¬ c89_full := by
  intro hf
  obtain ⟨old, f, -, h, -, es, h2, h3⟩ := c89_previous_not
  obtain ⟨a, f', k1, k2, k3⟩ := hf toyInflate _ _ _ _ toy_restores (fun _ => wellIo_well.2) (fun _ => rfl)
    (by unfold NoHelp; decide) h
  rw [mol_package _ (Or.inl rfl)] at k1
  simp only [Res.ok.injEq, PackResult.mk.injEq, Option.some.injEq, true_and] at k1 k2
  subst k1 k2
  rw [k3] at h2
  cases h2
  revert h3
  decide +kernel

end Semla.Props
