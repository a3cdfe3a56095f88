import Verif.Spec.LveWin
import Verif.Props.WinFiles
import Verif.Props.MolFile

/-!
# C90: the vendor executable on Windows
-/

namespace Semla.Props

open Semla Semla.Spec

theorem readStreamWin_failed {w : WinFiles} {p : Bytes} {f : WinStream} {e : Option Err}
    (h : readStreamWin w p f = .failed e) : ∃ t, e = errorNew w.malloc 1 1 t := by
  unfold readStreamWin at h
  dsimp only at h
  split at h
  · rw [ReadFile.failed.injEq] at h
    exact ⟨_, h.symm⟩
  · split at h
    · split at h
      · split at h
        · rw [ReadFile.failed.injEq] at h
          exact ⟨_, h.symm⟩
        · cases h
      · cases h
    · rw [ReadFile.failed.injEq] at h
      exact ⟨_, h.symm⟩

/-- The function of the model of the executable reads files as on Windows. -/
theorem c90_reads (m : WinMachine) (hm : ∀ n, m.files.malloc n = true) (p : Bytes) :
    readFileWin m.files p = .ok (readFile m.world p) := by
  have hn : ∀ t, errorNew m.files.malloc 1 1 t = some ⟨1, 1, some (snprintf defaultMsgSize t)⟩ := by
    intro t; simp [errorNew, hm _]
  have hs : ∀ t, snprintf defaultMsgSize (snprintf defaultMsgSize t) = snprintf defaultMsgSize t := by
    intro t; simp [snprintf, List.take_take]
  have hf : ∀ {e}, readFileWin m.files p = .ok (.failed e) → ∃ t, e = errorNew m.files.malloc 1 1 t := by
    intro e h
    unfold readFileWin at h
    split at h
    · rw [Res.ok.injEq] at h
      exact readStreamWin_failed h
    · split at h
      · simp only [Res.ok.injEq, ReadFile.failed.injEq] at h
        exact ⟨_, h.symm⟩
      · obtain ⟨q, -, h⟩ := Res.bind_eq_ok.1 h
        split at h
        · simp only [Res.ok.injEq, ReadFile.failed.injEq] at h
          exact ⟨_, h.symm⟩
        · rw [Res.ok.injEq] at h
          exact readStreamWin_failed h
  unfold readFile WinMachine.world WinFiles.observe
  dsimp only
  obtain ⟨r, hr⟩ := c84_safe m.files p
  rw [hr]
  cases r with
  | contents x => simp [hm]
  | failed e =>
    obtain ⟨t, rfl⟩ := hf hr
    simp only [hn, Option.getD_some, hs]

/-- A path into a directory. -/
theorem spells_relPath {d : UInt8} {root : Bytes} {dirs : List Bytes} (hr : Spells d root dirs) (p : List Bytes)
    (hp : p ≠ []) (hn : ∀ n ∈ p, FileName n) : Spells d (root ++ b!"/" ++ relPath p) (dirs ++ p) := by
  induction p generalizing root dirs with
  | nil => exact absurd rfl hp
  | cons n p ih =>
    have h1 : Spells d (root ++ b!"/" ++ n) (dirs ++ [n]) := by
      have := Spells.name 47 hr (Or.inl rfl) (hn n (by simp))
      simpa using this
    cases p with
    | nil => exact h1
    | cons k p =>
      have := ih h1 (by simp) fun x hx => hn x (by simp [hx])
      simpa [relPath] using this

theorem onWindows_holds {m : WinMachine} {files : UInt8 → List Bytes → Option Bytes} (hm : RunsOn m files) {d : UInt8}
    {p : Bytes} {ns : List Bytes} (hp : Spells d p ns) {x : Bytes} (hx : files d ns = some x)
    (hl : p.length ≤ 4092) (hsize : x.length < 2 ^ 31) (hne : p.length ≤ 259 ∨ x ≠ []) : Spec.Holds m.world p x := by
  have h := c84_reads_partial m.files files hm.system d p ns (Or.inl hp) x hx hl hsize (hm.memory _)
    (hne.imp (fun h => ⟨hp, h⟩) id)
  refine ⟨x.length, x, none, ?_, by simp, Or.inl rfl⟩
  simp only [WinMachine.world, WinFiles.observe, h]

theorem onWindows_unreadable {m : WinMachine} {p : Bytes} (h : ∀ x, readFileWin m.files p ≠ .ok (.contents x)) :
    Unreadable m.world p := by
  obtain ⟨r, hr⟩ := c84_safe m.files p
  cases r with
  | contents x => exact absurd hr (h x)
  | failed e =>
    cases e with
    | none => exact ⟨[], Or.inr (Or.inr (Or.inl (by simp only [WinMachine.world, WinFiles.observe, hr])))⟩
    | some e => exact ⟨e.message.getD [], Or.inr (Or.inr (Or.inl (by simp only [WinMachine.world, WinFiles.observe, hr])))⟩

/-- **C90, plain files.** In any session on Windows with an approved tool and a library in directory `root`, FILE p is
answered by exactly the contents of the file that p leads to there, if it is not an encrypted file.

Missing for the full claim: empty files and files with long paths or 2^31 bytes (`c90_full_not`). -/
theorem c90_plain_partial {conf : LveConf} {k : Option Bytes} {turns : List (World × Bytes)} {st : LveSt}
    {replies : List (List Bytes)} (hses : Session conf k turns st replies) (ha : st.approved = true) {root : Bytes}
    (hl : st.libpath = some root) {m : WinMachine} {files : UInt8 → List Bytes → Option Bytes} (hm : RunsOn m files)
    {msg p content : Bytes} (hc : Carries msg .file p) (hn : ¬ IsMoc p) {d : UInt8} {ns : List Bytes}
    (hp : Spells d (root ++ b!"/" ++ p) ns) (hf : files d ns = some content)
    (hlen : root.length + 1 + p.length ≤ 4092) (hsize : content.length < 2 ^ 31)
    (hne : root.length + 1 + p.length ≤ 259 ∨ content ≠ []) :
    ∃ r, lveStep conf m.world st msg = .ok (st, [r]) ∧ DataReply b!"FILECONT" content r := by
  have h0 := spells_nonzero hp
  have hcr : cstr root = root := cstr_of_noNul fun b hb => h0 b (by simp [hb])
  have hcp : cstr p = p := cstr_of_noNul fun b hb => h0 b (by simp [hb])
  have hpl : (root ++ b!"/" ++ p).length = root.length + 1 + p.length := by simp; omega
  refine c17_plain hses ha hl (w := m.world) hm.memory hc (by omega) (by rw [hcp]; exact hn) ?_ (by omega)
  rw [hcr, hcp]
  exact onWindows_holds hm hp hf (by omega) hsize (by rw [hpl]; exact hne)

/-- **C90, no such file.** A request for a file that is not there is answered by `ERROR 6`, and changes nothing. -/
theorem c90_missing {conf : LveConf} {k : Option Bytes} {turns : List (World × Bytes)} {st : LveSt}
    {replies : List (List Bytes)} (hses : Session conf k turns st replies) (ha : st.approved = true) {root : Bytes}
    (hl : st.libpath = some root) {m : WinMachine} {files : UInt8 → List Bytes → Option Bytes} (hm : RunsOn m files)
    {msg p : Bytes} (hc : Carries msg .file p) (hsz : root.length + p.length + 2 < 2 ^ 64) {d : UInt8} {ns : List Bytes}
    (hp : Spells d (root ++ b!"/" ++ p) ns) (hf : files d ns = none) :
    ∃ r text, lveStep conf m.world st msg = .ok (st, [r]) ∧ ErrorReply 6 text r := by
  have h0 := spells_nonzero hp
  have hcr : cstr root = root := cstr_of_noNul fun b hb => h0 b (by simp [hb])
  have hcp : cstr p = p := cstr_of_noNul fun b hb => h0 b (by simp [hb])
  obtain ⟨r, text, h1, h2, -⟩ := c17_unreadable hses ha hl (w := m.world) hm.memory hc hsz (by
    rw [hcr, hcp]
    refine onWindows_unreadable fun x hx => ?_
    have := c84_right m.files files hm.system d _ ns (Or.inl hp) x hx
    rw [hf] at this
    cases this)
  exact ⟨r, _, h1, h2⟩

/-- **C90, plain files, full claim:** also empty ones, wherever they are. -/
def c90_full : Prop :=
  ∀ {conf : LveConf} {k : Option Bytes} {turns : List (World × Bytes)} {st : LveSt} {replies : List (List Bytes)},
    Session conf k turns st replies → st.approved = true → ∀ {root : Bytes}, st.libpath = some root →
    ∀ {m : WinMachine} {files : UInt8 → List Bytes → Option Bytes}, RunsOn m files → ∀ {msg p content : Bytes},
    Carries msg .file p → ¬ IsMoc p → ∀ {d : UInt8} {ns : List Bytes}, Spells d (root ++ b!"/" ++ p) ns →
    files d ns = some content → root.length + 1 + p.length ≤ 4092 → content.length < 2 ^ 31 →
    ∃ r, lveStep conf m.world st msg = .ok (st, [r]) ∧ DataReply b!"FILECONT" content r

/-- **C90, empty files.** A request for an empty file of which the path has 260 characters or more is answered by
`ERROR 6`, on a machine with short paths only. -/
theorem c90_empty_not {conf : LveConf} {k : Option Bytes} {turns : List (World × Bytes)} {st : LveSt}
    {replies : List (List Bytes)} (hses : Session conf k turns st replies) (ha : st.approved = true) {root : Bytes}
    (hl : st.libpath = some root) (store : Bytes → Option Bytes) (dir : Bytes → Option Bool) {msg p : Bytes}
    (hc : Carries msg .file p) (hsz : root.length + p.length + 2 < 2 ^ 64) {d : UInt8} {ns : List Bytes}
    (hp : Spells d (root ++ b!"/" ++ p) ns) (hf : store (winPath d ns) = some [])
    (hlen : 259 < root.length + 1 + p.length) :
    ∃ r text, lveStep conf (WinMachine.mk (winStore store) dir).world st msg = .ok (st, [r]) ∧ ErrorReply 6 text r := by
  have h0 := spells_nonzero hp
  have hcr : cstr root = root := cstr_of_noNul fun b hb => h0 b (by simp [hb])
  have hcp : cstr p = p := cstr_of_noNul fun b hb => h0 b (by simp [hb])
  obtain ⟨r, text, h1, h2, -⟩ := c17_unreadable hses ha hl (w := (WinMachine.mk (winStore store) dir).world)
    (fun _ => rfl) hc hsz (by
      rw [hcr, hcp]
      refine onWindows_unreadable fun x hx => ?_
      obtain ⟨e, he⟩ := c84_empty_not store d _ ns hp (by simp; omega) hf
      have := he.symm.trans hx
      cases this)
  exact ⟨r, _, h1, h2⟩

/-- A machine where every file is empty. -/
def blankMachine : WinMachine := ⟨winStore fun _ => some [], fun _ => some true⟩

/-- The session up to the request. -/
def blankOpen : Res (LveSt × List (List Bytes)) :=
  session (toyConf [b!"k"] none generous) (some b!"k") (inWorld blankMachine.world [b!"VERSION 1\n", b!"LIB 4\nC:/l"])

theorem blank_open : ∃ st replies, Session (toyConf [b!"k"] none generous) (some b!"k")
    (inWorld blankMachine.world [b!"VERSION 1\n", b!"LIB 4\nC:/l"]) st replies ∧ st.approved = true ∧
    st.libpath = some b!"C:/l" := by
  have h : ∃ x, blankOpen = .ok x ∧ x.1.approved = true ∧ x.1.libpath = some b!"C:/l" := ⟨_, rfl, rfl, rfl⟩
  obtain ⟨⟨st, r⟩, h1, h2⟩ := h
  exact ⟨st, r, session_iff.2 h1, h2⟩

theorem c90_full_not : ¬ c90_full := by
  intro h
  obtain ⟨st, r, hses, ha, hl⟩ := blank_open
  have hspell : Spells 67 (b!"C:/l" ++ b!"/" ++ (aName 200 ++ 47 :: aName 200)) [b!"l", aName 200, aName 200] := by
    have h1 : Spells 67 b!"C:/l" [b!"l"] := .name 47 (.drive (by decide) (by decide) (by decide)) (Or.inl rfl)
      ⟨by decide, by decide, by decide⟩
    have := spells_relPath h1 [aName 200, aName 200] (by simp) (by
      intro n hn
      simp only [List.mem_cons, List.not_mem_nil, or_false, or_self] at hn
      rw [hn]
      exact aName_name 200 (by decide))
    simpa [relPath] using this
  have hlen : (aName 200 ++ 47 :: aName 200).length = 401 := by
    rw [List.length_append, List.length_cons]
    unfold aName
    rw [List.length_replicate]
  have hmoc : ¬ IsMoc (aName 200 ++ 47 :: aName 200) := by
    rintro ⟨base, ext, h, -⟩
    have : (46 : UInt8) ∈ aName 200 ++ 47 :: aName 200 := by rw [h]; simp
    revert this
    decide +kernel
  have hc : Carries (b!"FILE 401" ++ b!"\n" ++ (aName 200 ++ 47 :: aName 200)) .file (aName 200 ++ 47 :: aName 200) := by
    refine ⟨b!"FILE 401", _, 0, by decide, rfl, ?_, List.take_length, by omega⟩
    have hd : Denotes b!"401" 401 := ⟨[], [], b!"401", [], by decide, by simp, by simp, by simp, by decide, by simp,
      by decide⟩
    rw [hlen]
    exact .len (name := b!"FILE") (w := b!"401") (n := 401) (by decide +kernel) (by decide) hd (by decide)
  obtain ⟨r1, h1, h2⟩ := h hses ha hl (m := blankMachine) (files := fun _ _ => some [])
    ⟨winStore_on fun _ => some [], fun _ => rfl⟩ hc hmoc hspell rfl (by rw [hlen]; decide) (by decide)
  obtain ⟨r2, text, h3, h4⟩ := c90_empty_not hses ha hl (fun _ => some []) (fun _ => some true) hc (by rw [hlen]; decide)
    hspell rfl (by rw [hlen]; decide)
  have h5 := h1.symm.trans h3
  simp only [Res.ok.injEq, Prod.mk.injEq, List.cons.injEq, and_true, true_and] at h5
  obtain ⟨_, -, h2⟩ := h2
  obtain ⟨_, _, -, -, h4⟩ := h4
  rw [h2, h4] at h5
  have := congrArg List.head? h5
  simp [line2, line3] at this

/-- **C90, all the way, partial.** A library is packaged with encryption on Windows, and what the reader gets from the
file `<library>.mol` is unpacked into a directory of a drive of a Windows machine.  A tool whose key is trusted by the
vendor executable starts it there, opens the library by a path to this directory, with slashes or backslashes, there
being a license, and asks for any files of the library, any number of times and in any order, whatever else happens on
the machine in between.  Then it gets exactly the texts of the Modelica files and the contents of the other files that
the vendor packaged.

Missing: as for `c89_served_partial`; files that cannot be read because of `FitsAt` (`c90_full_not`). -/
theorem c90_served_partial (inflate : Bytes → Option Bytes) (m : MolEnv) (w : PackWinEnv) (lin : PackEnv)
    (args : List Bytes) (hz : Restores inflate m.deflate) (hst : ∀ k, StatSmall (m.io k))
    (hadds : ∀ p, w.env.zipAdds p = true) (hh : NoHelp args) (hold : OldGone m)
    (hroom : ∀ a, packToolWin w args = .ok ⟨0, some a⟩ → packageRoom m.deflate a < 2 ^ 31) (file : Option Bytes)
    (h : packMol m w args = .ok ⟨0, file⟩) (ps : List (Bytes × Bytes))
    (path lib : Bytes) (hs : SamePlace w lin) (hp : ArgPairs args ps) (he : AsksEncryption ps)
    (hpath : (b!"librarypath", path) ∈ ps) (hlib : LibraryName (withSlashes path) lib) (P : List Bytes → Prop)
    (hP : CaseApart w lib P) (hi : IconOnTop w P ps) (hnd : NoPackageDirs w) (hstat : AllStat w) (l : Listing)
    (hl : w.env.library = some l) (content : List Bytes → Bytes) (hc : Copyable lin.librarySource l content)
    (ht : Truthful lin lib) (hg : GoodCrypto lin) (hr : ∀ p, lin.canRead (lib :: p) = true) (hx : PlainExtras lin)
    (hpk : PlainPackages l) (hn : NamesOk l) (hdots : ∀ e ∈ entries l, ∀ n ∈ e.1, n ≠ b!"." ∧ n ≠ b!"..")
    (hall : PackagesEverywhere l content)
    {conf : LveConf} (hsame : SameKey lin conf) {d : UInt8} {dirs : List Bytes} {dir root : Bytes}
    (hspell : Spells d root dirs) (hroot : IsRootOf dir root) (hdl : dir.length ≤ 16000)
    (hsize : ∀ p, IsSource l p → root.length + 1 + (relPath (p.dropLast ++ [b!"package.moc"])).length < 4096 ∧
      (content p).length + 96 < 2 ^ 31)
    (hlic : Licensed conf root) {key : Bytes} (hkey : key ∈ conf.trusted) (hk0 : (0 : UInt8) ∉ key)
    (hks : ∀ t ∈ conf.trusted, (0 : UInt8) ∉ t) {minV maxV : Int} (hmin : minV ≤ 1) (hmax : 1 ≤ maxV)
    (hint : maxV < 2 ^ 31) :
    ∃ f es, file = some f ∧ unzip inflate f = some es ∧
      ∀ (m0 m1 : WinMachine) (reqs : List (WinMachine × Bytes × Bytes)), FitsAt root es lib →
        UnpackedOn es lib d dirs m0 → UnpackedOn es lib d dirs m1 → m1.dir root = some true →
        (∀ q ∈ reqs, UnpackedOn es lib d dirs q.1 ∧ q.2.1.length ≤ 16000 ∧ InLibrary l content q.2.1 q.2.2) →
        GetsAll conf key minV maxV dir m0.world m1.world (reqs.map fun q => (q.1.world, q.2)) := by
  have hnul : (0 : UInt8) ∉ dir := by
    obtain ⟨seps, rfl, h1, -⟩ := hroot
    intro hm
    rcases List.mem_append.1 hm with hm | hm
    · exact spells_nonzero hspell 0 hm rfl
    · rcases h1 0 hm with h1 | h1 <;> cases h1
  obtain ⟨f, es, h1, h2, h3⟩ := mol_serves inflate m w lin args hz hst hadds hh hold hroom file h ps path lib hs hp he
    hpath hlib P hP hi hnd hstat l hl content hc ht hg hr hx hpk hn hall hsame hroot hnul hdl hsize hlic hkey hk0 hks hmin
    hmax hint
  refine ⟨f, es, h1, h2, fun m0 m1 reqs hfit hu0 hu1 hdir hreqs => ?_⟩
  have hname : ∀ {p}, Askable l p → ∀ n ∈ p, FileName n := by
    intro p hp n hnp
    have key : ∀ {e}, e ∈ entries l → ∀ n ∈ e.1, FileName n := fun {e} he n hn' =>
      ⟨((hn e he).1 n hn').1, fun c hc => ⟨(((hn e he).1 n hn').2 c hc).2.2, (((hn e he).1 n hn').2 c hc).1,
        (((hn e he).1 n hn').2 c hc).2.1⟩, hdots e he n hn'⟩
    rcases hp with ⟨q, hq, rfl⟩ | ⟨hf, -⟩
    · rcases List.mem_append.1 hnp with hm | hm
      · exact key hq.1 n (List.dropLast_subset _ hm)
      · rw [List.mem_singleton.1 hm]
        have h4 := key hq.1 (nameOf q) (by
          have := dropLast_nameOf (entries_ne_nil l _ hq.1)
          rw [← this]; simp [nameOf])
        refine ⟨by simp, fun c hc => ?_, ?_⟩
        · rcases List.mem_append.1 hc with hc | hc
          · exact h4.noSep c hc
          · rw [List.mem_singleton.1 hc]; decide
        · constructor <;>
          · intro hx
            have := congrArg List.getLast? hx
            simp at this
    · exact key hf n hnp
  have hbut : ∀ {m' : WinMachine}, UnpackedOn es lib d dirs m' → UnpackedBut l es lib root m'.world := by
    rintro m' ⟨files, hrun, hu⟩ p out hm hp
    have hlen : (root ++ b!"/" ++ relPath p).length = root.length + 1 + (relPath p).length := by simp; omega
    obtain ⟨k1, k2, k3⟩ := hfit p out hm
    exact onWindows_holds hrun (spells_relPath hspell p hp.ne_nil (hname hp)) (hu p out hm (hname hp)) (by omega) k2
      (by rw [hlen]; exact k3)
  have hamp : ∀ {m' : WinMachine}, UnpackedOn es lib d dirs m' → Ample m'.world := fun ⟨_, h, _⟩ => h.memory
  refine h3 _ _ _ (hamp hu0) (hbut hu0) (hamp hu1) (hbut hu1) hdir fun q hq => ?_
  obtain ⟨q, hq', rfl⟩ := List.mem_map.1 hq
  obtain ⟨k1, k2, k3⟩ := hreqs q hq'
  exact ⟨hamp k1, hbut k1, k2, k3⟩

/-! ## Cases -/

/-- The files of the sample package in `C:\opt\Lib`. -/
def iconStore (q : Bytes) : Option Bytes :=
  ((asZip iconPackage).find? fun e => (b!"C:/opt/" ++ e.1).map (fun c => if c = 47 then 92 else c) == q).map (·.2)

/-- A Windows machine with these files. -/
def iconMachine : WinMachine :=
  ⟨winStore iconStore,
    fun p => if p = b!"C:\\opt\\Lib" then some true else none⟩

theorem iconMachine_spells : Spells 67 b!"C:\\opt\\Lib" [b!"opt", b!"Lib"] :=
  .name (p := b!"C:\\opt") (ns := [b!"opt"]) (n := b!"Lib") 92 (.name (p := b!"C:") (ns := []) (n := b!"opt") 92
    (.drive (by decide) (by decide) (by decide)) (Or.inr rfl) ⟨by decide, by decide, by decide⟩)
    (Or.inr rfl) ⟨by decide, by decide, by decide⟩

theorem iconMachine_unpacked : UnpackedOn (asZip iconPackage) b!"Lib" 67 [b!"opt", b!"Lib"] iconMachine := by
  refine ⟨_, ⟨winStore_on iconStore, fun _ => rfl⟩, fun p out hm hn => ?_⟩
  have h1 : ∀ e ∈ asZip iconPackage, e.1 ≠ b!"Lib" := by decide +kernel
  have h2 : ∀ e ∈ asZip iconPackage,
      iconStore ((b!"C:/opt/" ++ e.1).map fun c => if c = 47 then 92 else c) = some e.2 := by decide +kernel
  have hp : p ≠ [] := fun h => h1 _ hm (by rw [h]; rfl)
  have h3 := spells_backslashes (spells_relPath iconMachine_spells p hp hn)
  have h4 : (b!"C:\\opt\\Lib" ++ b!"/" ++ relPath p).map (fun c => if c = 47 then 92 else c) =
      (b!"C:/opt/" ++ relPath (b!"Lib" :: p)).map fun c => if c = 47 then 92 else c := by
    cases p with
    | nil => exact absurd rfl hp
    | cons n p => simp [relPath]
  have h5 := h2 _ hm
  dsimp only at h5 ⊢
  rw [← h3, h4]
  exact h5

/-- All the way: a Modelica file of the library packaged on Windows, served on Windows; and a file that is not
encrypted. -/
example (file : Option Bytes) (h : packMol (toyMol none true) iconWin (iconArgs b!"True") = .ok ⟨0, file⟩) :
    GetsAll (toyConf [b!"k"] (some b!"G") generous) b!"k" 1 2 b!"C:\\opt\\Lib\\" iconMachine.world iconMachine.world
      [(iconMachine.world, b!"A/y.MOc", b!"text of A/y.MO"), (iconMachine.world, b!"i.png", b!"text of i.png")] := by
  obtain ⟨f, es, rfl, h2, h3⟩ := c90_served_partial toyInflate _ iconWin iconLin _ toy_restores (fun _ => wellIo_well.2)
    (fun _ => rfl) (by unfold NoHelp; decide) (Or.inl rfl) icon_room file h _ _ _ icon_place win_icon_pairs
    ⟨b!"True", by decide, by decide⟩ (by decide)
    win_name _ icon_apart (icon_top _) icon_dirs icon_stat winIconLib rfl (fun p => b!"text of " ++ relPath p)
    (sample_copyable winIconLib (by decide +kernel) (by decide +kernel)) icon_truthful icon_crypto (fun _ => rfl)
    (by
      intro l hl
      simp only [iconLin, Option.some.injEq] at hl
      subst hl
      intro e he
      simp only [entries, List.mem_cons, List.not_mem_nil, or_false] at he
      subst he
      exact notModelica_of (n := b!"r.txt") (by decide))
    (by unfold PlainPackages; decide +kernel) (by unfold NamesOk IsName; decide +kernel) (by decide +kernel)
    icon_everywhere
    (conf := toyConf [b!"k"] (some b!"G") generous) (dir := b!"C:\\opt\\Lib\\") (key := b!"k") (minV := 1) (maxV := 2)
    ⟨rfl, rfl, rfl⟩ iconMachine_spells ⟨b!"\\", by decide, by
      intro b hb; simp at hb; subst hb; exact Or.inr rfl, by decide, Or.inr (by
      intro b hb; simp at hb; subst hb; unfold IsSep; decide)⟩ (by decide)
    (by
      have : ∀ e ∈ entries winIconLib, b!"C:\\opt\\Lib".length + 1 +
        (relPath (e.1.dropLast ++ [b!"package.moc"])).length < 4096 ∧
        (b!"text of " ++ relPath e.1).length + 96 < 2 ^ 31 := by decide +kernel
      exact fun p hp => this _ hp.1)
    (Or.inr ⟨b!"G", rfl, rfl, rfl⟩) (by decide) (by decide) (by decide) (by decide) (by decide) (by decide)
  obtain ⟨a, k1, k2⟩ := c89_contents_partial toyInflate _ _ _ toy_restores (fun _ => wellIo_well.2) (fun _ => rfl)
    (by unfold NoHelp; decide) (Or.inl rfl) _ h
  obtain ⟨f', k3, -, k4⟩ := k2 (icon_room a k1)
  rw [icon_package] at k1
  simp only [Res.ok.injEq, PackResult.mk.injEq, Option.some.injEq, true_and] at k1 k3
  subst k1 k3
  rw [h2] at k4
  cases k4
  have hfit : ∀ e ∈ asZip iconPackage, b!"C:\\opt\\Lib".length + 1 + e.1.length ≤ 259 ∧ e.2.length < 2 ^ 31 := by
    decide +kernel
  refine h3 iconMachine iconMachine [(iconMachine, b!"A/y.MOc", b!"text of A/y.MO"),
    (iconMachine, b!"i.png", b!"text of i.png")] (fun p out hm => ?_) iconMachine_unpacked iconMachine_unpacked
    (by decide) ?_
  · obtain ⟨g1, g2⟩ := hfit _ hm
    have : (relPath p).length ≤ (relPath (b!"Lib" :: p)).length := by
      cases p with
      | nil => simp [relPath]
      | cons n p => simp [relPath]; omega
    dsimp only at g1 g2
    exact ⟨by omega, g2, Or.inl (by omega)⟩
  · intro q hq
    simp only [List.mem_cons, List.not_mem_nil, or_false] at hq
    rcases hq with rfl | rfl
    · refine ⟨iconMachine_unpacked, by decide, ?_⟩
      exact .source (p := [b!"A", b!"y.MO"]) ⟨by decide +kernel, by decide, ⟨b!"y", b!".MO", rfl, by decide⟩⟩
    · refine ⟨iconMachine_unpacked, by decide, ?_⟩
      refine .other (p := [b!"i.png"]) (by decide +kernel) (by decide) (notModelica_of (n := b!"i.png") (by decide)) ?_
        (by decide)
      rw [← isEncryptedName_iff]
      decide

/-- A file with a path of 406 characters is sent. -/
example : repliesOf (session (toyConf [b!"k"] none generous) (some b!"k") (inWorld
    (WinMachine.mk (winStore fun _ => some b!"text") fun _ => some true).world
    [b!"VERSION 1\n", b!"LIB 4\nC:/l", b!"FILE 401\n" ++ aName 200 ++ 47 :: aName 200])) =
    some [[b!"VERSION 1\n"], [b!"YES\n"], [b!"FILECONT 4\ntext"]] := by decide +kernel

/-- An empty one is not. -/
example : repliesOf (session (toyConf [b!"k"] none generous) (some b!"k") (inWorld blankMachine.world
    [b!"VERSION 1\n", b!"LIB 4\nC:/l", b!"FILE 1\na", b!"FILE 401\n" ++ aName 200 ++ 47 :: aName 200])) =
    some [[b!"VERSION 1\n"], [b!"YES\n"], [b!"FILECONT 0\n"],
      [b!"ERROR 6 488\nCouldn't find file size for \\\\?\\C:\\l\\" ++
      aName 200 ++ 92 :: aName 200 ++ b!". The error message was: No such file or directory"]] := by decide +kernel

/-- A file that is not there. -/
example : repliesOf (session (toyConf [b!"k"] none generous) (some b!"k") (inWorld
    (WinMachine.mk (winStore fun _ => none) fun _ => some true).world
    [b!"VERSION 1\n", b!"LIB 4\nC:/l", b!"FILE 1\na"])) =
    some [[b!"VERSION 1\n"], [b!"YES\n"],
      [b!"ERROR 6 75\nCouldn't open file C:/l/a. The error message was: No such file or directory"]] := by decide +kernel

end Semla.Props
