import Verif.Lemmas.PackWin
import Verif.Lemmas.PackFail

/-!
# A run on Windows is one on Linux
-/

namespace Semla

open Spec

/-! ## Directories called `package.mo` -/

/-- No directory in the copy of the library is called `package.mo`. -/
def PlainDirs (fs : Staged) : Prop :=
  ∀ e ∈ fs, e.2 = .dir → e.1.length ≤ 1 ∨ nameOf e.1 ≠ b!"package.mo"

theorem plainDirs_set {fs : Staged} (h : PlainDirs fs) (p : List Bytes) (c : Bytes) :
    PlainDirs (fs.set p (.file c)) := by
  intro e he hd
  rcases List.mem_cons.1 he with rfl | he
  · simp at hd
  · exact h e he hd

theorem plainDirs_write {fs fs' : Staged} (h : PlainDirs fs) {p : List Bytes} {c : Bytes}
    (hw : fs.write p c = some fs') : PlainDirs fs' := by
  unfold Staged.write at hw
  split at hw
  · simp only [Option.some.injEq] at hw
    subst hw
    exact plainDirs_set h p c
  · simp at hw

theorem plainDirs_mkdir {fs fs' : Staged} (h : PlainDirs fs) {p : List Bytes}
    (hp : p.length ≤ 1 ∨ nameOf p ≠ b!"package.mo") (hw : fs.mkdir p = some fs') : PlainDirs fs' := by
  unfold Staged.mkdir at hw
  split at hw
  · simp only [Option.some.injEq] at hw
    subst hw
    intro e he hd
    rcases List.mem_cons.1 he with rfl | he
    · exact hp
    · exact h e he hd
  · simp at hw

theorem plainDirs_getD {fs : Staged} (h : PlainDirs fs) {o : Option Staged} (ho : ∀ x, o = some x → PlainDirs x) :
    PlainDirs (o.getD fs) := by
  cases o with
  | none => exact h
  | some x => exact ho x rfl

theorem copyEntries_dirs (s : Source) (l : Listing) (src dst : List Bytes) (fs : Staged)
    (hl : ∀ e ∈ entries l, e.2 ≠ .file → nameOf e.1 ≠ b!"package.mo") (h : PlainDirs fs) :
    PlainDirs (copyEntries s l src dst fs) := by
  induction l generalizing src dst fs with
  | done => exact h
  | file n rest ih =>
    have hr : ∀ e ∈ entries rest, e.2 ≠ .file → nameOf e.1 ≠ b!"package.mo" :=
      fun e he => hl e (List.mem_cons_of_mem _ he)
    unfold copyEntries
    split
    · exact ih src dst fs hr h
    · refine ih src dst _ hr ?_
      cases s.copied (src ++ [n]) with
      | none => exact h
      | some c => exact plainDirs_getD h fun x hx => plainDirs_write h hx
  | dir n sub rest ih1 ih2 =>
    have hr : ∀ e ∈ entries rest, e.2 ≠ .file → nameOf e.1 ≠ b!"package.mo" :=
      fun e he => hl e (List.mem_append_right _ he)
    unfold copyEntries
    split
    · exact ih2 src dst fs hr h
    · refine ih2 src dst _ hr (ih1 _ _ _ ?_ ?_)
      · intro e he
        have := hl (n :: e.1, e.2) (List.mem_append_left _ (List.mem_cons_of_mem _ (List.mem_map.2 ⟨e, he, rfl⟩)))
        rwa [nameOf_cons n (entries_ne_nil sub e he)] at this
      · split
        · refine plainDirs_getD h fun x hx => plainDirs_mkdir h (Or.inr ?_) hx
          rw [nameOf_append]
          exact hl ([n], .dir) (List.mem_append_left _ List.mem_cons_self) (by simp)
        · exact h
  | locked n rest ih =>
    have hr : ∀ e ∈ entries rest, e.2 ≠ .file → nameOf e.1 ≠ b!"package.mo" :=
      fun e he => hl e (List.mem_cons_of_mem _ he)
    unfold copyEntries
    split
    · exact ih src dst fs hr h
    · refine ih src dst _ hr ?_
      split
      · refine plainDirs_getD h fun x hx => plainDirs_mkdir h (Or.inr ?_) hx
        rw [nameOf_append]
        exact hl ([n], .locked) List.mem_cons_self (by simp)
      · exact h
  | other n rest ih =>
    unfold copyEntries
    exact ih src dst fs (fun e he => hl e (List.mem_cons_of_mem _ he)) h

theorem copyDirectory_dirs {s : Source} {l : Option Listing} {dst : List Bytes} {fs fs' : Staged}
    (hl : ∀ l', l = some l' → ∀ e ∈ entries l', e.2 ≠ .file → nameOf e.1 ≠ b!"package.mo")
    (h : PlainDirs fs) (hc : copyDirectory s l dst fs = some fs') : PlainDirs fs' := by
  cases l with
  | none => simp [copyDirectory] at hc
  | some l =>
    simp only [copyDirectory, Option.map_some, Option.some.injEq] at hc
    subst hc
    exact copyEntries_dirs s l [] dst fs (hl l rfl) h

theorem copyFolder_dirs {lin : PackEnv} {lib : Bytes} {fs : Staged}
    (hl : ∀ l, lin.library = some l → ∀ e ∈ entries l, e.2 ≠ .file → nameOf e.1 ≠ b!"package.mo")
    (h : copyFolderStructure lin lib = some fs) : PlainDirs fs := by
  unfold copyFolderStructure at h
  split at h
  · simp at h
  · cases hm : Staged.empty.mkdir [lib] with
    | none => simp [hm] at h
    | some fs1 =>
      simp only [hm] at h
      refine copyDirectory_dirs hl (plainDirs_mkdir ?_ (Or.inl (by simp)) hm) h
      intro e he hd
      simp only [Staged.empty, List.mem_singleton] at he
      subst he
      exact Or.inl (by simp)

theorem createFolder_dirs {lin : PackEnv} {lib : Bytes} {fs fs' : Staged} (h : PlainDirs fs)
    (hc : createLibraryFolder lin lib fs = some fs') : PlainDirs fs' := by
  unfold createLibraryFolder at hc
  split at hc
  · exact plainDirs_mkdir h (Or.inr (by simp [nameOf])) hc
  · simp at hc

/-! ## Vendor executables and extra files -/

theorem lveNames_vendor : ∀ n ∈ lveNames, ∃ x ∈ vendorExecutables, x.1 = n := by decide

theorem copyLves_win {w : PackWinEnv} {lin : PackEnv} (hs : SamePlace w lin) {lib : Bytes}
    {P : List Bytes → Prop} (hP : CaseApart w lib P) (ns : List Bytes) (hns : ∀ n ∈ ns, n ∈ lveNames)
    (fs : Staged) {r : Staged × List Bytes} (hk : Keys P fs) (hd : PlainDirs fs)
    (h : copyLvesWin w.env lib ns fs = some r) :
    copyLves lin lib ns fs = some r ∧ Keys P r.1 ∧ PlainDirs r.1 := by
  induction ns generalizing fs r with
  | nil =>
    simp only [copyLvesWin, Option.some.injEq] at h
    subst h
    exact ⟨rfl, hk, hd⟩
  | cons n ns ih =>
    have ih := ih fun n hn => hns n (List.mem_cons_of_mem _ hn)
    unfold copyLvesWin at h
    unfold copyLves
    rw [hs.lve, hs.lveCopied]
    split at h
    · rename_i hl
      rw [if_pos hl]
      obtain ⟨x, hx, rfl⟩ := lveNames_vendor n (hns n List.mem_cons_self)
      have hp := hP.vendor x hx
      have hp' : P [lib, b!".library"] := hP.top _ (by simp)
      split at h
      · rename_i c hc
        rw [wwrite_eq hP.apart hk hp (by simpa using hp')] at h
        simp only [hc]
        cases hw : fs.write [lib, b!".library", x.1] c with
        | none => simp [hw] at h
        | some fs1 =>
          simp only [hw] at h
          rw [Option.map_eq_some_iff] at h
          obtain ⟨r1, h1, rfl⟩ := h
          obtain ⟨h2, h3, h4⟩ := ih fs1 (keys_write hk hp hw) (plainDirs_write hd hw) h1
          simp only [h2, Option.map_some]
          exact ⟨trivial, h3, h4⟩
      · simp at h
    · rename_i hl
      rw [if_neg hl]
      exact ih fs hk hd h

theorem copyLVE_win {w : PackWinEnv} {lin : PackEnv} (hs : SamePlace w lin) {lib : Bytes}
    {P : List Bytes → Prop} (hP : CaseApart w lib P) {d d' : ArgData}
    (hu : usingEncryption d' = usingEncryption d) {fs : Staged} {r : Staged × List Bytes} (hk : Keys P fs)
    (hd : PlainDirs fs) (h : copyLVEWin w.env d lib fs = some r) :
    copyLVE lin d' lib fs = some r ∧ Keys P r.1 ∧ PlainDirs r.1 := by
  unfold copyLVEWin at h
  unfold copyLVE
  rw [hu, hs.exeDir]
  split at h
  · rename_i h1
    rw [if_pos h1]
    split at h
    · rename_i h2
      rw [if_pos h2]
      exact copyLves_win hs hP lveNames (fun _ h => h) fs hk hd h
    · simp at h
  · rename_i h1
    rw [if_neg h1]
    simp only [Option.some.injEq] at h
    subst h
    exact ⟨rfl, hk, hd⟩

theorem copyExtra_win {w : PackWinEnv} {lin : PackEnv} (hs : SamePlace w lin) {lib : Bytes}
    {P : List Bytes → Prop} (hP : CaseApart w lib P) (hstat : AllStat w) (hn : NoPackageDirs w)
    {fs fs' : Staged} (hk : Keys P fs) (hd : PlainDirs fs) (h : copyExtraFilesWin w lib fs = .ok (some fs')) :
    copyExtraFiles lin lib fs = some fs' ∧ Keys P fs' ∧ PlainDirs fs' := by
  unfold copyExtraFilesWin at h
  unfold copyExtraFiles
  rw [hs.exeDir, hs.extra]
  split at h
  · rename_i he
    rw [if_pos he]
    cases hx : w.env.extra with
    | none =>
      simp only [hx, Res.ok.injEq, Option.some.injEq] at h
      subst h
      exact ⟨rfl, hk, hd⟩
    | some l =>
      simp only [hx] at h
      rw [← hs.extraDirs] at h
      obtain ⟨h1, h2⟩ := copyDirectoryWin_eq hP.apart (fun p => (hstat p).2) hs.extraFiles hk
        (hP.top _ (by simp)) (fun l' hl' e he => hP.extra l' (by rw [hx, hl']) e he) h
      refine ⟨h1, h2, copyDirectory_dirs ?_ hd h1⟩
      intro l' hl'
      exact hn l' (Or.inr (by rw [hx, hl']))
  · simp at h

/-! ## Arguments -/

/-- The arguments on Linux: `/` for `\` in the paths of library and icon. -/
def Corr (d d' : ArgData) : Prop :=
  ∀ k, k ≠ [] → getValueOf d' k =
    (getValueOf d k).map fun v => if k = b!"librarypath" ∨ k = b!"icon" then slashes v else v

theorem Corr.same {d d' : ArgData} (h : Corr d d') {k : Bytes} (h0 : k ≠ []) (h1 : k ≠ b!"librarypath")
    (h2 : k ≠ b!"icon") : getValueOf d' k = getValueOf d k := by
  rw [h k h0]
  simp [h1, h2]

theorem containsKey_isSome (d : ArgData) (k : Bytes) : containsKey d k = (getValueOf d k).isSome := by
  induction d with
  | nil => rfl
  | cons e d ih =>
    obtain ⟨a, b⟩ := e
    simp only [containsKey, getValueOf]
    split
    · rfl
    · exact ih

theorem Corr.contains {d d' : ArgData} (h : Corr d d') {k : Bytes} (h0 : k ≠ []) :
    containsKey d' k = containsKey d k := by
  rw [containsKey_isSome, containsKey_isSome, h k h0]
  simp

theorem Corr.encrypts {d d' : ArgData} (h : Corr d d') : usingEncryption d' = usingEncryption d := by
  unfold usingEncryption
  rw [h.same (by decide) (by decide) (by decide)]

theorem Corr.manifest {d d' : ArgData} (h : Corr d d') (id : Bytes) (lves : List Bytes) (icon : Option Bytes)
    (read : Bytes → Option Bytes) : createManifest d' id lves icon read = createManifest d id lves icon read := by
  have hv : ∀ (x : XmlOut) a k, k ≠ [] → k ≠ b!"librarypath" → k ≠ b!"icon" →
      x.valueAttribute d' a k = x.valueAttribute d a k := by
    intro x a k h0 h1 h2
    unfold XmlOut.valueAttribute
    rw [h.same h0 h1 h2]
  have ht : ∀ (x : XmlOut) a k s, k ≠ [] → k ≠ b!"librarypath" → k ≠ b!"icon" →
      x.valueText d' a k s = x.valueText d a k s := by
    intro x a k s h0 h1 h2
    unfold XmlOut.valueText
    rw [h.same h0 h1 h2]
  have he : ∀ (x : XmlOut) a b k, k ≠ [] → k ≠ b!"librarypath" → k ≠ b!"icon" →
      x.valueElem d' a b k = x.valueElem d a b k := by
    intro x a b k h0 h1 h2
    unfold XmlOut.valueElem
    rw [h.same h0 h1 h2]
  have h1 : ∀ x : XmlOut, x.libraryHeader d' id = x.libraryHeader d id := by
    intro x
    unfold XmlOut.libraryHeader
    simp only [hv _ _ b!"enabled" (by decide) (by decide) (by decide),
      hv _ _ b!"build" (by decide) (by decide) (by decide), hv _ _ b!"date" (by decide) (by decide) (by decide),
      ht _ _ b!"title" _ (by decide) (by decide) (by decide),
      ht _ _ b!"description" _ (by decide) (by decide) (by decide),
      ht _ _ b!"copyright" _ (by decide) (by decide) (by decide),
      ht _ _ b!"license" _ (by decide) (by decide) (by decide),
      he _ _ _ b!"language" (by decide) (by decide) (by decide),
      h.same (k := b!"version") (by decide) (by decide) (by decide)]
  have h2 : ∀ x : XmlOut, x.encryption d' lves = x.encryption d lves := by
    intro x
    unfold XmlOut.encryption
    rw [h.encrypts]
  have h3 : ∀ x : XmlOut, x.iconElem d' icon = x.iconElem d icon := by
    intro x
    unfold XmlOut.iconElem
    rw [h.contains (by decide)]
  have h4 : ∀ (x : XmlOut) k, k ≠ [] → k ≠ b!"librarypath" → k ≠ b!"icon" →
      x.includeFile d' read k = x.includeFile d read k := by
    intro x k h0 h1 h2
    unfold XmlOut.includeFile
    rw [h.same h0 h1 h2]
  unfold createManifest
  simp only [h1, h2, h3, h4 _ b!"tools" (by decide) (by decide) (by decide),
    h4 _ b!"dependencies" (by decide) (by decide) (by decide)]

/-! ## The icon -/

theorem joinWin_eq {p : List Bytes} (h : ∀ n ∈ p, (47 : UInt8) ∉ n) : joinWin p = (joinPath p).map backslash := by
  induction p with
  | nil => rfl
  | cons n p ih =>
    have hn : n.map backslash = n := by
      have := h n List.mem_cons_self
      induction n with
      | nil => rfl
      | cons c n ihn =>
        simp only [List.mem_cons, not_or] at this
        simp only [List.map_cons, List.cons.injEq]
        refine ⟨?_, ihn (fun m hm => ?_) this.2⟩
        · unfold backslash
          rw [if_neg (fun hc => this.1 hc.symm)]
        · rcases List.mem_cons.1 hm with rfl | hm
          · exact this.2
          · exact h m (List.mem_cons_of_mem _ hm)
    cases p with
    | nil => exact hn.symm
    | cons m p =>
      rw [joinWin, joinPath, ih fun x hx => h x (List.mem_cons_of_mem _ hx), List.map_append, List.map_append, hn]
      rfl

theorem slashes_backslash {s : Bytes} (h : (92 : UInt8) ∉ s) : slashes (s.map backslash) = s := by
  induction s with
  | nil => rfl
  | cons c s ih =>
    simp only [List.mem_cons, not_or] at h
    have := ih h.2
    simp only [slashes, List.map_cons] at this ⊢
    rw [this]
    unfold backslash
    split
    · rename_i hc
      simp [hc]
    · rw [if_neg fun hc => h.1 hc.symm]

theorem prepareIcon_win {w : PackWinEnv} {lin : PackEnv} (hs : SamePlace w lin) {ps : List (Bytes × Bytes)}
    {P : List Bytes → Prop} (hi : IconOnTop w P ps) {d d' : ArgData} (hc : Corr d d')
    (hps : ∀ v, getValueOf d b!"icon" = some v → (b!"icon", v) ∈ ps) {tempDir tempDir' lib : Bytes}
    (ht : w.env.tempDir = some tempDir) (ht' : TempName tempDir')
    (hlib : ∀ c ∈ lib, isSep c = false) (hne : lib ≠ []) {fs : Staged} (hk : Keys P fs) {icon : Option Bytes}
    (h : prepareIconFileWin w d tempDir lib fs = .ok (some icon)) :
    prepareIconFile lin d' tempDir' lib fs = .ok (some icon) := by
  unfold prepareIconFileWin at h
  unfold prepareIconFile
  rw [hc b!"icon" (by decide)]
  cases hv : getValueOf d b!"icon" with
  | none =>
    simp only [hv] at h
    simp only [Option.map_none]
    exact h
  | some v =>
    simp only [hv] at h
    simp only [Option.map_some, or_true, if_true]
    have hmem := hps v hv
    unfold locateIconFileWin at h
    unfold locateIconFile
    rw [hs.iconWalk fs fs rfl]
    cases hwalk : w.env.iconWalk fs with
    | none => simp [hwalk] at h
    | some l =>
      simp only [hwalk] at h
      simp only [afterLastSlash_slashes]
      cases hf : findFileWin (afterLastSep v) l [lib] none with
      | none => simp [hf] at h
      | some p =>
        simp only [hf] at h
        have hlast : LastName (withSlashes v) (afterLastSep v) := by
          rw [withSlashes_eq, ← afterLastSlash_slashes]
          exact lastName_after (slashes v)
        have htop := hi.top v _ hmem hlast fs l hk hwalk
        obtain ⟨rfl, hf'⟩ := findFile_of_win hf htop
        simp only [hf']
        obtain ⟨t, x, h1, h2, h2', h3⟩ := hi.temp v hmem
        rw [ht, Option.some.injEq] at h3
        subst h3
        have hn := afterLastSep_plain v
        generalize afterLastSep v = n at hn h
        have e1 : joinWin ([lib] ++ [n]) = lib ++ b!"\\" ++ n := rfl
        have e2 : joinPath ([lib] ++ [n]) = lib ++ b!"/" ++ n := rfl
        rw [e1, h1, cleanUpWin_eq h2 (by simp [hne])] at h
        rw [e2, cleanUp_eq ht' (by rw [hs.tmpVar]; decide) (by rw [hs.tmpVar]; decide) (by simp [hne])]
        simp only [Res.bind_ok, Option.map_some, Res.ok.injEq, Option.some.injEq] at h ⊢
        rw [← h]
        congr 1
        rw [slashes_append, slashes_append]
        have p1 : slashes lib = lib := slashes_of_not fun hm => by
          have := hlib _ hm
          simp [isSep] at this
        have p2 : slashes n = n := slashes_of_not fun hm => by
          have := hn _ hm
          simp [isSep] at this
        rw [p1, p2]
        rfl

/-! ## The manifest -/

/-- Path of the manifest. -/
abbrev manifestPath (lib : Bytes) : List Bytes := [lib, b!".library", b!"manifest.xml"]

/-- The staging directories of both runs: they differ in the line ends of the manifest. -/
structure Sim (lib : Bytes) (fsW fsL : Staged) : Prop where
  shape : SameShape fsW fsL
  get : ∀ p, p ≠ manifestPath lib → fsW.get p = fsL.get p
  manifest : ∃ c, fsL.get (manifestPath lib) = some (.file c) ∧
    fsW.get (manifestPath lib) = some (.file (textOut c))

theorem Sim.set {lib : Bytes} {fsW fsL : Staged} (h : Sim lib fsW fsL) {p : List Bytes}
    (hp : p ≠ manifestPath lib) (c : Bytes) : Sim lib (fsW.set p (.file c)) (fsL.set p (.file c)) := by
  refine ⟨?_, ?_, ?_⟩
  · have := h.shape
    unfold SameShape at this ⊢
    simp only [Staged.set, List.map_cons, this]
  · intro q hq
    rw [Staged.get_set, Staged.get_set, h.get q hq]
  · obtain ⟨c', h1, h2⟩ := h.manifest
    refine ⟨c', ?_, ?_⟩
    · rw [Staged.get_set, if_neg (Ne.symm hp), h1]
    · rw [Staged.get_set, if_neg (Ne.symm hp), h2]

theorem manifest_win {w : PackWinEnv} {lin : PackEnv} (hs : SamePlace w lin) {lib : Bytes}
    {P : List Bytes → Prop} (hP : CaseApart w lib P) {d d' : ArgData} (hc : Corr d d') {lves : List Bytes}
    {icon : Option Bytes} {fs fsW : Staged} (hk : Keys P fs) (hd : PlainDirs fs)
    (h : writeManifestWin w.env d lib lves icon fs = .ok fsW) :
    ∃ fsL, writeManifest lin d' lib lves icon fs = .ok fsL ∧ Sim lib fsW fsL ∧ Keys P fsW ∧ PlainDirs fsW := by
  have hp : P (manifestPath lib) := hP.top _ (by simp)
  have hp' : P [lib, b!".library"] := hP.top _ (by simp)
  unfold writeManifestWin at h
  unfold writeManifest
  dsimp only at h ⊢
  rw [hs.canWrite]
  rw [wwrite_eq hP.apart hk hp (by simpa using hp')] at h
  cases hw : (if w.env.canWrite (manifestPath lib) then fs.write (manifestPath lib) [] else none) with
  | none =>
    simp only [manifestPath] at hw
    simp [hw] at h
  | some fs1 =>
    have hw1 : fs.write (manifestPath lib) [] = some fs1 := by
      split at hw
      · exact hw
      · simp at hw
    have hk1 := keys_write hk hp hw1
    have hd1 := plainDirs_write hd hw1
    simp only [manifestPath] at hw
    simp only [hw] at h ⊢
    rw [Res.bind_eq_ok] at h
    obtain ⟨doc, h1, h⟩ := h
    simp only [Res.ok.injEq] at h
    rw [spelled_eq hP.apart hk1 hp] at h
    subst h
    have hr : lin.readFile = fun p => (w.env.readFile p).map textIn := by
      funext p
      rw [hs.readFile p]
      congr 1
      funext s
      exact linuxText_eq s
    rw [hr, hc.manifest, h1]
    refine ⟨_, rfl, ⟨?_, ?_, ?_⟩, keys_set hk1 hp _, plainDirs_set hd1 _ _⟩
    · unfold SameShape
      simp [Staged.set, kindOf]
    · intro q hq
      rw [Staged.get_set, Staged.get_set, if_neg hq, if_neg hq]
    · exact ⟨doc, by rw [Staged.get_set, if_pos rfl], by rw [Staged.get_set, if_pos rfl]⟩

/-! ## Encryption -/

/-- States of the encryption in both runs. -/
structure EncSim (lib : Bytes) (P : List Bytes → Prop) (sW sL : EncState) : Prop where
  table : sW.table = winTable sL.table
  keys : ∀ x ∈ sL.table, TableKey x.1
  fs : Sim lib sW.fs sL.fs
  paths : Keys P sW.fs
  dirs : PlainDirs sW.fs

theorem relKey_join {p : List Bytes} (h : ∀ n ∈ p, IsName n) : RelKey (joinPath p) := by
  constructor
  · induction p with
    | nil => simp [joinPath]
    | cons n p ih =>
      have hn : (92 : UInt8) ∉ n := fun hm => ((h n List.mem_cons_self).2 _ hm).2.1 rfl
      cases p with
      | nil => exact hn
      | cons m p =>
        rw [joinPath]
        simp only [List.mem_append, not_or]
        exact ⟨⟨hn, by decide⟩, ih fun x hx => h x (List.mem_cons_of_mem _ hx)⟩
  · cases p with
    | nil => simp [joinPath]
    | cons n p =>
      have hn := h n List.mem_cons_self
      cases n with
      | nil => exact absurd rfl hn.1
      | cons c n =>
        have hc := (hn.2 c List.mem_cons_self).1
        cases p with
        | nil => simpa [joinPath] using hc
        | cons m p => simpa [joinPath] using hc

theorem keys_shape {P : List Bytes → Prop} {fs fs' : Staged} (h : SameShape fs fs') (hk : Keys P fs) :
    Keys P fs' := by
  intro e he
  have : (e.1, kindOf e.2) ∈ fs'.map fun e => (e.1, kindOf e.2) := List.mem_map.2 ⟨e, he, rfl⟩
  rw [← h] at this
  obtain ⟨x, hx, hxe⟩ := List.mem_map.1 this
  simp only [Prod.mk.injEq] at hxe
  rw [← hxe.1]
  exact hk x hx

theorem kind_shape {fs fs' : Staged} (h : SameShape fs fs') (p : List Bytes) :
    (fs.get p).map kindOf = (fs'.get p).map kindOf := by
  unfold SameShape at h
  induction fs generalizing fs' with
  | nil =>
    have : fs' = [] := by simpa using h.symm
    rw [this]
  | cons e fs ih =>
    cases fs' with
    | nil => simp at h
    | cons e' fs' =>
      simp only [List.map_cons, List.cons.injEq, Prod.mk.injEq] at h
      have ih := ih h.2
      unfold Staged.get at ih ⊢
      simp only [List.find?_cons, h.1.1]
      by_cases he : e'.1 = p
      · simp [he, h.1.2]
      · simp only [he, decide_false]
        exact ih

theorem encryptOne_win {w : PackWinEnv} {lin : PackEnv} (hs : SamePlace w lin) {lib : Bytes}
    {P : List Bytes → Prop} (hP : CaseApart w lib P) {eW eL : CrEnv} (hC : eW.C = eL.C)
    (hkey : eW.key = eL.key) (hkl : eW.keyLen = eL.keyLen) {p : List Bytes} (hn : ∀ n ∈ p, IsName n)
    (hp0 : p ≠ []) (hpP : P (lib :: p)) (hpT : P (lib :: encryptedPath p)) (hpD : P (lib :: p.dropLast))
    (hpm : ModelicaName (nameOf p)) {sW sL sW' : EncState} (h0 : EncSim lib P sW sL)
    (h : encryptOneWin w.env eW lib p sW = .ok (sW', true)) :
    ∃ sL', encryptOne lin eL lib p sL = .ok (sL', true) ∧ EncSim lib P sW' sL' := by
  have hm1 : lib :: p ≠ manifestPath lib := by
    intro he
    have : nameOf (lib :: p) = b!"manifest.xml" := by rw [he]; rfl
    rw [nameOf_cons _ hp0] at this
    rw [this, ← isModelicaFile_iff] at hpm
    revert hpm
    decide
  have hm2 : lib :: encryptedPath p ≠ manifestPath lib := by
    intro he
    have : nameOf (lib :: encryptedPath p) = b!"manifest.xml" := by rw [he]; rfl
    rw [nameOf_encryptedPath] at this
    have hl := congrArg List.getLast? this
    simp at hl
  have hdrop : (lib :: encryptedPath p).dropLast = lib :: p.dropLast := by
    unfold encryptedPath
    rw [← List.cons_append, List.dropLast_concat]
  have hshape := h0.fs.shape
  unfold encryptOneWin at h
  unfold encryptOne
  unfold PackEnv.openReadWin at h
  unfold PackEnv.openRead
  rw [hs.canRead, hs.readError, hs.canWrite, hs.iv, hs.mask, hs.writeOk]
  rw [wget_eq hP.apart h0.paths hpP, h0.fs.get _ hm1] at h
  by_cases hcr : w.env.canRead (lib :: p) = true
  · simp only [hcr, if_true] at h ⊢
    cases hg : sL.fs.get (lib :: p) with
    | none => simp [hg] at h
    | some node =>
      cases node with
      | dir => simp [hg] at h
      | file content =>
        simp only [hg] at h ⊢
        rw [wwrite_eq hP.apart h0.paths hpT (by rw [hdrop]; exact hpD)] at h
        cases hw : (if w.env.canWrite (lib :: encryptedPath p) then sW.fs.write (lib :: encryptedPath p) []
            else none) with
        | none => simp [hw] at h
        | some fsx =>
          have hcw : w.env.canWrite (lib :: encryptedPath p) = true := by
            cases hc : w.env.canWrite (lib :: encryptedPath p) with
            | true => rfl
            | false => simp [hc] at hw
          have hwL : ∃ y, sL.fs.write (lib :: encryptedPath p) [] = some y := by
            rw [hcw, if_pos rfl] at hw
            unfold Staged.write at hw ⊢
            split at hw
            · rename_i hcond
              refine ⟨_, if_pos ⟨hcond.1, ?_, ?_⟩⟩
              · have hkd := kind_shape hshape (lib :: encryptedPath p).dropLast
                rw [hcond.2.1] at hkd
                cases hx : sL.fs.get (lib :: encryptedPath p).dropLast with
                | none => simp [hx] at hkd
                | some y =>
                  cases y with
                  | dir => rfl
                  | file c => simp [hx, kindOf] at hkd
              · rw [← h0.fs.get _ hm2]
                exact hcond.2.2
            · simp at hw
          obtain ⟨y, hy⟩ := hwL
          simp only [hw] at h
          simp only [hcw, if_true, hy]
          rw [Res.bind_eq_ok] at h
          obtain ⟨⟨t, bytes, ok⟩, h1, h⟩ := h
          have h47 : ∀ n ∈ p, (47 : UInt8) ∉ n := fun n hm hc => ((hn n hm).2 _ hc).1 rfl
          rw [h0.table, joinWin_eq h47] at h1
          obtain ⟨t1, rfl, ht1, h2⟩ := crEncrypt_win hC hkey hkl h0.keys (relKey_join hn) h1
          rw [h2]
          simp only [Res.ok.injEq, Prod.mk.injEq] at h
          obtain ⟨rfl, rfl⟩ := h
          refine ⟨_, rfl, ⟨rfl, ht1, ?_, ?_, ?_⟩⟩
          · rw [spelled_eq hP.apart h0.paths hpT]
            exact h0.fs.set hm2 _
          · rw [spelled_eq hP.apart h0.paths hpT]
            exact keys_set h0.paths hpT _
          · exact plainDirs_set h0.dirs _ _
  · simp [hcr] at h

theorem package_modelica (dir : List Bytes) : ModelicaName (nameOf (dir ++ [b!"package.mo"])) := by
  rw [nameOf_append]
  exact ⟨b!"package", b!".mo", rfl, by decide⟩

theorem encryptPackage_win {w : PackWinEnv} {lin : PackEnv} (hs : SamePlace w lin) {lib : Bytes}
    {P : List Bytes → Prop} (hP : CaseApart w lib P) {eW eL : CrEnv} (hC : eW.C = eL.C)
    (hkey : eW.key = eL.key) (hkl : eW.keyLen = eL.keyLen) {dir : List Bytes} (hn : ∀ n ∈ dir, IsName n)
    (hpD : P (lib :: dir)) (hp1 : P (lib :: (dir ++ [b!"package.mo"])))
    (hp2 : P (lib :: (dir ++ [b!"package.moc"]))) {sW sL sW' : EncState} (h0 : EncSim lib P sW sL)
    (h : encryptPackageWin w.env eW lib dir sW = .ok (sW', true)) :
    ∃ sL', encryptPackage lin eL lib dir sL = .ok (sL', true) ∧ EncSim lib P sW' sL' := by
  have hm1 : lib :: (dir ++ [b!"package.mo"]) ≠ manifestPath lib := by
    intro he
    have : nameOf (lib :: (dir ++ [b!"package.mo"])) = b!"manifest.xml" := by rw [he]; rfl
    rw [← List.cons_append, nameOf_append] at this
    simp at this
  unfold encryptPackageWin at h
  unfold encryptPackage
  simp only [List.cons_append] at h ⊢
  cases ho : w.env.openReadWin sW.fs (lib :: (dir ++ [b!"package.mo"])) with
  | none =>
    simp only [ho, Res.ok.injEq, Prod.mk.injEq, and_true] at h
    subst h
    have : lin.openRead sL.fs (lib :: (dir ++ [b!"package.mo"])) = none := by
      unfold PackEnv.openReadWin at ho
      unfold PackEnv.openRead
      rw [hs.canRead]
      rw [wget_eq hP.apart h0.paths hp1, h0.fs.get _ hm1] at ho
      split at ho
      · rename_i hcr
        rw [if_pos hcr]
        cases hg : sL.fs.get (lib :: (dir ++ [b!"package.mo"])) with
        | none => rfl
        | some node =>
          cases node with
          | file c => simp [hg] at ho
          | dir =>
            exfalso
            rw [← h0.fs.get _ hm1] at hg
            have hmem : (lib :: (dir ++ [b!"package.mo"]), Node.dir) ∈ sW.fs := by
              unfold Staged.get at hg
              rw [Option.map_eq_some_iff] at hg
              obtain ⟨e, h1, h2⟩ := hg
              have h3 := List.mem_of_find?_eq_some h1
              have h4 := List.find?_some h1
              simp only [decide_eq_true_eq] at h4
              obtain ⟨a, b⟩ := e
              simp only at h2 h4
              subst h2 h4
              exact h3
            rcases h0.dirs _ hmem rfl with hd | hd
            · simp at hd
            · apply hd
              rw [← List.cons_append, nameOf_append]
      · rename_i hcr
        rw [if_neg hcr]
    simp only [this]
    exact ⟨sL, rfl, h0⟩
  | some x =>
    simp only [ho] at h
    have henc : encryptedPath (dir ++ [b!"package.mo"]) = dir ++ [b!"package.moc"] := by
      unfold encryptedPath
      simp
    have hL : ∃ y, lin.openRead sL.fs (lib :: (dir ++ [b!"package.mo"])) = some y := by
      unfold PackEnv.openReadWin at ho
      unfold PackEnv.openRead
      rw [hs.canRead]
      rw [wget_eq hP.apart h0.paths hp1, h0.fs.get _ hm1] at ho
      split at ho
      · rename_i hcr
        rw [if_pos hcr]
        cases hg : sL.fs.get (lib :: (dir ++ [b!"package.mo"])) with
        | none => simp [hg] at ho
        | some node =>
          cases node with
          | file c => exact ⟨_, rfl⟩
          | dir => exact ⟨_, rfl⟩
      · simp at ho
    obtain ⟨y, hy⟩ := hL
    simp only [hy]
    refine encryptOne_win hs hP hC hkey hkl ?_ (by simp) hp1 (by rw [henc]; exact hp2) (by simpa using hpD)
      (package_modelica dir) h0 h
    intro n hm
    rcases List.mem_append.1 hm with hm | hm
    · exact hn n hm
    · simp only [List.mem_singleton] at hm
      subst hm
      exact isName_package

/-- What is required of the entries of a directory that is encrypted. -/
def EncEntry (lib : Bytes) (P : List Bytes → Prop) (e : List Bytes × Kind) : Prop :=
  (∀ n ∈ e.1, IsName n) ∧ P (lib :: e.1) ∧
    (e.2 = .file → ModelicaName (nameOf e.1) → P (lib :: twin e.1)) ∧
    (e.2 = .dir → P (lib :: (e.1 ++ [b!"package.mo"])) ∧ P (lib :: (e.1 ++ [b!"package.moc"])))

theorem encryptEntries_win {w : PackWinEnv} {lin : PackEnv} (hs : SamePlace w lin) {lib : Bytes}
    {P : List Bytes → Prop} (hP : CaseApart w lib P) {eW eL : CrEnv} (hC : eW.C = eL.C)
    (hkey : eW.key = eL.key) (hkl : eW.keyLen = eL.keyLen) (l : Listing) (dir : List Bytes)
    (hd : P (lib :: dir)) (hl : ∀ e ∈ entries l, EncEntry lib P (dir ++ e.1, e.2)) {sW sL sW' : EncState}
    (h0 : EncSim lib P sW sL) (h : encryptEntriesWin w.env eW lib l dir sW = .ok (sW', true)) :
    ∃ sL', encryptEntries lin eL lib l dir sL = .ok (sL', true) ∧ EncSim lib P sW' sL' := by
  induction l generalizing dir sW sL sW' with
  | done =>
    simp only [encryptEntriesWin, Res.ok.injEq, Prod.mk.injEq, and_true] at h
    subst h
    exact ⟨sL, rfl, h0⟩
  | file n rest ih =>
    have hr : ∀ e ∈ entries rest, EncEntry lib P (dir ++ e.1, e.2) :=
      fun e he => hl e (List.mem_cons_of_mem _ he)
    have hx := hl ([n], .file) List.mem_cons_self
    unfold encryptEntriesWin at h
    unfold encryptEntries
    split at h
    · rename_i hn
      rw [if_pos hn]
      exact ih dir hd hr h0 h
    · rename_i hn
      rw [if_neg hn]
      split at h
      · rename_i hm
        rw [if_pos hm]
        rw [Res.bind_eq_ok] at h
        obtain ⟨⟨s1, ok⟩, h1, h⟩ := h
        cases ok with
        | false => simp at h
        | true =>
          have hmod : ModelicaName (nameOf (dir ++ [n])) := by
            rw [nameOf_append]
            exact (isModelicaFile_iff n).1 hm
          obtain ⟨s2, h2, h3⟩ := encryptOne_win hs hP hC hkey hkl hx.1 (by simp) hx.2.1
            (hx.2.2.1 rfl hmod) (by simpa using hd) hmod h0 h1
          rw [h2]
          simp only [Res.bind_ok, if_true] at h ⊢
          exact ih dir hd hr h3 h
      · rename_i hm
        rw [if_neg hm]
        exact ih dir hd hr h0 h
  | dir n sub rest ih1 ih2 =>
    have hr : ∀ e ∈ entries rest, EncEntry lib P (dir ++ e.1, e.2) :=
      fun e he => hl e (List.mem_append_right _ he)
    have hx := hl ([n], .dir) (List.mem_append_left _ List.mem_cons_self)
    have hsub : ∀ e ∈ entries sub, EncEntry lib P (dir ++ [n] ++ e.1, e.2) := by
      intro e he
      have := hl (n :: e.1, e.2) (List.mem_append_left _ (List.mem_cons_of_mem _ (List.mem_map.2 ⟨e, he, rfl⟩)))
      simpa using this
    unfold encryptEntriesWin at h
    unfold encryptEntries
    split at h
    · rename_i hn
      rw [if_pos hn]
      exact ih2 dir hd hr h0 h
    · rename_i hn
      rw [if_neg hn]
      rw [Res.bind_eq_ok] at h
      obtain ⟨⟨s1, ok⟩, h1, h⟩ := h
      cases ok with
      | false => simp at h
      | true =>
        obtain ⟨s2, h2, h3⟩ := encryptPackage_win hs hP hC hkey hkl hx.1 hx.2.1 (hx.2.2.2 rfl).1
          (hx.2.2.2 rfl).2 h0 h1
        rw [h2]
        simp only [if_true] at h
        simp only [Res.bind_ok, if_true]
        rw [Res.bind_eq_ok] at h
        obtain ⟨⟨s3, ok⟩, h4, h⟩ := h
        cases ok with
        | false => simp at h
        | true =>
          obtain ⟨s4, h5, h6⟩ := ih1 (dir ++ [n]) hx.2.1 hsub h3 h4
          rw [h5]
          simp only [Res.bind_ok, if_true] at h ⊢
          exact ih2 dir hd hr h6 h
  | locked n rest ih =>
    unfold encryptEntriesWin at h
    unfold encryptEntries
    split at h
    · rename_i hn
      rw [if_pos hn]
      exact ih dir hd (fun e he => hl e (List.mem_cons_of_mem _ he)) h0 h
    · simp at h
  | other n rest ih =>
    unfold encryptEntriesWin at h
    unfold encryptEntries
    exact ih dir hd (fun e he => hl e (List.mem_cons_of_mem _ he)) h0 h

theorem encryptFiles_win {w : PackWinEnv} {lin : PackEnv} (hs : SamePlace w lin) {lib : Bytes}
    {P : List Bytes → Prop} (hP : CaseApart w lib P) {d d' : ArgData}
    (hu : usingEncryption d' = usingEncryption d) {tW tL : Bytes} {fsW fsL fsW' : Staged}
    (h0 : Sim lib fsW fsL) (hk : Keys P fsW) (hd : PlainDirs fsW)
    (h : encryptFilesWin w.env d tW lib fsW = .ok (some fsW')) :
    ∃ fsL', encryptFiles lin d' tL lib fsL = .ok (some fsL') ∧ Sim lib fsW' fsL' ∧ Keys P fsW' := by
  unfold encryptFilesWin at h
  unfold encryptFiles
  rw [hu]
  split at h
  · rename_i he
    rw [if_pos he]
    rw [Res.bind_eq_ok] at h
    obtain ⟨⟨s, ok⟩, h1, h⟩ := h
    cases ok with
    | false => simp at h
    | true =>
      simp only [if_true, Res.ok.injEq, Option.some.injEq] at h
      subst h
      unfold encryptDirectoryWin at h1
      cases hwalk : w.env.encryptWalk fsW with
      | none => simp [hwalk] at h1
      | some l =>
        simp only [hwalk] at h1
        rw [Res.bind_eq_ok] at h1
        obtain ⟨⟨s1, ok⟩, h2, h1⟩ := h1
        cases ok with
        | false => simp at h1
        | true =>
          simp only [if_true] at h1
          have hC : (w.env.contextWin tW lib).C = (lin.context tL lib).C := hs.C.symm
          have hkey : (w.env.contextWin tW lib).key = (lin.context tL lib).key := hs.key.symm
          have hkl : (w.env.contextWin tW lib).keyLen = (lin.context tL lib).keyLen := hs.keyLen.symm
          have hstart : EncSim lib P ⟨[], fsW, []⟩ ⟨[], fsL, []⟩ := ⟨rfl, by simp, h0, hk, hd⟩
          obtain ⟨s2, h3, h4⟩ := encryptPackage_win hs hP hC hkey hkl (by simp) (hP.top [lib] (by simp))
            (hP.top [lib, b!"package.mo"] (by simp)) (hP.top [lib, b!"package.moc"] (by simp)) hstart h2
          obtain ⟨s3, h5, h6⟩ := encryptEntries_win hs hP hC hkey hkl l [] (hP.top [lib] (by simp))
            (fun e he => hP.encrypt fsW l hk hwalk e he) h4 h1
          refine ⟨s3.fs, ?_, h6.fs, h6.paths⟩
          unfold encryptDirectory
          rw [h3, hs.encryptWalk fsW fsL h0.shape, hwalk]
          simp only [Res.bind_ok, if_true, h5]
  · rename_i he
    rw [if_neg he]
    simp only [Res.ok.injEq, Option.some.injEq] at h
    subst h
    exact ⟨fsL, rfl, h0, hk⟩

/-! ## The archive -/

theorem zipEntries_win {w : PackWinEnv} {lin : PackEnv} (hs : SamePlace w lin) {lib : Bytes}
    {P : List Bytes → Prop} (hA : Apart P) {enc : Bool} {fsW fsL : Staged} (h0 : Sim lib fsW fsL)
    (hk : Keys P fsW) (l : Listing) (dir : List Bytes) (hl : ∀ e ∈ entries l, P (dir ++ e.1)) (res : Bool)
    {a : Archive} (h : zipEntriesWin w.env enc fsW l dir res = .ok (a, true)) :
    ∃ a', zipEntries lin enc fsL l dir = (a', true) ∧ a = a'.map (winFile lib) ∧ (a ≠ [] ∨ res = true) := by
  induction l generalizing dir res a with
  | done =>
    simp only [zipEntriesWin, Res.ok.injEq, Prod.mk.injEq] at h
    obtain ⟨rfl, rfl⟩ := h
    exact ⟨[], rfl, rfl, Or.inr rfl⟩
  | file n rest ih =>
    have hr : ∀ e ∈ entries rest, P (dir ++ e.1) := fun e he => hl e (List.mem_cons_of_mem _ he)
    have hp : P (dir ++ [n]) := hl ([n], .file) List.mem_cons_self
    unfold zipEntriesWin at h
    unfold zipEntries
    split at h
    · rename_i hc
      rw [if_pos hc]
      rw [wget_eq hA hk hp] at h
      cases hg : fsW.get (dir ++ [n]) with
      | none => simp [hg] at h
      | some node =>
        cases node with
        | dir => simp [hg] at h
        | file c =>
          simp only [hg] at h
          split at h
          · simp at h
          · split at h
            · rename_i hz
              rw [Res.bind_eq_ok] at h
              obtain ⟨⟨b, ok⟩, h1, h⟩ := h
              simp only [Res.ok.injEq, Prod.mk.injEq] at h
              obtain ⟨rfl, rfl⟩ := h
              obtain ⟨b', h2, h3, -⟩ := ih dir hr true h1
              by_cases hm : dir ++ [n] = manifestPath lib
              · obtain ⟨c', h4, h5⟩ := h0.manifest
                rw [hm] at hg
                rw [h5, Option.some.injEq, Node.file.injEq] at hg
                simp only [hm, h4]
                rw [hs.zipAdds, ← hm, if_pos hz, h2]
                refine ⟨(dir ++ [n], c') :: b', by rw [hm], ?_, Or.inl (by simp)⟩
                rw [List.map_cons, h3, winFile, if_pos hm, crlf_eq, ← hg]
              · have hgL : fsL.get (dir ++ [n]) = some (.file c) := by rw [← h0.get _ hm, hg]
                simp only [hgL]
                rw [hs.zipAdds, if_pos hz, h2]
                refine ⟨(dir ++ [n], c) :: b', rfl, ?_, Or.inl (by simp)⟩
                rw [List.map_cons, h3, winFile, if_neg hm]
            · simp at h
    · rename_i hc
      rw [if_neg hc]
      exact ih dir hr res h
  | dir n sub rest ih1 ih2 =>
    have hr : ∀ e ∈ entries rest, P (dir ++ e.1) := fun e he => hl e (List.mem_append_right _ he)
    have hsub : ∀ e ∈ entries sub, P (dir ++ [n] ++ e.1) := by
      intro e he
      have := hl (n :: e.1, e.2) (List.mem_append_left _ (List.mem_cons_of_mem _ (List.mem_map.2 ⟨e, he, rfl⟩)))
      simpa using this
    unfold zipEntriesWin at h
    unfold zipEntries
    rw [Res.bind_eq_ok] at h
    obtain ⟨⟨b, ok⟩, h1, h⟩ := h
    cases ok with
    | false => simp at h
    | true =>
      simp only [if_true] at h
      rw [Res.bind_eq_ok] at h
      obtain ⟨⟨c, ok⟩, h2, h⟩ := h
      simp only [Res.ok.injEq, Prod.mk.injEq] at h
      obtain ⟨rfl, rfl⟩ := h
      obtain ⟨b', h3, h4, h5⟩ := ih1 (dir ++ [n]) hsub false h1
      obtain ⟨c', h6, h7, -⟩ := ih2 dir hr true h2
      simp only [h3, h6, if_true]
      refine ⟨b' ++ c', rfl, by rw [h4, h7, List.map_append], Or.inl ?_⟩
      rcases h5 with h5 | h5
      · simp [h5]
      · simp at h5
  | locked n rest ih => simp [zipEntriesWin] at h
  | other n rest ih =>
    unfold zipEntriesWin at h
    unfold zipEntries
    exact ih dir (fun e he => hl e (List.mem_cons_of_mem _ he)) res h

/-- Something is added for every directory. -/
theorem zipEntriesWin_full {env : PackEnv} {enc : Bool} {fs : Staged} (l : Listing) (dir : List Bytes) (res : Bool)
    {a : Archive} (h : zipEntriesWin env enc fs l dir res = .ok (a, true)) :
    ∀ p, (p, Kind.dir) ∈ entries l → ∃ f ∈ a, (dir ++ p) <+: f.1 := by
  have below : ∀ (l : Listing) (dir : List Bytes) (res : Bool) (a : Archive) (ok : Bool),
      zipEntriesWin env enc fs l dir res = .ok (a, ok) → (∀ f ∈ a, dir <+: f.1) ∧ (a = [] → ok = true → res = true) := by
    intro l
    induction l with
    | done =>
      intro dir res a ok h
      simp only [zipEntriesWin, Res.ok.injEq, Prod.mk.injEq] at h
      obtain ⟨rfl, rfl⟩ := h
      exact ⟨by simp, fun _ h => h⟩
    | file n rest ih =>
      intro dir res a ok h
      unfold zipEntriesWin at h
      split at h
      · split at h
        · simp only [Res.ok.injEq, Prod.mk.injEq] at h
          obtain ⟨rfl, rfl⟩ := h
          exact ⟨by simp, by simp⟩
        · simp at h
        · split at h
          · simp at h
          · split at h
            · rw [Res.bind_eq_ok] at h
              obtain ⟨⟨b, ok'⟩, h1, h⟩ := h
              simp only [Res.ok.injEq, Prod.mk.injEq] at h
              obtain ⟨rfl, rfl⟩ := h
              refine ⟨?_, by simp⟩
              intro f hf
              rcases List.mem_cons.1 hf with rfl | hf
              · simp
              · exact (ih dir true b _ h1).1 f hf
            · simp only [Res.ok.injEq, Prod.mk.injEq] at h
              obtain ⟨rfl, rfl⟩ := h
              exact ⟨by simp, by simp⟩
      · exact ih dir res a ok h
    | dir n sub rest ih1 ih2 =>
      intro dir res a ok h
      unfold zipEntriesWin at h
      rw [Res.bind_eq_ok] at h
      obtain ⟨⟨b, ok1⟩, h1, h⟩ := h
      have k1 := ih1 (dir ++ [n]) false b ok1 h1
      have k1' : ∀ f ∈ b, dir <+: f.1 := fun f hf => (List.prefix_append dir [n]).trans (k1.1 f hf)
      cases ok1 with
      | false =>
        simp only [Bool.false_eq_true, if_false, Res.ok.injEq, Prod.mk.injEq] at h
        obtain ⟨rfl, rfl⟩ := h
        exact ⟨k1', by simp⟩
      | true =>
        simp only [if_true] at h
        rw [Res.bind_eq_ok] at h
        obtain ⟨⟨c, ok2⟩, h2, h⟩ := h
        simp only [Res.ok.injEq, Prod.mk.injEq] at h
        obtain ⟨rfl, rfl⟩ := h
        refine ⟨?_, ?_⟩
        · intro f hf
          rcases List.mem_append.1 hf with hf | hf
          · exact k1' f hf
          · exact (ih2 dir true c _ h2).1 f hf
        · intro he
          have := k1.2 (List.append_eq_nil_iff.1 he).1 rfl
          simp at this
    | locked n rest ih =>
      intro dir res a ok h
      simp only [zipEntriesWin, Res.ok.injEq, Prod.mk.injEq] at h
      obtain ⟨rfl, rfl⟩ := h
      exact ⟨by simp, by simp⟩
    | other n rest ih =>
      intro dir res a ok h
      unfold zipEntriesWin at h
      exact ih dir res a ok h
  induction l generalizing dir res a with
  | done => simp [entries]
  | file n rest ih =>
    intro p hp
    have hp : (p, Kind.dir) ∈ entries rest := by simpa [entries] using hp
    unfold zipEntriesWin at h
    split at h
    · split at h
      · simp at h
      · simp at h
      · split at h
        · simp at h
        · split at h
          · rw [Res.bind_eq_ok] at h
            obtain ⟨⟨b, ok'⟩, h1, h⟩ := h
            simp only [Res.ok.injEq, Prod.mk.injEq] at h
            obtain ⟨rfl, rfl⟩ := h
            obtain ⟨f, f1, f2⟩ := ih dir true h1 p hp
            exact ⟨f, List.mem_cons_of_mem _ f1, f2⟩
          · simp at h
    · exact ih dir res h p hp
  | dir n sub rest ih1 ih2 =>
    intro p hp
    unfold zipEntriesWin at h
    rw [Res.bind_eq_ok] at h
    obtain ⟨⟨b, ok1⟩, h1, h⟩ := h
    cases ok1 with
    | false => simp at h
    | true =>
      simp only [if_true] at h
      rw [Res.bind_eq_ok] at h
      obtain ⟨⟨c, ok2⟩, h2, h⟩ := h
      simp only [Res.ok.injEq, Prod.mk.injEq] at h
      obtain ⟨rfl, rfl⟩ := h
      simp only [entries, List.cons_append, List.mem_cons, List.mem_append, List.mem_map, Prod.mk.injEq,
        and_true] at hp
      rcases hp with rfl | ⟨⟨q, k⟩, a1, rfl, rfl⟩ | hp
      · have k1 := below sub (dir ++ [n]) false b true h1
        cases b with
        | nil =>
          have := k1.2 rfl rfl
          simp at this
        | cons f b => exact ⟨f, by simp, k1.1 f List.mem_cons_self⟩
      · obtain ⟨f, f1, f2⟩ := ih1 (dir ++ [n]) false h1 q a1
        exact ⟨f, List.mem_append_left _ f1, by simpa using f2⟩
      · obtain ⟨f, f1, f2⟩ := ih2 dir true h2 p hp
        exact ⟨f, List.mem_append_right _ f1, f2⟩
  | locked n rest ih => simp [zipEntriesWin] at h
  | other n rest ih =>
    intro p hp
    have hp : (p, Kind.dir) ∈ entries rest := by simpa [entries] using hp
    unfold zipEntriesWin at h
    exact ih dir res h p hp

theorem createZip_win {w : PackWinEnv} {lin : PackEnv} (hs : SamePlace w lin) {lib : Bytes}
    {P : List Bytes → Prop} (hP : CaseApart w lib P) {d d' : ArgData}
    (hu : usingEncryption d' = usingEncryption d) {fsW fsL : Staged} (h0 : Sim lib fsW fsL)
    (hk : Keys P fsW) {o : Option Archive} (h : createZipArchiveWin w.env d fsW = .ok (o, true)) :
    ∃ a', createZipArchive lin d' fsL = (some a', true) ∧ o = some (a'.map (winFile lib)) ∧
      ∃ zl, lin.zipWalk fsL = some zl ∧ ∀ p, (p, Kind.dir) ∈ entries zl → ∃ f ∈ a', p <+: f.1 := by
  unfold createZipArchiveWin at h
  unfold createZipArchive
  rw [hs.zipOpens, if_pos rfl, hs.zipWalk fsW fsL h0.shape, hs.zipCloses, hu]
  cases hwalk : w.env.zipWalk fsW with
  | none => simp [hwalk] at h
  | some l =>
    simp only [hwalk] at h
    rw [Res.bind_eq_ok] at h
    obtain ⟨⟨a, ok⟩, h1, h⟩ := h
    simp only [Res.ok.injEq, Prod.mk.injEq] at h
    obtain ⟨rfl, rfl⟩ := h
    obtain ⟨a', h2, h3, h4⟩ := zipEntries_win hs hP.apart h0 hk l [] (fun e he => hP.zip fsW l hk hwalk e he)
      false h1
    have hne : a ≠ [] := h4.resolve_right (by simp)
    simp only [h2, if_true]
    refine ⟨a', rfl, by rw [if_neg hne, h3], l, rfl, ?_⟩
    intro p hp
    obtain ⟨f, f1, f2⟩ := zipEntriesWin_full l [] false h1 p hp
    rw [h3] at f1
    obtain ⟨f', f3, rfl⟩ := List.mem_map.1 f1
    refine ⟨f', f3, ?_⟩
    rw [List.nil_append] at f2
    unfold winFile at f2
    split at f2 <;> exact f2

end Semla
