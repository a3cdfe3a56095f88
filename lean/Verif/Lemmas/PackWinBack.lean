import Verif.Lemmas.PackWinAll

/-!
# A run on Linux is one on Windows
-/

namespace Semla

open Spec

/-! ## Directories of the staging directory -/

/-- All directories are in a set. -/
def DirsIn (D : List Bytes → Prop) (fs : Staged) : Prop := ∀ e ∈ fs, e.2 = .dir → D e.1

theorem dirsIn_set {D : List Bytes → Prop} {fs : Staged} (h : DirsIn D fs) (p : List Bytes) (c : Bytes) :
    DirsIn D (fs.set p (.file c)) := by
  intro e he hd
  rcases List.mem_cons.1 he with rfl | he
  · simp at hd
  · exact h e he hd

theorem dirsIn_write {D : List Bytes → Prop} {fs fs' : Staged} (h : DirsIn D fs) {p : List Bytes} {c : Bytes}
    (hw : fs.write p c = some fs') : DirsIn D fs' := by
  unfold Staged.write at hw
  split at hw
  · simp only [Option.some.injEq] at hw
    subst hw
    exact dirsIn_set h p c
  · simp at hw

theorem dirsIn_mkdir {D : List Bytes → Prop} {fs fs' : Staged} (h : DirsIn D fs) {p : List Bytes} (hp : D p)
    (hw : fs.mkdir p = some fs') : DirsIn D fs' := by
  unfold Staged.mkdir at hw
  split at hw
  · simp only [Option.some.injEq] at hw
    subst hw
    intro e he hd
    rcases List.mem_cons.1 he with rfl | he
    · exact hp
    · exact h e he hd
  · simp at hw

theorem dirsIn_getD {D : List Bytes → Prop} {fs : Staged} (h : DirsIn D fs) {o : Option Staged}
    (ho : ∀ x, o = some x → DirsIn D x) : DirsIn D (o.getD fs) := by
  cases o with
  | none => exact h
  | some x => exact ho x rfl

theorem dirsIn_get {D : List Bytes → Prop} {fs : Staged} (h : DirsIn D fs) {p : List Bytes}
    (hg : fs.get p = some .dir) : D p := by
  unfold Staged.get at hg
  rw [Option.map_eq_some_iff] at hg
  obtain ⟨e, h1, h2⟩ := hg
  have h3 := List.mem_of_find?_eq_some h1
  have h4 := List.find?_some h1
  simp only [decide_eq_true_eq] at h4
  rw [← h4]
  exact h e h3 h2

theorem outsideCons {n : Bytes} {p : List Bytes} (hn : ¬ n = b!".library") (hp : Outside p) :
    Outside (n :: p) := by
  intro hm
  rcases List.mem_cons.1 hm with hm | hm
  · exact hn hm.symm
  · exact hp hm

theorem outside_single {n : Bytes} (hn : ¬ n = b!".library") : Outside [n] := outsideCons hn (by simp [Outside])

theorem copyEntries_dirsIn {D : List Bytes → Prop} (s : Source) (l : Listing) (src dst : List Bytes) (fs : Staged)
    (hl : ∀ e ∈ entries l, e.2 ≠ .file → Outside e.1 → D (dst ++ e.1)) (h : DirsIn D fs) :
    DirsIn D (copyEntries s l src dst fs) := by
  induction l generalizing src dst fs with
  | done => exact h
  | file n rest ih =>
    have hr : ∀ e ∈ entries rest, e.2 ≠ .file → Outside e.1 → D (dst ++ e.1) :=
      fun e he => hl e (List.mem_cons_of_mem _ he)
    unfold copyEntries
    split
    · exact ih src dst fs hr h
    · refine ih src dst _ hr ?_
      cases s.copied (src ++ [n]) with
      | none => exact h
      | some c => exact dirsIn_getD h fun x hx => dirsIn_write h hx
  | dir n sub rest ih1 ih2 =>
    have hr : ∀ e ∈ entries rest, e.2 ≠ .file → Outside e.1 → D (dst ++ e.1) :=
      fun e he => hl e (List.mem_append_right _ he)
    unfold copyEntries
    split
    · exact ih2 src dst fs hr h
    · rename_i hn
      refine ih2 src dst _ hr (ih1 _ _ _ ?_ ?_)
      · intro e he h1 h2
        have := hl (n :: e.1, e.2) (List.mem_append_left _ (List.mem_cons_of_mem _ (List.mem_map.2 ⟨e, he, rfl⟩)))
          h1 (outsideCons hn h2)
        simpa using this
      · split
        · exact dirsIn_getD h fun x hx => dirsIn_mkdir h
            (hl ([n], .dir) (List.mem_append_left _ List.mem_cons_self) (by simp) (outside_single hn)) hx
        · exact h
  | locked n rest ih =>
    have hr : ∀ e ∈ entries rest, e.2 ≠ .file → Outside e.1 → D (dst ++ e.1) :=
      fun e he => hl e (List.mem_cons_of_mem _ he)
    unfold copyEntries
    split
    · exact ih src dst fs hr h
    · rename_i hn
      refine ih src dst _ hr ?_
      split
      · exact dirsIn_getD h fun x hx => dirsIn_mkdir h
          (hl ([n], .locked) List.mem_cons_self (by simp) (outside_single hn)) hx
      · exact h
  | other n rest ih =>
    unfold copyEntries
    exact ih src dst fs (fun e he => hl e (List.mem_cons_of_mem _ he)) h

theorem copyLves_dirsIn {D : List Bytes → Prop} {env : PackEnv} {lib : Bytes} (ns : List Bytes) {fs : Staged}
    {r : Staged × List Bytes} (hd : DirsIn D fs) (h : copyLves env lib ns fs = some r) : DirsIn D r.1 := by
  induction ns generalizing fs r with
  | nil =>
    simp only [copyLves, Option.some.injEq] at h
    rw [← h]
    exact hd
  | cons n ns ih =>
    unfold copyLves at h
    split at h
    · split at h
      · rename_i c _
        cases hw : fs.write [lib, b!".library", n] c with
        | none => simp [hw] at h
        | some fs1 =>
          simp only [hw, Option.map_eq_some_iff] at h
          obtain ⟨r1, h1, rfl⟩ := h
          exact ih (r := r1) (dirsIn_write hd hw) h1
      · simp at h
    · exact ih hd h

/-! ## Copying -/

theorem copyEntries_back {P : List Bytes → Prop} (hP : Apart P) {fetch : List Bytes → Fetched} {s : Source}
    (l : Listing) (src dst : List Bytes) (fs : Staged) (hn : NoRepeats l)
    (hkind : ∀ e ∈ entries l, e.2 = .file ∨ e.2 = .dir)
    (hc : ∀ p, (p, Kind.file) ∈ entries l → Outside p →
      ∃ c, s.copied (src ++ p) = some c ∧ fetch (src ++ p) = .data c)
    (hm : ∀ p, (p, Kind.dir) ∈ entries l → Outside p → s.mkdirOk (src ++ p) = true)
    (hdir : fs.get dst = some .dir)
    (hfile : ∀ p, (p, Kind.file) ∈ entries l → fs.get (dst ++ p) ≠ some .dir)
    (hsub : ∀ p, (p, Kind.dir) ∈ entries l → ∀ c, fs.get (dst ++ p) ≠ some (.file c))
    (hk : Keys P fs) (hd : P dst) (hl : ∀ e ∈ entries l, P (dst ++ e.1)) :
    copyEntriesWin fetch s.mkdirOk l src dst fs = .ok (copyEntries s l src dst fs, true) ∧
      Keys P (copyEntries s l src dst fs) ∧
      ∀ p, (p, Kind.dir) ∈ entries l → Outside p → (copyEntries s l src dst fs).get (dst ++ p) = some .dir := by
  induction l generalizing src dst fs with
  | done => exact ⟨rfl, hk, by simp [entries]⟩
  | file n rest ih =>
    obtain ⟨hn1, hn2⟩ := noRepeats_file hn
    have r1 : ∀ e ∈ entries rest, e.2 = .file ∨ e.2 = .dir := fun e he => hkind e (List.mem_cons_of_mem _ he)
    have r2 := fun p (hp : (p, Kind.file) ∈ entries rest) => hc p (List.mem_cons_of_mem _ hp)
    have r3 := fun p (hp : (p, Kind.dir) ∈ entries rest) => hm p (List.mem_cons_of_mem _ hp)
    have r4 := fun p (hp : (p, Kind.file) ∈ entries rest) => hfile p (List.mem_cons_of_mem _ hp)
    have r5 := fun p (hp : (p, Kind.dir) ∈ entries rest) => hsub p (List.mem_cons_of_mem _ hp)
    have r6 : ∀ e ∈ entries rest, P (dst ++ e.1) := fun e he => hl e (List.mem_cons_of_mem _ he)
    have mem : ∀ {p}, (p, Kind.dir) ∈ entries (.file n rest) → (p, Kind.dir) ∈ entries rest := by
      intro p hp
      simpa [entries] using hp
    unfold copyEntriesWin copyEntries
    split
    · obtain ⟨j1, j2, j3⟩ := ih src dst fs hn2 r1 r2 r3 hdir r4 r5 hk hd r6
      exact ⟨j1, j2, fun p hp => j3 p (mem hp)⟩
    · rename_i hlib
      obtain ⟨c, c1, c2⟩ := hc [n] List.mem_cons_self (outside_single hlib)
      have hp : P (dst ++ [n]) := hl ([n], .file) List.mem_cons_self
      have hw : fs.write (dst ++ [n]) c = some (fs.set (dst ++ [n]) (.file c)) := by
        unfold Staged.write
        rw [if_pos ⟨by simp, by simpa using hdir, hfile [n] List.mem_cons_self⟩]
      simp only [c1, c2]
      rw [wwrite_eq hP hk hp (by simpa using hd), hw]
      simp only [Option.getD_some]
      have ne : ∀ p k, (p, k) ∈ entries rest → dst ++ p ≠ dst ++ [n] := by
        intro p k hp' he
        rw [List.append_cancel_left he] at hp'
        exact hn1 (List.mem_map.2 ⟨_, hp', rfl⟩)
      obtain ⟨j1, j2, j3⟩ := ih src dst (fs.set (dst ++ [n]) (.file c)) hn2 r1 r2 r3
        (by
          rw [Staged.get_set, if_neg (by simp)]
          exact hdir)
        (by
          intro p hp'
          rw [Staged.get_set, if_neg (ne p _ hp')]
          exact r4 p hp')
        (by
          intro p hp'
          rw [Staged.get_set, if_neg (ne p _ hp')]
          exact r5 p hp') (keys_set hk hp _) hd r6
      exact ⟨j1, j2, fun p hp => j3 p (mem hp)⟩
  | dir n sub rest ih1 ih2 =>
    obtain ⟨hns, hnr, hn1, hn2⟩ := noRepeats_dir hn
    have mr : ∀ {e}, e ∈ entries rest → e ∈ entries (.dir n sub rest) := fun he => List.mem_append_right _ he
    have ms : ∀ {p k}, (p, k) ∈ entries sub → (n :: p, k) ∈ entries (.dir n sub rest) := fun {p k} he =>
      List.mem_append_left _ (List.mem_cons_of_mem _ (List.mem_map.2 ⟨(p, k), he, rfl⟩))
    have m0 : ([n], Kind.dir) ∈ entries (.dir n sub rest) := List.mem_append_left _ List.mem_cons_self
    have r1 : ∀ e ∈ entries rest, e.2 = .file ∨ e.2 = .dir := fun e he => hkind e (mr he)
    have r2 := fun p (hp : (p, Kind.file) ∈ entries rest) => hc p (mr hp)
    have r3 := fun p (hp : (p, Kind.dir) ∈ entries rest) => hm p (mr hp)
    have r4 := fun p (hp : (p, Kind.file) ∈ entries rest) => hfile p (mr hp)
    have r5 := fun p (hp : (p, Kind.dir) ∈ entries rest) => hsub p (mr hp)
    have r6 : ∀ e ∈ entries rest, P (dst ++ e.1) := fun e he => hl e (mr he)
    unfold copyEntriesWin copyEntries
    split
    · rename_i hlib
      obtain ⟨j1, j2, j3⟩ := ih2 src dst fs hnr r1 r2 r3 hdir r4 r5 hk hd r6
      refine ⟨j1, j2, fun p hp ho => ?_⟩
      simp only [entries, List.cons_append, List.mem_cons, List.mem_append, List.mem_map, Prod.mk.injEq,
        and_true] at hp
      rcases hp with rfl | ⟨a, -, rfl, -⟩ | hp
      · exact absurd ho (by simp [Outside, hlib])
      · exact absurd ho (by simp [Outside, hlib])
      · exact j3 p hp ho
    · rename_i hlib
      have hp : P (dst ++ [n]) := hl ([n], .dir) m0
      rw [hm [n] m0 (outside_single hlib)]
      simp only [if_true]
      rw [wmkdir_eq hP hk hp (by simpa using hd)]
      have hk2 : Keys P ((fs.mkdir (dst ++ [n])).getD fs) := by
        cases hx : fs.mkdir (dst ++ [n]) with
        | none => simpa using hk
        | some x => simpa using keys_mkdir hk hp hx
      have hg : ((fs.mkdir (dst ++ [n])).getD fs).get (dst ++ [n]) = some .dir := by
        cases hx : fs.mkdir (dst ++ [n]) with
        | some x => rw [Option.getD_some, Staged.get_mkdir hx, if_pos rfl]
        | none =>
          rw [Option.getD_none]
          unfold Staged.mkdir at hx
          split at hx
          · simp at hx
          · rename_i hcond
            cases hy : fs.get (dst ++ [n]) with
            | none => exact absurd ⟨by simp, by simpa using hdir, hy⟩ hcond
            | some y =>
              cases y with
              | dir => rfl
              | file c => exact absurd hy (hsub [n] m0 c)
      have hne : ∀ q, q ≠ dst ++ [n] → ((fs.mkdir (dst ++ [n])).getD fs).get q = fs.get q :=
        fun q hq => mkdir_frame fs _ q hq
      have long : ∀ p : List Bytes, p ≠ [] → dst ++ [n] ++ p ≠ dst ++ [n] := by
        intro p hp he
        exact hp (List.append_right_eq_self.1 he)
      obtain ⟨k1, k2, k3⟩ := ih1 (src ++ [n]) (dst ++ [n]) ((fs.mkdir (dst ++ [n])).getD fs) hns
        (fun e he => hkind (n :: e.1, e.2) (ms he))
        (fun p hp ho => by
          have := hc (n :: p) (ms hp) (outsideCons hlib ho)
          simpa using this)
        (fun p hp ho => by
          have := hm (n :: p) (ms hp) (outsideCons hlib ho)
          simpa using this) hg
        (fun p hp => by
          rw [hne _ (long p (entries_ne_nil sub _ hp))]
          have := hfile (n :: p) (ms hp)
          simpa using this)
        (fun p hp => by
          rw [hne _ (long p (entries_ne_nil sub _ hp))]
          have := hsub (n :: p) (ms hp)
          simpa using this) hk2 hp
        (fun e he => by
          have := hl (n :: e.1, e.2) (ms he)
          simpa using this)
      have ne1 : ∀ p, p ∈ (entries rest).map (·.1) → dst ++ p ≠ dst ++ [n] := by
        intro p hp' he
        rw [List.append_cancel_left he] at hp'
        exact hn1 hp'
      have ne2 : ∀ p, p ∈ (entries rest).map (·.1) → ∀ q ∈ (entries sub).map (·.1), dst ++ p ≠ dst ++ [n] ++ q := by
        intro p hp' q hq he
        rw [List.append_assoc] at he
        rw [List.append_cancel_left he] at hp'
        exact hn2 q hq hp'
      rw [k1, Res.bind_ok]
      have keep : ∀ q, (∀ p ∈ (entries sub).map (·.1), q ≠ dst ++ [n] ++ p) → q ≠ dst ++ [n] →
          (copyEntries s sub (src ++ [n]) (dst ++ [n]) ((fs.mkdir (dst ++ [n])).getD fs)).get q = fs.get q := by
        intro q q1 q2
        rw [copyEntries_frame _ _ _ _ _ _ q1, hne _ q2]
      obtain ⟨j1, j2, j3⟩ := ih2 src dst (copyEntries s sub (src ++ [n]) (dst ++ [n])
          ((fs.mkdir (dst ++ [n])).getD fs)) hnr r1 r2 r3
        (by
          rw [keep _ _ (by simp)]
          · exact hdir
          · intro p _ he
            rw [List.append_assoc] at he
            simp at he)
        (by
          intro p hp'
          have hmem : p ∈ (entries rest).map (·.1) := List.mem_map.2 ⟨_, hp', rfl⟩
          rw [keep _ (ne2 p hmem) (ne1 p hmem)]
          exact r4 p hp')
        (by
          intro p hp'
          have hmem : p ∈ (entries rest).map (·.1) := List.mem_map.2 ⟨_, hp', rfl⟩
          rw [keep _ (ne2 p hmem) (ne1 p hmem)]
          exact r5 p hp') k2 hd r6
      refine ⟨j1, j2, fun p hp ho => ?_⟩
      simp only [entries, List.cons_append, List.mem_cons, List.mem_append, List.mem_map, Prod.mk.injEq,
        and_true] at hp
      rcases hp with rfl | ⟨a, a1, rfl, a2⟩ | hp
      · rw [copyEntries_frame _ _ _ _ _ _ fun p hp => Ne.symm (ne1 p hp), copyEntries_frame, hg]
        intro p hp he
        obtain ⟨e, e1, rfl⟩ := List.mem_map.1 hp
        exact long _ (entries_ne_nil sub e e1) he.symm
      · obtain ⟨q, k⟩ := a
        simp only at a2
        subst a2
        have hq : q ∈ (entries sub).map (·.1) := List.mem_map.2 ⟨_, a1, rfl⟩
        have e : dst ++ n :: q = dst ++ [n] ++ q := by simp
        rw [e, copyEntries_frame _ _ _ _ _ _ fun p hp => Ne.symm (ne2 p hp q hq)]
        exact k3 q a1 fun hm => ho (List.mem_cons_of_mem _ hm)
      · exact j3 p hp ho
  | locked n rest ih => exact absurd (hkind _ List.mem_cons_self) (by simp)
  | other n rest ih => exact absurd (hkind _ List.mem_cons_self) (by simp)

theorem copyFolder_back {w : PackWinEnv} {lin : PackEnv} (hs : SamePlace w lin) (hw : AlsoWindows w lin) {lib : Bytes}
    {P : List Bytes → Prop} (hP : CaseApart w lib P) {l : Listing} (hl : lin.library = some l)
    {content : List Bytes → Bytes} (hc : Copyable lin.librarySource l content) {D : List Bytes → Prop}
    (d0 : D []) (d1 : D [lib]) (dl : ∀ p, (p, Kind.dir) ∈ entries l → Outside p → D (lib :: p)) {fs : Staged}
    (h : copyFolderStructure lin lib = some fs) :
    copyFolderStructureWin w lib = .ok (some fs) ∧ Keys P fs ∧ DirsIn D fs ∧ fs.get [lib] = some .dir ∧
      ∀ q, fs.get (lib :: b!".library" :: q) = none := by
  unfold copyFolderStructure at h
  unfold copyFolderStructureWin
  have hA : Apart P := hP.apart
  have h0 : Keys P Staged.empty := by
    intro e he
    simp only [Staged.empty, List.mem_singleton] at he
    subst he
    exact hP.top [] (by simp)
  have g0 : DirsIn D Staged.empty := by
    intro e he _
    simp only [Staged.empty, List.mem_singleton] at he
    subst he
    exact d0
  have h1 : P [lib] := hP.top [lib] (by simp)
  split at h
  · simp at h
  · rename_i hn
    rw [hs.mkdirOk] at hn
    rw [if_neg (by
      rw [hw.mkdir]
      simpa using hn)]
    rw [wmkdir_eq hA h0 h1 (hP.top [] (by simp))]
    cases hm : Staged.empty.mkdir [lib] with
    | none => simp [hm] at h
    | some fs1 =>
      simp only [hm, hl, copyDirectory, Option.map_some, Option.some.injEq] at h
      subst h
      have hget : ∀ q, fs1.get q = if q = [lib] then some .dir else Staged.empty.get q := Staged.get_mkdir hm
      have hne : ∀ p ∈ (entries l).map (·.1), ([lib] : List Bytes) ≠ [lib] ++ p := by
        intro p hp he
        obtain ⟨e, he1, rfl⟩ := List.mem_map.1 hp
        exact entries_ne_nil l e he1 (List.append_right_eq_self.1 he.symm)
      have hfresh : ∀ p ∈ (entries l).map (·.1), fs1.get ([lib] ++ p) = none := by
        intro p hp
        rw [hget, if_neg (Ne.symm (hne p hp))]
        simp [Staged.empty, Staged.get]
      have htop : fs1.get [lib] = some .dir := by rw [hget, if_pos rfl]
      obtain ⟨k1, k2, -⟩ := copyEntries_back hA (fetch := w.fetch) (s := lin.librarySource) l [] [lib] fs1 hc.nodup
        hc.kinds (fun p hp ho => ⟨content p, hc.copied p hp ho, hw.libraryFiles _ _ (hc.copied p hp ho)⟩)
        (fun p hp ho => hc.made p hp ho) htop
        (fun p hp => by rw [hfresh p (List.mem_map.2 ⟨_, hp, rfl⟩)]; simp)
        (fun p hp c => by rw [hfresh p (List.mem_map.2 ⟨_, hp, rfl⟩)]; simp)
        (keys_mkdir h0 h1 hm) h1 (fun e he => hP.library l (by rw [← hs.library, hl]) e he)
      obtain ⟨q1, -, -, q4⟩ := copyEntries_spec lin.librarySource content l [] [lib] fs1 hc.nodup hc.kinds
        (fun p hp ho => hc.copied p hp ho) (fun p hp ho => hc.made p hp ho) htop hfresh
      refine ⟨?_, k2, ?_, ?_, ?_⟩
      · unfold copyDirectoryWin
        rw [← hs.library, hl, ← hs.libraryDirs]
        simp only [k1, Res.bind_ok, if_true]
      · refine copyEntries_dirsIn _ _ _ _ _ ?_ (dirsIn_mkdir g0 d1 hm)
        intro e he h2 h3
        rcases hc.kinds e he with h4 | h4
        · exact absurd h4 h2
        · refine dl e.1 ?_ h3
          rw [← h4]
          exact he
      · rw [q1 _ hne]
        exact htop
      · intro q
        by_cases hin : b!".library" :: q ∈ (entries l).map (·.1)
        · exact q4 _ hin (by simp [Outside])
        · rw [show lib :: b!".library" :: q = [lib] ++ (b!".library" :: q) from rfl, q1]
          · rw [hget, if_neg (by simp)]
            simp [Staged.empty, Staged.get]
          · intro p hp he
            rw [← List.append_cancel_left he] at hp
            exact hin hp

theorem createFolder_back {w : PackWinEnv} {lin : PackEnv} (hs : SamePlace w lin) {lib : Bytes}
    {P : List Bytes → Prop} (hP : CaseApart w lib P) {D : List Bytes → Prop} (dd : D [lib, b!".library"])
    {fs fs' : Staged} (hk : Keys P fs) (hd : DirsIn D fs)
    (hlib : ∀ q, fs.get (lib :: b!".library" :: q) = none) (h : createLibraryFolder lin lib fs = some fs') :
    createLibraryFolderWin w lib fs = some fs' ∧ Keys P fs' ∧ DirsIn D fs' ∧
      fs'.get [lib, b!".library"] = some .dir ∧ ∀ n q, fs'.get (lib :: b!".library" :: n :: q) = none := by
  unfold createLibraryFolder at h
  unfold createLibraryFolderWin
  have h1 : P [lib, b!".library"] := hP.top [lib, b!".library"] (by simp)
  rw [hs.mkdirOk] at h
  split at h
  · rename_i hm
    rw [if_pos hm, wmkdir_eq hP.apart hk h1 (hP.top [lib] (by simp))]
    refine ⟨h, keys_mkdir hk h1 h, dirsIn_mkdir hd dd h, by rw [Staged.get_mkdir h, if_pos rfl], ?_⟩
    intro n q
    rw [Staged.get_mkdir h, if_neg (by simp)]
    exact hlib _
  · simp at h

/-! ## Vendor executables and extra files -/

theorem copyLves_back {w : PackWinEnv} {lin : PackEnv} (hs : SamePlace w lin) {lib : Bytes}
    {P : List Bytes → Prop} (hP : CaseApart w lib P) (ns : List Bytes) (hns : ∀ n ∈ ns, n ∈ lveNames)
    (fs : Staged) {r : Staged × List Bytes} (hk : Keys P fs) (h : copyLves lin lib ns fs = some r) :
    copyLvesWin w.env lib ns fs = some r ∧ Keys P r.1 := by
  induction ns generalizing fs r with
  | nil =>
    simp only [copyLves, Option.some.injEq] at h
    subst h
    exact ⟨rfl, hk⟩
  | cons n ns ih =>
    have ih := ih fun n hn => hns n (List.mem_cons_of_mem _ hn)
    unfold copyLves at h
    unfold copyLvesWin
    rw [← hs.lve, ← hs.lveCopied]
    split at h
    · rename_i hl
      rw [if_pos hl]
      obtain ⟨x, hx, rfl⟩ := lveNames_vendor n (hns n List.mem_cons_self)
      have hp := hP.vendor x hx
      have hp' : P [lib, b!".library"] := hP.top _ (by simp)
      split at h
      · rename_i c hc
        simp only [hc]
        rw [wwrite_eq hP.apart hk hp (by simpa using hp')]
        cases hw : fs.write [lib, b!".library", x.1] c with
        | none => simp [hw] at h
        | some fs1 =>
          simp only [hw] at h ⊢
          rw [Option.map_eq_some_iff] at h
          obtain ⟨r1, h1, rfl⟩ := h
          obtain ⟨h2, h3⟩ := ih fs1 (keys_write hk hp hw) h1
          simp only [h2, Option.map_some]
          exact ⟨trivial, h3⟩
      · simp at h
    · rename_i hl
      rw [if_neg hl]
      exact ih fs hk h

theorem copyLVE_back {w : PackWinEnv} {lin : PackEnv} (hs : SamePlace w lin) {lib : Bytes}
    {P : List Bytes → Prop} (hP : CaseApart w lib P) {d d' : ArgData}
    (hu : usingEncryption d' = usingEncryption d) {D : List Bytes → Prop} {fs : Staged} {r : Staged × List Bytes}
    (hk : Keys P fs) (hd : DirsIn D fs) (hdir : fs.get [lib, b!".library"] = some .dir)
    (hlib : ∀ n q, fs.get (lib :: b!".library" :: n :: q) = none) (h : copyLVE lin d' lib fs = some r) :
    copyLVEWin w.env d lib fs = some r ∧ Keys P r.1 ∧ DirsIn D r.1 ∧ r.1.get [lib, b!".library"] = some .dir ∧
      (∀ q, r.1.get (lib :: b!".library" :: q) = some .dir → q = []) ∧
      (∀ q c, r.1.get (lib :: b!".library" :: q) = some (.file c) → ∃ x ∈ vendorExecutables, q = [x.1]) := by
  unfold copyLVE at h
  unfold copyLVEWin
  rw [hu, hs.exeDir] at h
  have none1 : ∀ q, fs.get (lib :: b!".library" :: q) = some .dir → q = [] := by
    intro q hq
    cases q with
    | nil => rfl
    | cons n q => rw [hlib] at hq; simp at hq
  have none2 : ∀ q c, fs.get (lib :: b!".library" :: q) = some (.file c) → False := by
    intro q c hq
    cases q with
    | nil => rw [hdir] at hq; simp at hq
    | cons n q => rw [hlib] at hq; simp at hq
  split at h
  · rename_i h1
    rw [if_pos h1]
    split at h
    · rename_i h2
      rw [if_pos h2]
      obtain ⟨k1, k2⟩ := copyLves_back hs hP lveNames (fun _ h => h) fs hk h
      have other := copyLves_other lveNames h
      refine ⟨k1, k2, copyLves_dirsIn lveNames hd h, ?_, ?_, ?_⟩
      · rw [other _ (by simp)]
        exact hdir
      · intro q hq
        by_cases hv : ∃ n ∈ lveNames, lin.lve n = true ∧ q = [n]
        · obtain ⟨n, v1, v2, rfl⟩ := hv
          obtain ⟨c, hc⟩ := copyLves_there lveNames h n v1 v2
          rw [hc] at hq
          simp at hq
        · rw [other _ (fun n v1 v2 he => hv ⟨n, v1, v2, by simpa using he⟩)] at hq
          exact none1 q hq
      · intro q c hq
        by_cases hv : ∃ n ∈ lveNames, lin.lve n = true ∧ q = [n]
        · obtain ⟨n, v1, v2, rfl⟩ := hv
          obtain ⟨x, x1, x2⟩ := lveNames_vendor n v1
          exact ⟨x, x1, by rw [x2]⟩
        · rw [other _ (fun n v1 v2 he => hv ⟨n, v1, v2, by simpa using he⟩)] at hq
          exact (none2 q c hq).elim
    · simp at h
  · rename_i h1
    rw [if_neg h1]
    simp only [Option.some.injEq] at h
    subst h
    exact ⟨rfl, hk, hd, hdir, none1, fun q c hq => (none2 q c hq).elim⟩

theorem copyExtra_back {w : PackWinEnv} {lin : PackEnv} (hs : SamePlace w lin) (hw : AlsoWindows w lin) {lib : Bytes}
    {P : List Bytes → Prop} (hP : CaseApart w lib P) (hx : ExtrasFit lin) {D : List Bytes → Prop}
    (dx : ∀ l, lin.extra = some (some l) → ∀ p, (p, Kind.dir) ∈ entries l → Outside p →
      D (lib :: b!".library" :: p)) {fs fs' : Staged} (hk : Keys P fs) (hd : DirsIn D fs)
    (hdir : fs.get [lib, b!".library"] = some .dir)
    (h1 : ∀ q, fs.get (lib :: b!".library" :: q) = some .dir → q = [])
    (h2 : ∀ q c, fs.get (lib :: b!".library" :: q) = some (.file c) → ∃ x ∈ vendorExecutables, q = [x.1])
    (h : copyExtraFiles lin lib fs = some fs') :
    copyExtraFilesWin w lib fs = .ok (some fs') ∧ Keys P fs' ∧ DirsIn D fs' ∧
      ∀ l, lin.extra = some (some l) → ∀ p, (p, Kind.dir) ∈ entries l → Outside p →
        fs'.get (lib :: b!".library" :: p) = some .dir := by
  unfold copyExtraFiles at h
  unfold copyExtraFilesWin
  rw [← hs.exeDir, ← hs.extra]
  split at h
  · rename_i he
    rw [if_pos he]
    cases hex : lin.extra with
    | none =>
      simp only [hex, Option.some.injEq] at h
      subst h
      exact ⟨rfl, hk, hd, by simp⟩
    | some o =>
      simp only [hex] at h
      cases o with
      | none => simp [copyDirectory] at h
      | some l =>
        simp only [copyDirectory, Option.map_some, Option.some.injEq] at h
        subst h
        obtain ⟨⟨content, hc⟩, hv⟩ := hx l hex
        obtain ⟨k1, k2, k3⟩ := copyEntries_back hP.apart (fetch := w.fetchExtra) (s := lin.extraSource) l []
          [lib, b!".library"] fs hc.nodup hc.kinds
          (fun p hp ho => ⟨content p, hc.copied p hp ho, hw.extraFiles _ _ (hc.copied p hp ho)⟩)
          (fun p hp ho => hc.made p hp ho) hdir
          (fun p hp hg => entries_ne_nil l _ hp (h1 p hg))
          (fun p hp c hg => by
            obtain ⟨x, x1, x2⟩ := h2 p c hg
            subst x2
            exact hv x x1 hp) hk (hP.top _ (by simp))
          (fun e he => hP.extra l (by rw [← hs.extra, hex]) e he)
        refine ⟨?_, k2, ?_, ?_⟩
        rotate_right
        · intro l' hl' p hp ho
          simp only [Option.some.injEq] at hl'
          subst hl'
          exact k3 p hp ho
        · simp only [copyDirectoryWin]
          rw [← hs.extraDirs]
          simp only [k1, Res.bind_ok, if_true]
        · refine copyEntries_dirsIn _ _ _ _ _ ?_ hd
          intro e he h2 h3
          rcases hc.kinds e he with h4 | h4
          · exact absurd h4 h2
          · refine dx l hex e.1 ?_ h3
            rw [← h4]
            exact he
  · simp at h

/-! ## The manifest -/

theorem manifest_back {w : PackWinEnv} {lin : PackEnv} (hs : SamePlace w lin) {lib : Bytes}
    {P : List Bytes → Prop} (hP : CaseApart w lib P) {d d' : ArgData} (hc : Corr d d') {lves : List Bytes}
    {icon : Option Bytes} {D : List Bytes → Prop} {fs fsL : Staged} (hk : Keys P fs) (hd : DirsIn D fs)
    (h : writeManifest lin d' lib lves icon fs = .ok fsL) :
    ∃ fsW, writeManifestWin w.env d lib lves icon fs = .ok fsW ∧ Sim lib fsW fsL ∧ Keys P fsW ∧ DirsIn D fsW := by
  have hp : P (manifestPath lib) := hP.top _ (by simp)
  have hp' : P [lib, b!".library"] := hP.top _ (by simp)
  unfold writeManifest at h
  unfold writeManifestWin
  dsimp only at h ⊢
  rw [hs.canWrite] at h
  rw [wwrite_eq hP.apart hk hp (by simpa using hp')]
  cases hw : (if w.env.canWrite (manifestPath lib) then fs.write (manifestPath lib) [] else none) with
  | none =>
    simp only [manifestPath] at hw
    simp [hw] at h
  | some fs1 =>
    have hw1 : fs.write (manifestPath lib) [] = some fs1 := by
      split at hw
      · exact hw
      · simp at hw
    have hk1 := keys_write hk hp hw1
    have hd1 := dirsIn_write hd hw1
    simp only [manifestPath] at hw
    simp only [hw] at h ⊢
    rw [Res.bind_eq_ok] at h
    obtain ⟨doc, h1, h⟩ := h
    simp only [Res.ok.injEq] at h
    subst h
    rw [spelled_eq hP.apart hk1 hp]
    have hr : lin.readFile = fun p => (w.env.readFile p).map textIn := by
      funext p
      rw [hs.readFile p]
      congr 1
      funext s
      exact linuxText_eq s
    rw [hr, hc.manifest] at h1
    rw [h1]
    refine ⟨_, rfl, ⟨?_, ?_, ?_⟩, keys_set hk1 hp _, dirsIn_set hd1 _ _⟩
    · unfold SameShape
      simp [Staged.set, kindOf]
    · intro q hq
      rw [Staged.get_set, Staged.get_set, if_neg hq, if_neg hq]
    · exact ⟨doc, by rw [Staged.get_set, if_pos rfl], by rw [Staged.get_set, if_pos rfl]⟩

/-! ## Encryption -/

theorem crEncrypt_back {e e' : CrEnv} (hC : e'.C = e.C) (hkey : e'.key = e.key) (hk : e'.keyLen = e.keyLen)
    {t : MaskTable} {p iv r inp : Bytes} {bad : Bool} {wOk : Nat → Bool} (ht : ∀ x ∈ t, TableKey x.1)
    (hp : RelKey p) {t1 : MaskTable} {out : Bytes} {ok : Bool}
    (h : crEncrypt e t p iv (fun _ => r) inp bad wOk = .ok (t1, out, ok)) :
    crEncrypt e' (winTable t) (p.map backslash) iv (fun _ => r) inp bad wOk = .ok (winTable t1, out, ok) ∧
      ∀ x ∈ t1, TableKey x.1 := by
  unfold crEncrypt at h ⊢
  split at h
  · rename_i hw
    simp only [Res.ok.injEq, Prod.mk.injEq] at h
    rw [if_pos hw]
    obtain ⟨rfl, rfl, rfl⟩ := h
    exact ⟨rfl, ht⟩
  · rename_i hw
    rw [if_neg hw]
    have hm := maskKey_win hk r (p.length + 2) t p e.key ht hp
    rw [List.length_map, hkey, hm.1]
    cases hr : maskKey e (fun _ => r) (p.length + 2) t p e.key with
    | ub k => simp [hr] at h
    | ok m =>
      rw [hr] at h
      simp only [Res.bind_ok, winOut] at h ⊢
      split at h
      · rename_i hneg
        simp only [Res.ok.injEq, Prod.mk.injEq] at h
        rw [if_pos hneg]
        obtain ⟨rfl, rfl, rfl⟩ := h
        exact ⟨rfl, hm.2 m hr⟩
      · rename_i hneg
        rw [if_neg hneg]
        have he : encBody e' m.key iv inp bad m.ret m.stored = encBody e m.key iv inp bad m.ret m.stored := by
          unfold encBody
          rw [hC, hk]
        rw [he]
        cases hb : encBody e m.key iv inp bad m.ret m.stored with
        | ub k => simp [hb] at h
        | ok x =>
          rw [hb] at h
          simp only [Res.bind_ok, Res.ok.injEq, Prod.mk.injEq] at h ⊢
          obtain ⟨rfl, rfl, rfl⟩ := h
          exact ⟨⟨rfl, rfl, rfl⟩, hm.2 m hr⟩

/-- States of the encryption in both runs. -/
structure EncBack (lib : Bytes) (P D : List Bytes → Prop) (sW sL : EncState) : Prop where
  table : sW.table = winTable sL.table
  keys : ∀ x ∈ sL.table, TableKey x.1
  fs : Sim lib sW.fs sL.fs
  paths : Keys P sW.fs
  dirs : DirsIn D sW.fs

theorem encryptOne_back {w : PackWinEnv} {lin : PackEnv} (hs : SamePlace w lin) {lib : Bytes}
    {P D : List Bytes → Prop} (hP : CaseApart w lib P) {eW eL : CrEnv} (hC : eW.C = eL.C)
    (hkey : eW.key = eL.key) (hkl : eW.keyLen = eL.keyLen) {p : List Bytes} (hn : ∀ n ∈ p, IsName n)
    (hp0 : p ≠ []) (hpP : P (lib :: p)) (hpT : P (lib :: encryptedPath p)) (hpD : P (lib :: p.dropLast))
    (hpm : ModelicaName (nameOf p)) {sW sL sL' : EncState} (h0 : EncBack lib P D sW sL)
    (h : encryptOne lin eL lib p sL = .ok (sL', true)) :
    ∃ sW', encryptOneWin w.env eW lib p sW = .ok (sW', true) ∧ EncBack lib P D sW' sL' := by
  have hm1 : lib :: p ≠ manifestPath lib := by
    intro he
    have : nameOf (lib :: p) = b!"manifest.xml" := by rw [he]; rfl
    rw [nameOf_cons _ hp0] at this
    rw [this, ← isModelicaFile_iff] at hpm
    revert hpm
    decide
  have hm2 : lib :: encryptedPath p ≠ manifestPath lib := by
    intro he
    have : nameOf (lib :: encryptedPath p) = b!"manifest.xml" := by rw [he]; rfl
    rw [nameOf_encryptedPath] at this
    have hl := congrArg List.getLast? this
    simp at hl
  have hdrop : (lib :: encryptedPath p).dropLast = lib :: p.dropLast := by
    unfold encryptedPath
    rw [← List.cons_append, List.dropLast_concat]
  have hshape := h0.fs.shape
  unfold encryptOne at h
  unfold encryptOneWin
  unfold PackEnv.openRead at h
  unfold PackEnv.openReadWin
  rw [hs.canRead, hs.readError, hs.canWrite, hs.iv, hs.mask, hs.writeOk] at h
  rw [wget_eq hP.apart h0.paths hpP, h0.fs.get _ hm1]
  by_cases hcr : w.env.canRead (lib :: p) = true
  · simp only [hcr, if_true] at h ⊢
    cases hg : sL.fs.get (lib :: p) with
    | none => simp [hg] at h
    | some node =>
      have hcw : ∃ c b y, (match node with
          | .file c => some (c, w.env.readError (lib :: p))
          | .dir => some (([] : Bytes), true)) = some (c, b) ∧ w.env.canWrite (lib :: encryptedPath p) = true ∧
          sL.fs.write (lib :: encryptedPath p) [] = some y := by
        cases hcw : w.env.canWrite (lib :: encryptedPath p) with
        | false => cases node <;> simp [hg, hcw] at h
        | true =>
          cases hy : sL.fs.write (lib :: encryptedPath p) [] with
          | none => cases node <;> simp [hg, hcw, hy] at h
          | some y => cases node <;> simp
      obtain ⟨-, -, y, -, hcw, hy⟩ := hcw
      cases node with
      | dir =>
        exfalso
        simp only [hg, hcw, if_true, hy] at h
        rw [Res.bind_eq_ok] at h
        obtain ⟨⟨t, bytes, ok⟩, h1, h⟩ := h
        simp only [Res.ok.injEq, Prod.mk.injEq] at h
        obtain ⟨-, rfl⟩ := h
        have := (crEncrypt_success h1).1
        simp at this
      | file content =>
        simp only [hg, hcw, if_true, hy] at h ⊢
        rw [wwrite_eq hP.apart h0.paths hpT (by rw [hdrop]; exact hpD)]
        have hwW : ∃ y, sW.fs.write (lib :: encryptedPath p) [] = some y := by
          unfold Staged.write at hy ⊢
          split at hy
          · rename_i hcond
            refine ⟨_, if_pos ⟨hcond.1, ?_, ?_⟩⟩
            · have hkd := kind_shape hshape (lib :: encryptedPath p).dropLast
              rw [hcond.2.1] at hkd
              cases hx : sW.fs.get (lib :: encryptedPath p).dropLast with
              | none => simp [hx] at hkd
              | some y =>
                cases y with
                | dir => rfl
                | file c => simp [hx, kindOf] at hkd
            · rw [h0.fs.get _ hm2]
              exact hcond.2.2
          · simp at hy
        obtain ⟨z, hz⟩ := hwW
        simp only [hz]
        rw [Res.bind_eq_ok] at h
        obtain ⟨⟨t, bytes, ok⟩, h1, h⟩ := h
        have h47 : ∀ n ∈ p, (47 : UInt8) ∉ n := fun n hm hc => ((hn n hm).2 _ hc).1 rfl
        rw [h0.table, joinWin_eq h47]
        obtain ⟨h2, ht1⟩ := crEncrypt_back hC hkey hkl h0.keys (relKey_join hn) h1
        rw [h2]
        simp only [Res.ok.injEq, Prod.mk.injEq] at h
        obtain ⟨rfl, rfl⟩ := h
        refine ⟨_, rfl, ⟨rfl, ht1, ?_, ?_, ?_⟩⟩
        · rw [spelled_eq hP.apart h0.paths hpT]
          exact h0.fs.set hm2 _
        · rw [spelled_eq hP.apart h0.paths hpT]
          exact keys_set h0.paths hpT _
        · exact dirsIn_set h0.dirs _ _
  · simp [hcr] at h

theorem encryptPackage_back {w : PackWinEnv} {lin : PackEnv} (hs : SamePlace w lin) {lib : Bytes}
    {P D : List Bytes → Prop} (hP : CaseApart w lib P) {eW eL : CrEnv} (hC : eW.C = eL.C)
    (hkey : eW.key = eL.key) (hkl : eW.keyLen = eL.keyLen) {dir : List Bytes} (hn : ∀ n ∈ dir, IsName n)
    (hpD : P (lib :: dir)) (hp1 : P (lib :: (dir ++ [b!"package.mo"])))
    (hp2 : P (lib :: (dir ++ [b!"package.moc"]))) {sW sL sL' : EncState} (h0 : EncBack lib P D sW sL)
    (h : encryptPackage lin eL lib dir sL = .ok (sL', true)) :
    ∃ sW', encryptPackageWin w.env eW lib dir sW = .ok (sW', true) ∧ EncBack lib P D sW' sL' := by
  have hm1 : lib :: (dir ++ [b!"package.mo"]) ≠ manifestPath lib := by
    intro he
    have : nameOf (lib :: (dir ++ [b!"package.mo"])) = b!"manifest.xml" := by rw [he]; rfl
    rw [← List.cons_append, nameOf_append] at this
    simp at this
  unfold encryptPackage at h
  unfold encryptPackageWin
  simp only [List.cons_append] at h ⊢
  have hread : w.env.openReadWin sW.fs (lib :: (dir ++ [b!"package.mo"])) =
      if w.env.canRead (lib :: (dir ++ [b!"package.mo"])) then
        match sL.fs.get (lib :: (dir ++ [b!"package.mo"])) with
        | some (.file c) => some (c, w.env.readError (lib :: (dir ++ [b!"package.mo"])))
        | _ => none
      else none := by
    unfold PackEnv.openReadWin
    rw [wget_eq hP.apart h0.paths hp1, h0.fs.get _ hm1]
    rfl
  have henc : encryptedPath (dir ++ [b!"package.mo"]) = dir ++ [b!"package.moc"] := by
    unfold encryptedPath
    simp
  have hnames : ∀ n ∈ dir ++ [b!"package.mo"], IsName n := by
    intro n hm
    rcases List.mem_append.1 hm with hm | hm
    · exact hn n hm
    · simp only [List.mem_singleton] at hm
      subst hm
      exact isName_package
  cases ho : lin.openRead sL.fs (lib :: (dir ++ [b!"package.mo"])) with
  | none =>
    simp only [ho, Res.ok.injEq, Prod.mk.injEq, and_true] at h
    subst h
    have : w.env.openReadWin sW.fs (lib :: (dir ++ [b!"package.mo"])) = none := by
      rw [hread]
      unfold PackEnv.openRead at ho
      rw [hs.canRead] at ho
      split at ho
      · rename_i hcr
        rw [if_pos hcr]
        cases hg : sL.fs.get (lib :: (dir ++ [b!"package.mo"])) with
        | none => rfl
        | some node => cases node <;> simp [hg] at ho
      · rename_i hcr
        rw [if_neg hcr]
    rw [this]
    exact ⟨sW, rfl, h0⟩
  | some x =>
    simp only [ho] at h
    obtain ⟨sW', k1, k2⟩ := encryptOne_back hs hP hC hkey hkl hnames (by simp) hp1 (by rw [henc]; exact hp2)
      (by simpa using hpD) (package_modelica dir) h0 h
    have : ∃ y, w.env.openReadWin sW.fs (lib :: (dir ++ [b!"package.mo"])) = some y := by
      cases hy : w.env.openReadWin sW.fs (lib :: (dir ++ [b!"package.mo"])) with
      | some y => exact ⟨y, rfl⟩
      | none =>
        unfold encryptOneWin at k1
        simp [hy] at k1
    obtain ⟨y, hy⟩ := this
    rw [hy]
    exact ⟨sW', k1, k2⟩

theorem encryptEntries_back {w : PackWinEnv} {lin : PackEnv} (hs : SamePlace w lin) {lib : Bytes}
    {P D : List Bytes → Prop} (hP : CaseApart w lib P) {eW eL : CrEnv} (hC : eW.C = eL.C)
    (hkey : eW.key = eL.key) (hkl : eW.keyLen = eL.keyLen) (l : Listing) (dir : List Bytes)
    (hd : P (lib :: dir)) (hl : ∀ e ∈ entries l, EncEntry lib P (dir ++ e.1, e.2)) {sW sL sL' : EncState}
    (h0 : EncBack lib P D sW sL) (h : encryptEntries lin eL lib l dir sL = .ok (sL', true)) :
    ∃ sW', encryptEntriesWin w.env eW lib l dir sW = .ok (sW', true) ∧ EncBack lib P D sW' sL' := by
  induction l generalizing dir sW sL sL' with
  | done =>
    simp only [encryptEntries, Res.ok.injEq, Prod.mk.injEq, and_true] at h
    subst h
    exact ⟨sW, rfl, h0⟩
  | file n rest ih =>
    have hr : ∀ e ∈ entries rest, EncEntry lib P (dir ++ e.1, e.2) :=
      fun e he => hl e (List.mem_cons_of_mem _ he)
    have hx := hl ([n], .file) List.mem_cons_self
    unfold encryptEntries at h
    unfold encryptEntriesWin
    split at h
    · rename_i hn
      rw [if_pos hn]
      exact ih dir hd hr h0 h
    · rename_i hn
      rw [if_neg hn]
      split at h
      · rename_i hm
        rw [if_pos hm]
        rw [Res.bind_eq_ok] at h
        obtain ⟨⟨s1, ok⟩, h1, h⟩ := h
        cases ok with
        | false => simp at h
        | true =>
          have hmod : ModelicaName (nameOf (dir ++ [n])) := by
            rw [nameOf_append]
            exact (isModelicaFile_iff n).1 hm
          obtain ⟨s2, h2, h3⟩ := encryptOne_back hs hP hC hkey hkl hx.1 (by simp) hx.2.1
            (hx.2.2.1 rfl hmod) (by simpa using hd) hmod h0 h1
          rw [h2]
          simp only [Res.bind_ok, if_true] at h ⊢
          exact ih dir hd hr h3 h
      · rename_i hm
        rw [if_neg hm]
        exact ih dir hd hr h0 h
  | dir n sub rest ih1 ih2 =>
    have hr : ∀ e ∈ entries rest, EncEntry lib P (dir ++ e.1, e.2) :=
      fun e he => hl e (List.mem_append_right _ he)
    have hx := hl ([n], .dir) (List.mem_append_left _ List.mem_cons_self)
    have hsub : ∀ e ∈ entries sub, EncEntry lib P (dir ++ [n] ++ e.1, e.2) := by
      intro e he
      have := hl (n :: e.1, e.2) (List.mem_append_left _ (List.mem_cons_of_mem _ (List.mem_map.2 ⟨e, he, rfl⟩)))
      simpa using this
    unfold encryptEntries at h
    unfold encryptEntriesWin
    split at h
    · rename_i hn
      rw [if_pos hn]
      exact ih2 dir hd hr h0 h
    · rename_i hn
      rw [if_neg hn]
      rw [Res.bind_eq_ok] at h
      obtain ⟨⟨s1, ok⟩, h1, h⟩ := h
      cases ok with
      | false => simp at h
      | true =>
        obtain ⟨s2, h2, h3⟩ := encryptPackage_back hs hP hC hkey hkl hx.1 hx.2.1 (hx.2.2.2 rfl).1
          (hx.2.2.2 rfl).2 h0 h1
        rw [h2]
        simp only [if_true] at h
        simp only [Res.bind_ok, if_true]
        rw [Res.bind_eq_ok] at h
        obtain ⟨⟨s3, ok⟩, h4, h⟩ := h
        cases ok with
        | false => simp at h
        | true =>
          obtain ⟨s4, h5, h6⟩ := ih1 (dir ++ [n]) hx.2.1 hsub h3 h4
          rw [h5]
          simp only [Res.bind_ok, if_true] at h ⊢
          exact ih2 dir hd hr h6 h
  | locked n rest ih =>
    unfold encryptEntries at h
    unfold encryptEntriesWin
    split at h
    · rename_i hn
      rw [if_pos hn]
      exact ih dir hd (fun e he => hl e (List.mem_cons_of_mem _ he)) h0 h
    · rw [Res.bind_eq_ok] at h
      obtain ⟨⟨s1, ok⟩, h1, h⟩ := h
      simp at h
  | other n rest ih =>
    unfold encryptEntries at h
    unfold encryptEntriesWin
    exact ih dir hd (fun e he => hl e (List.mem_cons_of_mem _ he)) h0 h

theorem encryptFiles_back {w : PackWinEnv} {lin : PackEnv} (hs : SamePlace w lin) {lib : Bytes}
    {P D : List Bytes → Prop} (hP : CaseApart w lib P) {d d' : ArgData}
    (hu : usingEncryption d' = usingEncryption d) {tW tL : Bytes} {fsW fsL fsL' : Staged}
    (h0 : Sim lib fsW fsL) (hk : Keys P fsW) (hd : DirsIn D fsW)
    (h : encryptFiles lin d' tL lib fsL = .ok (some fsL')) :
    ∃ fsW', encryptFilesWin w.env d tW lib fsW = .ok (some fsW') ∧ Sim lib fsW' fsL' ∧ Keys P fsW' ∧
      DirsIn D fsW' := by
  unfold encryptFiles at h
  unfold encryptFilesWin
  rw [hu] at h
  split at h
  · rename_i he
    rw [if_pos he]
    rw [Res.bind_eq_ok] at h
    obtain ⟨⟨s, ok⟩, h1, h⟩ := h
    cases ok with
    | false => simp at h
    | true =>
      simp only [if_true, Res.ok.injEq, Option.some.injEq] at h
      subst h
      unfold encryptDirectory at h1
      rw [Res.bind_eq_ok] at h1
      obtain ⟨⟨s1, ok⟩, h2, h1⟩ := h1
      cases ok with
      | false => simp at h1
      | true =>
        simp only [if_true] at h1
        rw [hs.encryptWalk fsW fsL h0.shape] at h1
        cases hwalk : w.env.encryptWalk fsW with
        | none => simp [hwalk] at h1
        | some l =>
          simp only [hwalk] at h1
          have hC : (w.env.contextWin tW lib).C = (lin.context tL lib).C := hs.C.symm
          have hkey : (w.env.contextWin tW lib).key = (lin.context tL lib).key := hs.key.symm
          have hkl : (w.env.contextWin tW lib).keyLen = (lin.context tL lib).keyLen := hs.keyLen.symm
          have hstart : EncBack lib P D ⟨[], fsW, []⟩ ⟨[], fsL, []⟩ := ⟨rfl, by simp, h0, hk, hd⟩
          obtain ⟨s2, h3, h4⟩ := encryptPackage_back hs hP hC hkey hkl (by simp) (hP.top [lib] (by simp))
            (hP.top [lib, b!"package.mo"] (by simp)) (hP.top [lib, b!"package.moc"] (by simp)) hstart h2
          obtain ⟨s3, h5, h6⟩ := encryptEntries_back hs hP hC hkey hkl l [] (hP.top [lib] (by simp))
            (fun e he => hP.encrypt fsW l hk hwalk e he) h4 h1
          refine ⟨s3.fs, ?_, h6.fs, h6.paths, h6.dirs⟩
          unfold encryptDirectoryWin
          simp only [hwalk, h3, Res.bind_ok, if_true, h5]
  · rename_i he
    rw [if_neg he]
    simp only [Res.ok.injEq, Option.some.injEq] at h
    subst h
    exact ⟨fsW, rfl, h0, hk, hd⟩

/-! ## The archive -/

theorem zipEntries_back {w : PackWinEnv} {lin : PackEnv} (hs : SamePlace w lin) (hw : AlsoWindows w lin)
    {lib : Bytes} {P : List Bytes → Prop} (hA : Apart P) {enc : Bool} {fsW fsL : Staged} (h0 : Sim lib fsW fsL)
    (hk : Keys P fsW) (l : Listing) (dir : List Bytes) (hl : ∀ e ∈ entries l, P (dir ++ e.1)) (hn : NoRepeats l)
    (res : Bool) {a' : Archive} (h : zipEntries lin enc fsL l dir = (a', true))
    (hfull : ∀ p, (p, Kind.dir) ∈ entries l → ∃ f ∈ a', (dir ++ p) <+: f.1) :
    zipEntriesWin w.env enc fsW l dir res = .ok (a'.map (winFile lib), !a'.isEmpty || res) := by
  induction l generalizing dir res a' with
  | done =>
    simp only [zipEntries, Prod.mk.injEq, and_true] at h
    subst h
    rfl
  | file n rest ih =>
    obtain ⟨hn1, hn2⟩ := noRepeats_file hn
    have hr : ∀ e ∈ entries rest, P (dir ++ e.1) := fun e he => hl e (List.mem_cons_of_mem _ he)
    have hp : P (dir ++ [n]) := hl ([n], .file) List.mem_cons_self
    have hf : ∀ p, (p, Kind.dir) ∈ entries rest → ∃ f ∈ a', (dir ++ p) <+: f.1 :=
      fun p hp => hfull p (List.mem_cons_of_mem _ hp)
    unfold zipEntries at h
    unfold zipEntriesWin
    split at h
    · rename_i hc
      rw [if_pos hc, wget_eq hA hk hp]
      cases hg : fsL.get (dir ++ [n]) with
      | none => simp [hg] at h
      | some node =>
        cases node with
        | dir => simp [hg] at h
        | file c =>
          simp only [hg] at h
          split at h
          · rename_i hz
            cases hb : zipEntries lin enc fsL rest dir with
            | mk b ok =>
              simp only [hb, Prod.mk.injEq] at h
              obtain ⟨rfl, rfl⟩ := h
              have hf' : ∀ p, (p, Kind.dir) ∈ entries rest → ∃ f ∈ b, (dir ++ p) <+: f.1 := by
                intro p hp'
                obtain ⟨f, f1, f2⟩ := hf p hp'
                rcases List.mem_cons.1 f1 with rfl | f1
                · exfalso
                  have f3 := (List.prefix_append_right_inj dir).1 f2
                  obtain ⟨m, p', rfl⟩ : ∃ m p', p = m :: p' := by
                    cases p with
                    | nil => exact absurd rfl (entries_ne_nil rest _ hp')
                    | cons m p' => exact ⟨m, p', rfl⟩
                  rw [List.cons_prefix_cons] at f3
                  obtain ⟨rfl, f3⟩ := f3
                  rw [List.prefix_nil.1 f3] at hp'
                  exact hn1 (List.mem_map.2 ⟨_, hp', rfl⟩)
                · exact ⟨f, f1, f2⟩
              have key := ih dir hr hn2 true hb hf'
              rw [hs.zipAdds] at hz
              by_cases hm : dir ++ [n] = manifestPath lib
              · obtain ⟨c', h4, h5⟩ := h0.manifest
                rw [hm] at hg
                rw [hg, Option.some.injEq, Node.file.injEq] at h4
                subst h4
                have hg2 : fsW.get (dir ++ [n]) = some (.file (textOut c)) := by rw [hm, h5]
                simp only [hg2]
                rw [if_neg (by simp [hw.canRead]), if_pos hz, key]
                simp only [Res.bind_ok, List.map_cons, List.isEmpty_cons, Bool.not_false, Bool.true_or,
                  Bool.or_true]
                rw [winFile, if_pos hm, crlf_eq]
              · have hg2 : fsW.get (dir ++ [n]) = some (.file c) := by rw [h0.get _ hm, hg]
                simp only [hg2]
                rw [if_neg (by simp [hw.canRead]), if_pos hz, key]
                simp only [Res.bind_ok, List.map_cons, List.isEmpty_cons, Bool.not_false, Bool.true_or,
                  Bool.or_true]
                rw [winFile, if_neg hm]
          · simp at h
    · rename_i hc
      rw [if_neg hc]
      exact ih dir hr hn2 res h hf
  | dir n sub rest ih1 ih2 =>
    obtain ⟨hns, hnr, hn1, hn2⟩ := noRepeats_dir hn
    have hr : ∀ e ∈ entries rest, P (dir ++ e.1) := fun e he => hl e (List.mem_append_right _ he)
    have ms : ∀ {p k}, (p, k) ∈ entries sub → (n :: p, k) ∈ entries (.dir n sub rest) := fun {p k} he =>
      List.mem_append_left _ (List.mem_cons_of_mem _ (List.mem_map.2 ⟨(p, k), he, rfl⟩))
    have hsub : ∀ e ∈ entries sub, P (dir ++ [n] ++ e.1) := by
      intro e he
      have := hl (n :: e.1, e.2) (ms he)
      simpa using this
    -- nothing in the rest starts with the name of the directory
    have head : ∀ p k, (p, k) ∈ entries rest → p.head? ≠ some n := by
      intro p k hp' hh
      obtain ⟨p', rfl⟩ : ∃ p', p = n :: p' := by
        cases p with
        | nil => simp at hh
        | cons m p' =>
          simp only [List.head?_cons, Option.some.injEq] at hh
          exact ⟨p', by rw [hh]⟩
      by_cases he : p' = []
      · subst he
        exact hn1 (List.mem_map.2 ⟨_, hp', rfl⟩)
      · have := entries_above rest _ (List.mem_map.2 ⟨_, hp', rfl⟩) [n] p' rfl (by simp) he
        exact hn1 (List.mem_map.2 ⟨_, this, rfl⟩)
    unfold zipEntries at h
    unfold zipEntriesWin
    cases hb : zipEntries lin enc fsL sub (dir ++ [n]) with
    | mk b ok =>
      simp only [hb] at h
      split at h
      · rename_i hok
        subst hok
        cases hcx : zipEntries lin enc fsL rest dir with
        | mk c ok =>
          simp only [hcx, Prod.mk.injEq] at h
          obtain ⟨rfl, rfl⟩ := h
          have inb : ∀ f ∈ b, ∃ q, f.1 = dir ++ [n] ++ q := by
            intro f hf
            obtain ⟨-, q, h1, -⟩ := zipEntries_mem sub (dir ++ [n]) f.1 f.2 (by rw [hb]; exact hf)
            exact ⟨q, h1⟩
          have inc : ∀ f ∈ c, ∃ q k, f.1 = dir ++ q ∧ (q, k) ∈ entries rest := by
            intro f hf
            obtain ⟨-, q, h1, h2, -⟩ := zipEntries_mem rest dir f.1 f.2 (by rw [hcx]; exact hf)
            exact ⟨q, _, h1, h2⟩
          have f1 : ∀ p, (p, Kind.dir) ∈ entries sub → ∃ f ∈ b, (dir ++ [n] ++ p) <+: f.1 := by
            intro p hp'
            obtain ⟨f, g1, g2⟩ := hfull (n :: p) (ms hp')
            have g3 : dir ++ n :: p = dir ++ [n] ++ p := by simp
            rw [g3] at g2
            rcases List.mem_append.1 g1 with g1 | g1
            · exact ⟨f, g1, g2⟩
            · exfalso
              obtain ⟨q, k, h1, h2⟩ := inc f g1
              rw [h1, List.append_assoc] at g2
              have g4 := (List.prefix_append_right_inj dir).1 g2
              obtain ⟨x, rfl⟩ := g4
              exact head _ _ h2 (by simp)
          have f2 : ∃ f, f ∈ b := by
            obtain ⟨f, g1, g2⟩ := hfull [n] (List.mem_append_left _ List.mem_cons_self)
            rcases List.mem_append.1 g1 with g1 | g1
            · exact ⟨f, g1⟩
            · exfalso
              obtain ⟨q, k, h1, h2⟩ := inc f g1
              rw [h1] at g2
              have g4 := (List.prefix_append_right_inj dir).1 g2
              obtain ⟨x, rfl⟩ := g4
              exact head _ _ h2 (by simp)
          have f3 : ∀ p, (p, Kind.dir) ∈ entries rest → ∃ f ∈ c, (dir ++ p) <+: f.1 := by
            intro p hp'
            obtain ⟨f, g1, g2⟩ := hfull p (List.mem_append_right _ hp')
            rcases List.mem_append.1 g1 with g1 | g1
            · exfalso
              obtain ⟨q, h1⟩ := inb f g1
              rw [h1, List.append_assoc] at g2
              have g4 := (List.prefix_append_right_inj dir).1 g2
              obtain ⟨m, p', rfl⟩ : ∃ m p', p = m :: p' := by
                cases p with
                | nil => exact absurd rfl (entries_ne_nil rest _ hp')
                | cons m p' => exact ⟨m, p', rfl⟩
              rw [List.singleton_append, List.cons_prefix_cons] at g4
              exact head _ _ hp' (by rw [g4.1]; rfl)
            · exact ⟨f, g1, g2⟩
          have k1 := ih1 (dir ++ [n]) hsub hns false hb f1
          have k2 := ih2 dir hr hnr true hcx f3
          have hbne : b.isEmpty = false := by
            obtain ⟨f, hf⟩ := f2
            cases b with
            | nil => simp at hf
            | cons x b => rfl
          rw [k1, hbne]
          simp only [Bool.not_false, Bool.or_false, Res.bind_ok, if_true, k2, Bool.or_true]
          rw [List.map_append]
          have : (b ++ c).isEmpty = false := by
            cases b with
            | nil => simp at hbne
            | cons x b => rfl
          rw [this]
          rfl
      · simp at h
  | locked n rest ih => simp [zipEntries] at h
  | other n rest ih =>
    unfold zipEntries at h
    unfold zipEntriesWin
    have hn' : NoRepeats rest := by
      unfold NoRepeats entries at hn
      rw [List.map_cons, List.nodup_cons] at hn
      exact hn.2
    exact ih dir (fun e he => hl e (List.mem_cons_of_mem _ he)) hn' res h
      (fun p hp => hfull p (List.mem_cons_of_mem _ hp))

theorem createZip_back {w : PackWinEnv} {lin : PackEnv} (hs : SamePlace w lin) (hw : AlsoWindows w lin)
    {lib : Bytes} {P : List Bytes → Prop} (hP : CaseApart w lib P) {d d' : ArgData}
    (hu : usingEncryption d' = usingEncryption d) {fsW fsL : Staged} (h0 : Sim lib fsW fsL) (hk : Keys P fsW)
    (hz : ∀ fs l, lin.zipWalk fs = some l → Shows l [] fs) {a' : Archive}
    (hd : ∀ p, fsW.get p = some .dir → p = [] ∨ p <+: manifestPath lib ∨ ∃ f ∈ a', p <+: f.1)
    (h : createZipArchive lin d' fsL = (some a', true)) :
    createZipArchiveWin w.env d fsW = .ok (some (a'.map (winFile lib)), true) := by
  unfold createZipArchive at h
  unfold createZipArchiveWin
  rw [hs.zipOpens, if_pos rfl, hs.zipCloses, hu] at h
  cases hwalk : lin.zipWalk fsL with
  | none => simp [hwalk] at h
  | some l =>
    obtain ⟨s1, s2, s3⟩ := hz fsL l hwalk
    simp only [hwalk] at h
    rw [hs.zipWalk fsW fsL h0.shape] at hwalk
    cases hb : zipEntries lin (usingEncryption d) fsL l [] with
    | mk b ok =>
      simp only [hb, if_true, Prod.mk.injEq, Option.some.injEq] at h
      obtain ⟨rfl, rfl⟩ := h
      have hman : ∃ f ∈ b, f.1 = manifestPath lib := by
        obtain ⟨c, h1, -⟩ := h0.manifest
        have hmem : manifestPath lib ∈ fsL.map (·.1) := by
          unfold Staged.get at h1
          rw [Option.map_eq_some_iff] at h1
          obtain ⟨e, e1, -⟩ := h1
          have e2 := List.find?_some e1
          simp only [decide_eq_true_eq] at e2
          exact List.mem_map.2 ⟨e, List.mem_of_find?_eq_some e1, e2⟩
        have h2 := s3 _ hmem (by simp) (by simp)
        simp only [List.length_nil, List.drop_zero] at h2
        obtain ⟨⟨p, k⟩, e1, e2⟩ := List.mem_map.1 h2
        simp only at e2
        subst e2
        have e3 := s2 _ e1
        simp only [List.nil_append, h1, Option.map_some, Option.some.injEq, kindOf] at e3
        subst e3
        obtain ⟨x, -, x2⟩ := zipEntries_complete l [] (by rw [hb]) _ e1 (by
          intro _ hm
          have : nameOf (manifestPath lib) = b!"manifest.xml" := rfl
          rw [this, ← isModelicaFile_iff] at hm
          revert hm
          decide)
        rw [hb] at x2
        exact ⟨_, x2, rfl⟩
      have key := zipEntries_back hs hw hP.apart h0 hk l [] (fun e he => hP.zip fsW l hk hwalk e he) s1 false hb (by
        intro p hp
        have h1 := s2 _ hp
        simp only [List.nil_append] at h1
        rw [← kind_shape h0.shape] at h1
        have h2 : fsW.get p = some .dir := by
          cases hg : fsW.get p with
          | none => simp [hg] at h1
          | some x =>
            cases x with
            | dir => rfl
            | file c => simp [hg, kindOf] at h1
        rcases hd p h2 with h3 | h3 | h3
        · exact absurd h3 (entries_ne_nil l _ hp)
        · obtain ⟨f, f1, f2⟩ := hman
          exact ⟨f, f1, by rw [f2]; exact h3⟩
        · exact h3)
      simp only [hwalk, key, Res.bind_ok]
      obtain ⟨f, f1, -⟩ := hman
      have hne : b ≠ [] := List.ne_nil_of_mem f1
      have he : b.isEmpty = false := by
        cases b with
        | nil => exact absurd rfl hne
        | cons x b => rfl
      rw [he, if_neg (by simpa using hne)]
      rfl

/-! ## Arguments -/

theorem helpRequested_back : ∀ (args : List Bytes), helpRequested (slashArgs args) = false →
    helpRequested args = false
  | [], h => h
  | [_], h => h
  | k :: v :: rest, h => by
    have hv : ∀ x, (92 : UInt8) ∉ x →
        (if k.drop 1 = b!"librarypath" ∨ k.drop 1 = b!"icon" then slashes v else v) ≠ x → v ≠ x := by
      intro x hx hne he
      subst he
      split at hne
      · exact hne (slashes_of_not hx)
      · exact hne rfl
    unfold helpRequested at h ⊢
    simp only [slashArgs, List.any_cons, Bool.or_eq_false_iff, beq_eq_false_iff_ne, withSlashes_eq] at h ⊢
    obtain ⟨h1, ⟨h2, h3⟩, h4⟩ := h
    exact ⟨h1, ⟨hv _ (by decide) h2, hv _ (by decide) h3⟩, helpRequested_back rest h4⟩

theorem packArguments_back {w : PackWinEnv} {lin : PackEnv} (hs : SamePlace w lin) (hw : AlsoWindows w lin)
    {args : List Bytes} {ps : List (Bytes × Bytes)} (hp : ArgPairs args ps) (hicon : ∀ v, (b!"icon", v) ∉ ps)
    {d' : ArgData} (h : packArguments lin (slashArgs args) = .ok (some d')) :
    ∃ d, packArguments w.env args = .ok (some d) ∧ Corr d d' := by
  obtain ⟨d0, h1, h2, h3, h4, h5, h6⟩ := packArguments_ok h
  obtain ⟨qs, g1, g2, g3⟩ := validateLoop_ok (slashArgs args) [] d0 (by simp [DistinctNames]) (by simp) h1
  obtain rfl := argPairs_unique (argPairs_slash hp) g1
  simp only [List.nil_append] at g2 g3
  have hd : DistinctNames ([] ++ ps) := by
    unfold DistinctNames at g2 ⊢
    rw [slashPairs_names] at g2
    rw [List.nil_append]
    exact g2
  have hv : validateArguments args = .ok (some (argSlots ps)) := by
    have := validateLoop_pairs hp [] hd (by simp)
    rwa [List.nil_append] at this
  have c0 : ∀ k, k ≠ [] → getValueOf d0 k = (getValueOf (argSlots ps) k).map (slashValue k) := by
    intro k hk
    rw [g3]
    unfold argSlots
    have : (slashPairs ps).length = ps.length := by simp [slashPairs]
    rw [this]
    exact getValueOf_slash ps _ hk
  have hcorr : Corr (setValue (setValue (argSlots ps) b!"librarypath" trimPath) b!"encrypt" stringToLower) d' := by
    intro k hk
    rw [h3]
    simp only [getValueOf_setValue]
    by_cases e1 : k = b!"encrypt"
    · subst e1
      rw [if_pos rfl, if_pos rfl, if_neg (by decide), if_neg (by decide), c0 _ (by decide)]
      cases getValueOf (argSlots ps) b!"encrypt" with
      | none => rfl
      | some v => simp [slashValue]
    · rw [if_neg e1, if_neg e1]
      by_cases e2 : k = b!"librarypath"
      · subst e2
        rw [if_pos rfl, if_pos rfl, c0 _ (by decide)]
        cases getValueOf (argSlots ps) b!"librarypath" with
        | none => rfl
        | some v => simp [slashValue, trimPath_slashes]
      · rw [if_neg e2, if_neg e2, c0 k hk]
        rfl
  refine ⟨_, ?_, hcorr⟩
  unfold packArguments
  rw [hv]
  simp only [Res.bind_ok]
  have hm : validateMandatory (argSlots ps) = true := by
    rw [← h2]
    unfold validateMandatory mandatoryArguments
    simp only [List.all_cons, List.all_nil, containsKey_isSome]
    rw [c0 _ (by decide), c0 _ (by decide), c0 _ (by decide)]
    simp
  have hdir : w.env.isDir ((getValueOf (setValue (argSlots ps) b!"librarypath" trimPath)
      b!"librarypath").getD []) = true := by
    apply hw.isDir
    rw [getValueOf_setValue, if_pos rfl]
    rw [getValueOf_setValue, if_pos rfl, c0 _ (by decide)] at h4
    cases hg : getValueOf (argSlots ps) b!"librarypath" with
    | none =>
      rw [hg] at h4
      simpa [withSlashes] using h4
    | some v =>
      rw [hg] at h4
      simp only [Option.map_some, Option.getD_some, withSlashes_eq] at h4 ⊢
      rw [← trimPath_slashes]
      simpa [slashValue] using h4
  have hlve : countLVE lin = countLVE w.env := by
    unfold countLVE
    rw [hs.exeDir, hs.lve]
  rw [if_neg (by simp [hm]), if_neg (by simp [hdir])]
  rw [if_neg (by rw [← hcorr.encrypts, ← hlve]; exact h5), if_pos]
  have hnoicon : getValueOf (setValue (setValue (argSlots ps) b!"librarypath" trimPath) b!"encrypt" stringToLower)
      b!"icon" = none := by
    rw [getValueOf_setValue, if_neg (by decide), getValueOf_setValue, if_neg (by decide)]
    refine getValueOf_slots_not ps _ _ (by decide) fun hm => ?_
    obtain ⟨⟨k, v⟩, h7, h8⟩ := List.mem_map.1 hm
    simp only at h8
    subst h8
    exact hicon v h7
  rw [List.all_eq_true]
  intro k hk
  by_cases hki : k = b!"icon"
  · subst hki
    rw [hnoicon]
  · have hk0 : k ≠ [] := by
      rintro rfl
      simp at hk
    have hkl : k ≠ b!"librarypath" := by
      rintro rfl
      simp at hk
    have := hcorr.same hk0 hkl hki
    cases hg : getValueOf (setValue (setValue (argSlots ps) b!"librarypath" trimPath) b!"encrypt" stringToLower)
        k with
    | none => rfl
    | some v =>
      rw [hg] at this
      exact hw.fileExists v (h6 k hk v this)

/-! ## Whole runs -/

theorem packTool_back {w : PackWinEnv} {lin : PackEnv} (hs : SamePlace w lin) (hw : AlsoWindows w lin)
    {args : List Bytes} {ps : List (Bytes × Bytes)} (hp : ArgPairs args ps) {path lib : Bytes}
    (hpath : (b!"librarypath", path) ∈ ps) (hlib : LibraryName (withSlashes path) lib)
    {P : List Bytes → Prop} (hP : CaseApart w lib P) (hicon : ∀ v, (b!"icon", v) ∉ ps) {l : Listing}
    (hl : lin.library = some l) {content : List Bytes → Bytes} (hc : Copyable lin.librarySource l content)
    (hx : ExtrasFit lin) (hz : ∀ fs l, lin.zipWalk fs = some l → Shows l [] fs) {a' : Archive}
    (hfull : NoneEmpty lin lib a') (h : packTool lin (slashArgs args) = .ok ⟨0, some a'⟩) :
    packToolWin w args = .ok ⟨0, some (a'.map (winFile lib))⟩ := by
  unfold packTool at h
  split at h
  · simp at h
  rename_i hne
  split at h
  · simp at h
  rename_i hh
  rw [Res.bind_eq_ok] at h
  obtain ⟨r, h1, h⟩ := h
  cases r with
  | none => simp at h
  | some d' =>
    dsimp only at h
    obtain ⟨d, k1, hcor⟩ := packArguments_back hs hw hp hicon h1
    have hval := packArguments_get k1 hp (by decide) hpath
    rw [if_pos rfl] at hval
    have hval' : getValueOf d' b!"librarypath" = some (trimPath (slashes path)) := by
      rw [hcor _ (by decide), hval]
      simp [trimPath_slashes]
    have hname := getLibraryName_of hlib
    rw [withSlashes_eq] at hname
    have hlibname : afterLastSep (trimPath path) = lib := by
      have e := hname
      unfold getLibraryName at e
      split at e
      · simp at e
      · rw [trimPath_slashes, afterLastSlash_slashes] at e
        simpa using e
    have hno : getValueOf d b!"icon" = none := packArguments_none k1 hp (by decide) hicon
    have hno' : getValueOf d' b!"icon" = none := by
      rw [hcor _ (by decide), hno]
      rfl
    obtain ⟨t', ht1, -⟩ := hs.temp
    unfold packLibrary at h
    simp only [ht1, hval', Option.getD_some, hname, Res.bind_ok] at h
    -- the directories of the staging directory
    let D : List Bytes → Prop := fun p => p = [] ∨ p <+: manifestPath lib ∨ ∃ f ∈ a', p <+: f.1
    cases m1 : copyFolderStructure lin lib with
    | none => simp [m1] at h
    | some fs1 =>
      obtain ⟨n1, hk1, hd1, t1, u1⟩ := copyFolder_back (D := D) hs hw hP hl hc (Or.inl rfl)
        (Or.inr (Or.inl ⟨[b!".library", b!"manifest.xml"], rfl⟩))
        (fun p hp ho => Or.inr (Or.inr (hfull.library l hl p hp ho))) m1
      simp only [m1] at h
      cases m2 : createLibraryFolder lin lib fs1 with
      | none => simp [m2] at h
      | some fs2 =>
        obtain ⟨n2, hk2, hd2, t2, u2⟩ := createFolder_back (D := D) hs hP
          (Or.inr (Or.inl ⟨[b!"manifest.xml"], rfl⟩)) hk1 hd1 u1 m2
        simp only [m2] at h
        have m3 : prepareIconFile lin d' t' lib fs2 = .ok (some none) := by
          unfold prepareIconFile
          rw [hno']
        simp only [m3, Res.bind_ok] at h
        cases m4 : copyLVE lin d' lib fs2 with
        | none => simp [m4] at h
        | some r4 =>
          obtain ⟨n4, hk4, hd4, t4, u4, v4⟩ := copyLVE_back (D := D) hs hP hcor.encrypts hk2 hd2 t2 u2 m4
          obtain ⟨fs4, lves⟩ := r4
          simp only [m4] at h
          cases m5 : copyExtraFiles lin lib fs4 with
          | none => simp [m5] at h
          | some fs5 =>
            obtain ⟨n5, hk5, hd5, -⟩ := copyExtra_back (D := D) hs hw hP hx
              (fun l hl p hp ho => Or.inr (Or.inr (hfull.extra l hl p hp ho))) hk4 hd4 t4 u4 v4 m5
            simp only [m5] at h
            rw [Res.bind_eq_ok] at h
            obtain ⟨fs6', m6, h⟩ := h
            obtain ⟨fs6, n6, s6, hk6, hd6⟩ := manifest_back hs hP hcor hk5 hd5 m6
            rw [Res.bind_eq_ok] at h
            obtain ⟨r7, m7, h⟩ := h
            cases r7 with
            | none => simp at h
            | some fs7' =>
              cases htemp : w.env.tempDir with
              | none => exact absurd htemp hw.temp
              | some tempDir =>
                obtain ⟨fs7, n7, s7, hk7, hd7⟩ := encryptFiles_back (tW := tempDir) hs hP hcor.encrypts s6 hk6 hd6 m7
                dsimp only at h
                cases m8 : createZipArchive lin d' fs7' with
                | mk o ok =>
                  simp only [m8, Res.ok.injEq, PackResult.mk.injEq] at h
                  obtain ⟨hok, rfl⟩ := h
                  cases ok with
                  | false => simp at hok
                  | true =>
                    have n8 := createZip_back hs hw hP hcor.encrypts s7 hk7 hz
                      (fun p hp => dirsIn_get hd7 hp) m8
                    have n3 : prepareIconFileWin w d tempDir lib fs2 = .ok (some none) := by
                      unfold prepareIconFileWin
                      rw [hno]
                    unfold packToolWin
                    rw [if_neg (by
                      rintro rfl
                      exact hne rfl), if_neg (by
                      rw [helpRequested_back args (by simpa using hh)]
                      simp), k1]
                    simp only [Res.bind_ok]
                    unfold packLibraryWin
                    simp only [htemp, hval, Option.getD_some, hlibname, Res.bind_ok, n1, n2, n3, n4, n5, n6, n7, n8,
                      if_true]

/-! ## No empty directories -/

theorem encryptOne_dirs {env : PackEnv} {e : CrEnv} {lib : Bytes} {p : List Bytes} {s s' : EncState} {ok : Bool}
    (h : encryptOne env e lib p s = .ok (s', ok)) {q : List Bytes} (hq : s.fs.get q = some .dir) :
    s'.fs.get q = some .dir := by
  unfold encryptOne at h
  split at h
  · simp at h
  · dsimp only at h
    split at h
    · simp at h
    · rename_i y hy
      have hne : q ≠ lib :: encryptedPath p := by
        rintro rfl
        split at hy
        · unfold Staged.write at hy
          split at hy
          · rename_i hc
            exact hc.2.2 hq
          · simp at hy
        · simp at hy
      rw [Res.bind_eq_ok] at h
      obtain ⟨⟨t, bytes, ok'⟩, -, h⟩ := h
      simp only [Res.ok.injEq, Prod.mk.injEq] at h
      obtain ⟨rfl, -⟩ := h
      rw [Staged.get_set, if_neg hne]
      exact hq

theorem encSeq_dirs {env : PackEnv} {e : CrEnv} {lib : Bytes} (ps : List (List Bytes)) {s s' : EncState} {ok : Bool}
    (h : encSeq env e lib ps s = .ok (s', ok)) {q : List Bytes} (hq : s.fs.get q = some .dir) :
    s'.fs.get q = some .dir := by
  induction ps generalizing s with
  | nil =>
    simp only [encSeq, Res.ok.injEq, Prod.mk.injEq] at h
    rw [← h.1]
    exact hq
  | cons p ps ih =>
    unfold encSeq at h
    rw [Res.bind_eq_ok] at h
    obtain ⟨⟨s1, ok1⟩, h1, h⟩ := h
    have h2 := encryptOne_dirs h1 hq
    cases ok1 with
    | true =>
      simp only [if_true] at h
      exact ih h h2
    | false =>
      simp only [Bool.false_eq_true, if_false, Res.ok.injEq, Prod.mk.injEq] at h
      rw [← h.1]
      exact h2

theorem Packed.dirs_stay {env : PackEnv} {l : Listing} {content : List Bytes → Bytes} {lib tempDir : Bytes}
    {enc : Bool} {fs5 fs6 : Staged} (h : Packed env l content lib tempDir enc fs5 fs6) {q : List Bytes}
    (hq : fs5.get q = some .dir) : fs6.get q = some .dir := by
  cases enc with
  | false => rw [h.not rfl]; exact hq
  | true =>
    obtain ⟨-, s, h1, rfl⟩ := h.done rfl
    exact encSeq_dirs _ h1 hq

theorem shows_dir {zl : Listing} {fs : Staged} (h : Shows zl [] fs) {q : List Bytes} (hq : fs.get q = some .dir)
    (hne : q ≠ []) : (q, Kind.dir) ∈ entries zl := by
  obtain ⟨-, s2, s3⟩ := h
  have hmem : q ∈ fs.map (·.1) := by
    unfold Staged.get at hq
    rw [Option.map_eq_some_iff] at hq
    obtain ⟨e, e1, -⟩ := hq
    have e2 := List.find?_some e1
    simp only [decide_eq_true_eq] at e2
    exact List.mem_map.2 ⟨e, List.mem_of_find?_eq_some e1, e2⟩
  have h2 := s3 _ hmem (by simp) hne
  simp only [List.length_nil, List.drop_zero] at h2
  obtain ⟨⟨p, k⟩, e1, e2⟩ := List.mem_map.1 h2
  simp only at e2
  subst e2
  have e3 := s2 _ e1
  simp only [List.nil_append, hq, Option.map_some, Option.some.injEq, kindOf] at e3
  subst e3
  exact e1

theorem noneEmpty_of {w : PackWinEnv} {lin : PackEnv} (hs : SamePlace w lin) (hw : AlsoWindows w lin) {lib : Bytes}
    {P : List Bytes → Prop} (hP : CaseApart w lib P) {l : Listing} (hl : lin.library = some l)
    {content : List Bytes → Bytes} (hc : Copyable lin.librarySource l content) (hx : ExtrasFit lin)
    (hz : ∀ fs l, lin.zipWalk fs = some l → Shows l [] fs) {d : ArgData} {tempDir : Bytes} {icon : Option Bytes}
    {lves : List Bytes} {fs1 fs2 fs3 fs4 fs5 fs6 : Staged}
    (h : PackSteps lin d tempDir lib icon lves fs1 fs2 fs3 fs4 fs5 fs6) {zl : Listing} (hwalk : lin.zipWalk fs6 = some zl)
    {a' : Archive} (hfull : ∀ p, (p, Kind.dir) ∈ entries zl → ∃ f ∈ a', p <+: f.1) : NoneEmpty lin lib a' := by
  have hpk := packed_of h hl hc
  constructor
  · intro l' hl' p hp ho
    rw [hl, Option.some.injEq] at hl'
    subst hl'
    exact hfull _ (shows_dir (hz fs6 zl hwalk) (hpk.dirs_stay (hpk.dirs p hp ho)) (by simp))
  · intro l' hl' p hp ho
    obtain ⟨-, hk1, hd1, t1, u1⟩ := copyFolder_back (D := fun _ => True) hs hw hP hl hc trivial trivial
      (fun _ _ _ => trivial) h.copy
    obtain ⟨-, hk2, hd2, t2, u2⟩ := createFolder_back (D := fun _ => True) hs hP trivial hk1 hd1 u1 h.folder
    obtain ⟨-, hk4, hd4, t4, u4, v4⟩ := copyLVE_back (D := fun _ => True) (d := d) hs hP rfl hk2 hd2 t2 u2 h.lveDone
    obtain ⟨-, -, -, x5⟩ := copyExtra_back (D := fun _ => True) hs hw hP hx
      (fun _ _ _ _ _ => trivial) hk4 hd4 t4 u4 v4 h.extra
    have h4 := x5 l' hl' p hp ho
    have h5 : fs5.get (lib :: b!".library" :: p) = some .dir := by
      have hm := h.manifest
      unfold writeManifest at hm
      dsimp only at hm
      split at hm
      · simp at hm
      · rename_i y hy
        rw [Res.bind_eq_ok] at hm
        obtain ⟨doc, -, hm⟩ := hm
        simp only [Res.ok.injEq] at hm
        subst hm
        have hwr : fs4.write [lib, b!".library", b!"manifest.xml"] [] = some y := by
          split at hy
          · exact hy
          · simp at hy
        have hne : lib :: b!".library" :: p ≠ [lib, b!".library", b!"manifest.xml"] := by
          intro he
          rw [he] at h4
          unfold Staged.write at hwr
          split at hwr
          · rename_i hcond
            exact hcond.2.2 h4
          · simp at hwr
        rw [Staged.get_set, if_neg hne, Staged.get_write hwr, if_neg hne]
        exact h4
    exact hfull _ (shows_dir (hz fs6 zl hwalk) (hpk.dirs_stay h5) (by simp))

end Semla
