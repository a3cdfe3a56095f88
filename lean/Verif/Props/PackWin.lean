import Verif.Lemmas.PackWinBack
import Verif.Lemmas.PackManifest
import Verif.Props.Pack

/-!
# Packaging on Windows: C83

Vocabulary is defined in `Verif/Spec/PackWin.lean`.
-/

namespace Semla.Props

open Semla Spec

/-! ## A Windows machine for the examples -/

/-- A Windows machine with the library `C:\l\Lib` and temporary files in `C:\T`. -/
def winMachine (library : Listing) : PackWinEnv where
  env := { sampleMachine library with
    isDir := fun p => withSlashes p == b!"C:/l/Lib"
    tempDir := some b!"C:\\T\\TempAb12"
    tmpVar := some b!"C:\\T" }
  fetch p := .data (b!"text of " ++ relPath p)
  fetchExtra _ := .noOpen

/-- The Linux machine with the same things on it. -/
def linMachine (library : Listing) : PackEnv :=
  { sampleMachine library with isDir := fun p => p == b!"C:/l/Lib" }

/-- Command lines for it. -/
def winCommand (encrypt : Bytes) : List Bytes :=
  [b!"-librarypath", b!"C:\\l\\Lib\\", b!"-version", b!"1.0", b!"-language", b!"3.2", b!"-encrypt", encrypt]

def winPairs (encrypt : Bytes) : List (Bytes × Bytes) :=
  [(b!"librarypath", b!"C:\\l\\Lib\\"), (b!"version", b!"1.0"), (b!"language", b!"3.2"), (b!"encrypt", encrypt)]

theorem win_pairs (encrypt : Bytes) (h : encrypt ≠ []) : ArgPairs (winCommand encrypt) (winPairs encrypt) :=
  .cons (by decide) (by decide) (.cons (by decide) (by decide) (.cons (by decide) (by decide)
    (.cons (by decide) h .nil)))

theorem win_name : LibraryName (withSlashes b!"C:\\l\\Lib\\") b!"Lib" :=
  ⟨b!"C:/l/", b!"/", by decide, by decide, by decide, by decide, by decide, Or.inr (by decide)⟩

/-! ## The same package -/

/-- **C83**, in full: from the same library and arguments, the tool makes a package on Windows if and only
if it makes one on Linux, and the packages are the same but for the line ends of the manifest.  This is
false (`c83_same_full_not`). -/
def c83_same_full : Prop :=
  ∀ (w : PackWinEnv) (lin : PackEnv) (args : List Bytes) (ps : List (Bytes × Bytes)) (path lib : Bytes),
    SamePlace w lin → ArgPairs args ps → (b!"librarypath", path) ∈ ps → LibraryName (withSlashes path) lib →
    (∀ a, packToolWin w args = .ok ⟨0, some a⟩ →
      ∃ a', packTool lin (slashArgs args) = .ok ⟨0, some a'⟩ ∧ a = a'.map (winFile lib)) ∧
    ∀ a', packTool lin (slashArgs args) = .ok ⟨0, some a'⟩ →
      packToolWin w args = .ok ⟨0, some (a'.map (winFile lib))⟩

/-- **C83, partial.** If the tool makes a package on Windows, it makes one on Linux from the same library
and arguments, with the same files in the same order, which contain the same bytes, but for the manifest,
whose lines end with `\r\n` on Windows.

Missing for the full claim: runs that succeed on Linux only (`c83_exactly_partial`, `c83_icon_not`), names that
differ in letter case at most (`c83_case_not`), icons in a subdirectory (`c83_deep_icon_not`), directories
called `package.mo` (`c83_package_dir_not`), and files of which the size cannot be found out
(`c83_stat_not`). -/
theorem c83_same_partial (w : PackWinEnv) (lin : PackEnv) (args : List Bytes) (ps : List (Bytes × Bytes))
    (path lib : Bytes) (hs : SamePlace w lin) (hp : ArgPairs args ps) (hpath : (b!"librarypath", path) ∈ ps)
    (hlib : LibraryName (withSlashes path) lib) (P : List Bytes → Prop) (hP : CaseApart w lib P)
    (hi : IconOnTop w P ps) (hn : NoPackageDirs w) (hstat : AllStat w) (a : Archive)
    (h : packToolWin w args = .ok ⟨0, some a⟩) :
    ∃ a', packTool lin (slashArgs args) = .ok ⟨0, some a'⟩ ∧ a = a'.map (winFile lib) := by
  obtain ⟨a', h1, h2, -⟩ := packTool_win hs hp hpath hlib hP hi hn hstat h
  exact ⟨a', h1, h2⟩

/-! ### A case that meets the hypotheses -/

theorem listDir_shape {fs fs' : Staged} (h : SameShape fs fs') (n : Nat) (base : List Bytes) :
    listDir fs' n base = listDir fs n base := by
  have hkeys : fs'.map (·.1) = fs.map (·.1) := by
    have := congrArg (List.map (·.1)) h
    simpa [List.map_map, Function.comp_def] using this.symm
  induction n generalizing base with
  | zero => rfl
  | succ n ih =>
    unfold listDir
    rw [hkeys]
    congr 1
    funext m rest
    have hk := kind_shape h (base ++ [m])
    rw [ih]
    cases h1 : fs.get (base ++ [m]) with
    | none =>
      rw [h1] at hk
      cases h2 : fs'.get (base ++ [m]) with
      | none => rfl
      | some y => simp [h2] at hk
    | some x =>
      rw [h1] at hk
      cases h2 : fs'.get (base ++ [m]) with
      | none => simp [h2] at hk
      | some y =>
        rw [h2] at hk
        cases x <;> cases y <;> simp [kindOf] at hk ⊢

theorem honestWalk_shape (base : List Bytes) (fs fs' : Staged) (h : SameShape fs fs') :
    honestWalk base fs' = honestWalk base fs := by
  have hkeys : fs'.map (·.1) = fs.map (·.1) := by
    have := congrArg (List.map (·.1)) h
    simpa [List.map_map, Function.comp_def] using this.symm
  have hdepth : depth fs' = depth fs := by
    have := congrArg (List.map List.length) hkeys
    simp only [List.map_map, Function.comp_def] at this
    unfold depth
    rw [this]
  have hshows : ∀ l, Shows l base fs' ↔ Shows l base fs := by
    intro l
    unfold Shows
    rw [hkeys]
    simp only [kind_shape h]
  unfold honestWalk
  rw [hdepth, listDir_shape h]
  simp only [hshows]

/-- The listing with the directories at the end. -/
def dirsLast : Listing → Listing → Listing
  | .done, acc => acc
  | .file n rest, acc => .file n (dirsLast rest acc)
  | .dir n sub rest, acc => dirsLast rest (.dir n sub acc)
  | .locked n rest, acc => .locked n (dirsLast rest acc)
  | .other n rest, acc => .other n (dirsLast rest acc)

theorem dirsLast_perm (l acc : Listing) : (entries (dirsLast l acc)).Perm (entries l ++ entries acc) := by
  induction l generalizing acc with
  | done => exact .refl _
  | file n rest ih => exact (ih acc).cons _
  | dir n sub rest _ ih =>
    refine (ih _).trans ?_
    simp only [entries]
    rw [← List.append_assoc]
    refine List.Perm.append_right _ ?_
    exact List.perm_append_comm
  | locked n rest ih => exact (ih acc).cons _
  | other n rest ih => exact (ih acc).cons _

theorem dirsLast_entries (l : Listing) (e : List Bytes × Kind) : e ∈ entries (dirsLast l .done) ↔ e ∈ entries l := by
  have := (dirsLast_perm l .done).mem_iff (a := e)
  simpa [entries] using this

/-- When the icon is looked for, files are listed before directories. -/
def filesFirst (fs : Staged) : Option Listing := (honestWalk [b!"Lib"] fs).map (dirsLast · .done)

/-- The sample library with an icon. -/
def winIconLib : Listing := .file b!"i.png" (.file b!"x.mo" (.dir b!"A" (.file b!"y.MO" (.file b!"package.mo" .done))
    (.file b!"package.mo" .done)))

/-- There is also an extra file. -/
def iconWin : PackWinEnv :=
  { winMachine winIconLib with
    env := { (winMachine winIconLib).env with
      iconWalk := filesFirst
      extra := some (some (.file b!"r.txt" .done)) }
    fetchExtra := fun _ => .data b!"read me\n" }

def iconLin : PackEnv :=
  { linMachine winIconLib with
    iconWalk := filesFirst
    extra := some (some (.file b!"r.txt" .done))
    extraSource := ⟨fun _ => some b!"read me\n", fun _ => false⟩ }

theorem win_place (l : Listing) : SamePlace (winMachine l) (linMachine l) where
  isDir := by
    intro p hp
    exact hp
  fileExists _ _ := ⟨rfl, rfl⟩
  readFile _ := rfl
  exeDir := rfl
  lve := rfl
  lveCopied := rfl
  library := rfl
  libraryFiles p c h := by
    simp only [winMachine, Fetched.data.injEq] at h
    subst h
    rfl
  libraryDirs := rfl
  extra := rfl
  extraFiles p c h := by simp [winMachine] at h
  extraDirs := rfl
  mkdirOk := rfl
  temp := ⟨_, rfl, b!"abcdef", rfl, by decide, rfl⟩
  tmpVar := rfl
  iconWalk fs fs' h := honestWalk_shape _ _ _ h
  encryptWalk fs fs' h := honestWalk_shape _ _ _ h
  zipWalk fs fs' h := honestWalk_shape _ _ _ h
  canRead := rfl
  canWrite := rfl
  C := rfl
  key := rfl
  keyLen := rfl
  iv := rfl
  mask := rfl
  readError := rfl
  writeOk := rfl
  zipOpens := rfl
  zipAdds := rfl
  zipCloses := rfl

theorem icon_place : SamePlace iconWin iconLin :=
  { win_place winIconLib with
    extra := rfl
    extraFiles := fun p c h => by
      simp only [iconWin, Fetched.data.injEq] at h
      subst h
      rfl
    extraDirs := rfl
    iconWalk := fun fs fs' h => by
      show filesFirst fs' = filesFirst fs
      unfold filesFirst
      rw [honestWalk_shape _ _ _ h] }

/-- Names that occur. -/
def iconNames : List Bytes :=
  [b!"Lib", b!".library", b!"manifest.xml", b!"package.mo", b!"package.moc", b!"lve_win32.exe",
    b!"lve_win64.exe", b!"lve_linux32", b!"lve_linux64", b!"lve_darwin64", b!"r.txt", b!"i.png", b!"x.mo", b!"x.moc", b!"A",
    b!"y.MO", b!"y.MOc"]

/-- Paths that may occur: the icon is at the top. -/
def IconPaths (p : List Bytes) : Prop :=
  (∀ n ∈ p, n ∈ iconNames) ∧ (b!"i.png" ∉ p ∨ ∃ r, p = b!"Lib" :: b!"i.png" :: r ∧ b!"i.png" ∉ r)

theorem iconPaths_apart (p q : List Bytes) (hp : IconPaths p) (hq : IconPaths q) (h : SameButCase p q) : p = q := by
  have key : ∀ a ∈ iconNames, ∀ b ∈ iconNames, a.map toLower = b.map toLower → a = b := by decide +kernel
  replace hp := hp.1
  replace hq := hq.1
  unfold SameButCase at h
  induction p generalizing q with
  | nil =>
    cases q with
    | nil => rfl
    | cons b q => simp at h
  | cons a p ih =>
    cases q with
    | nil => simp at h
    | cons b q =>
      simp only [List.map_cons, List.cons.injEq] at h
      rw [key a (hp a List.mem_cons_self) b (hq b List.mem_cons_self) h.1,
        ih q h.2 (fun n hn => hp n (List.mem_cons_of_mem _ hn)) (fun n hn => hq n (List.mem_cons_of_mem _ hn))]

theorem iconPaths_add {p : List Bytes} (h : IconPaths p) {n : Bytes} (hn : n ∈ iconNames) (hi : n ≠ b!"i.png") :
    IconPaths (p ++ [n]) := by
  refine ⟨fun m hm => ?_, ?_⟩
  · rcases List.mem_append.1 hm with hm | hm
    · exact h.1 m hm
    · simp only [List.mem_singleton] at hm
      exact hm ▸ hn
  · rcases h.2 with h | ⟨r, h1, h2⟩
    · refine Or.inl fun hm => ?_
      rcases List.mem_append.1 hm with hm | hm
      · exact h hm
      · simp only [List.mem_singleton] at hm
        exact hi hm.symm
    · refine Or.inr ⟨r ++ [n], by rw [h1]; rfl, fun hm => ?_⟩
      rcases List.mem_append.1 hm with hm | hm
      · exact h2 hm
      · simp only [List.mem_singleton] at hm
        exact hi hm.symm

theorem iconPaths_init {p : List Bytes} (h : IconPaths p) (hn : nameOf p ≠ b!"i.png") (hp : 1 < p.length) :
    IconPaths p.dropLast := by
  refine ⟨fun n hm => h.1 n (List.dropLast_subset _ hm), ?_⟩
  rcases h.2 with h | ⟨r, h1, h2⟩
  · exact Or.inl fun hm => h (List.dropLast_subset _ hm)
  · subst h1
    cases r with
    | nil => simp [nameOf] at hn
    | cons x r =>
      refine Or.inr ⟨(x :: r).dropLast, rfl, fun hm => h2 (List.dropLast_subset _ hm)⟩

instance (p : List Bytes) : Decidable (IconPaths p) :=
  decidable_of_iff ((∀ n ∈ p, n ∈ iconNames) ∧
      (b!"i.png" ∉ p ∨ (p.take 2 = [b!"Lib", b!"i.png"] ∧ b!"i.png" ∉ p.drop 2))) (by
    unfold IconPaths
    refine and_congr_right fun _ => or_congr_right ⟨?_, ?_⟩
    · rintro ⟨h1, h2⟩
      exact ⟨p.drop 2, by rw [← List.take_append_drop 2 p, h1]; simp, h2⟩
    · rintro ⟨r, rfl, h2⟩
      exact ⟨rfl, h2⟩)

theorem walked {fs : Staged} {l : Listing} {base : List Bytes} (h : Shows l base fs) {P : List Bytes → Prop}
    (hk : ∀ e ∈ fs, P e.1) : ∀ e ∈ entries l, P (base ++ e.1) := by
  intro e he
  have h1 := h.2.1 e he
  cases hg : fs.get (base ++ e.1) with
  | none => simp [hg] at h1
  | some x =>
    unfold Staged.get at hg
    rw [Option.map_eq_some_iff] at hg
    obtain ⟨y, h2, -⟩ := hg
    have h3 := hk y (List.mem_of_find?_eq_some h2)
    have h4 := List.find?_some h2
    simp only [decide_eq_true_eq] at h4
    rwa [h4] at h3

theorem icon_apart : CaseApart iconWin b!"Lib" IconPaths where
  apart := iconPaths_apart
  top := by decide +kernel
  vendor := by decide +kernel
  library l hl := by
    have : l = winIconLib := by simpa [iconWin, winMachine, sampleMachine] using hl.symm
    subst this
    decide +kernel
  extra l hl := by
    have : l = .file b!"r.txt" .done := by simpa [iconWin] using hl.symm
    subst this
    decide +kernel
  encrypt fs l hk hl e he := by
    have hsh : Shows l [b!"Lib"] fs := honestWalk_shows hl
    have hP : IconPaths (b!"Lib" :: e.1) := walked hsh hk e he
    have hne : e.1 ≠ [] := entries_ne_nil l _ he
    have hnames : ∀ n ∈ iconNames, IsName n := by
      have : ∀ n ∈ iconNames, n ≠ [] ∧ ∀ c ∈ n, c ≠ 47 ∧ c ≠ 92 ∧ c ≠ 0 := by decide +kernel
      exact this
    refine ⟨fun n hn => hnames n (hP.1 n (List.mem_cons_of_mem _ hn)), hP, fun _ hm => ?_, fun _ => ?_⟩
    · have htw : ∀ n ∈ iconNames, isModelicaFile n = true → n ++ b!"c" ∈ iconNames ∧ n ++ b!"c" ≠ b!"i.png" ∧
          n ≠ b!"i.png" := by decide +kernel
      have hname : nameOf e.1 ∈ iconNames := by
        have := hP.1 (nameOf e.1)
        refine this (List.mem_cons_of_mem _ ?_)
        have hm' : nameOf e.1 ∈ e.1.dropLast ++ [nameOf e.1] := by simp
        rwa [dropLast_nameOf hne] at hm'
      obtain ⟨h1, h2, h3⟩ := htw _ hname ((isModelicaFile_iff _).2 hm)
      have hd : IconPaths (b!"Lib" :: e.1.dropLast) := by
        have := iconPaths_init hP (by rw [nameOf_cons _ hne]; exact h3) (by
          cases hq : e.1 with
          | nil => exact absurd hq hne
          | cons a b => simp)
        rwa [List.dropLast_cons_of_ne_nil hne] at this
      exact iconPaths_add hd h1 h2
    · exact ⟨iconPaths_add hP (by decide) (by decide), iconPaths_add hP (by decide) (by decide)⟩
  zip fs l hk hl e he := by
    have hsh : Shows l [] fs := honestWalk_shows hl
    exact walked hsh hk e he

/-- The command line with an icon. -/
def iconArgs (encrypt : Bytes) : List Bytes := b!"-icon" :: b!"C:\\l\\Lib\\i.png" :: winCommand encrypt

def iconPairs (encrypt : Bytes) : List (Bytes × Bytes) := (b!"icon", b!"C:\\l\\Lib\\i.png") :: winPairs encrypt

theorem icon_top (encrypt : Bytes) : IconOnTop iconWin IconPaths (iconPairs encrypt) where
  top v n hv hn fs l hk hl e he hf hname := by
    have hv' : v = b!"C:\\l\\Lib\\i.png" := by
      simp only [iconPairs, winPairs, List.mem_cons, Prod.mk.injEq, List.not_mem_nil, or_false] at hv
      rcases hv with h | h | h | h | h
      · exact h.2
      all_goals exact absurd h.1 (by decide)
    subst hv'
    have hn' : n = b!"i.png" := by
      have h1 : LastName (withSlashes b!"C:\\l\\Lib\\i.png") b!"i.png" :=
        ⟨b!"C:/l/Lib/", by decide, by decide, Or.inr (by decide)⟩
      exact (lastName_eq hn).symm.trans (lastName_eq h1)
    subst hn'
    have hl' : filesFirst fs = some l := hl
    unfold filesFirst at hl'
    rw [Option.map_eq_some_iff] at hl'
    obtain ⟨l0, h1, rfl⟩ := hl'
    have he' : e ∈ entries l0 := (dirsLast_entries l0 e).1 he
    have hP : IconPaths (b!"Lib" :: e.1) := walked (honestWalk_shows h1) hk e he'
    have hne : e.1 ≠ [] := entries_ne_nil l0 _ he'
    have hin : b!"i.png" ∈ e.1 := by
      rw [← dropLast_nameOf hne, hname]
      simp
    rcases hP.2 with h | ⟨r, h2, h3⟩
    · exact absurd (List.mem_cons_of_mem _ hin) h
    · injection h2 with _ h2
      cases r with
      | nil => exact h2
      | cons x r =>
        exfalso
        apply h3
        rw [← hname, h2, nameOf_cons _ (by simp), ← dropLast_nameOf (p := x :: r) (by simp)]
        simp [nameOf_append]
  temp _ _ := ⟨b!"C:\\T", b!"TempAb12", rfl, by decide, by decide, rfl⟩

theorem icon_dirs : NoPackageDirs iconWin := by
  intro l hl
  rcases hl with hl | hl
  · have : l = winIconLib := by simpa [iconWin, winMachine, sampleMachine] using hl.symm
    subst this
    decide +kernel
  · have : l = .file b!"r.txt" .done := by simpa [iconWin] using hl.symm
    subst this
    decide +kernel

theorem icon_stat : AllStat iconWin := fun _ => ⟨by simp [iconWin, winMachine], by simp [iconWin, winMachine]⟩

theorem win_icon_pairs : ArgPairs (iconArgs b!"True") (iconPairs b!"True") :=
  .cons (by decide) (by decide) (win_pairs _ (by decide))

example : shown (packToolWin iconWin (iconArgs b!"True")) = some (0, some [b!"Lib/x.moc", b!"Lib/package.moc",
    b!"Lib/.library/manifest.xml", b!"Lib/.library/r.txt", b!"Lib/.library/lve_linux64", b!"Lib/A/y.MOc", b!"Lib/A/package.moc",
    b!"Lib/i.png"]) := by decide +kernel

example (a : Archive) (h : packToolWin iconWin (iconArgs b!"True") = .ok ⟨0, some a⟩) :
    ∃ a', packTool iconLin (slashArgs (iconArgs b!"True")) = .ok ⟨0, some a'⟩ ∧ a = a'.map (winFile b!"Lib") :=
  c83_same_partial iconWin iconLin _ _ _ _ icon_place win_icon_pairs (by decide) win_name _ icon_apart (icon_top _)
    icon_dirs icon_stat a h

/-- **C83, complete packages, partial.** With these hypotheses and those of `c40_partial`, every regular
file of the library outside `.library` is in the package made on Windows: unchanged, or, if it is a Modelica
file and encryption is on, as its encrypted twin. -/
theorem c83_complete_partial (w : PackWinEnv) (lin : PackEnv) (args : List Bytes) (ps : List (Bytes × Bytes))
    (path lib : Bytes) (hs : SamePlace w lin) (hp : ArgPairs args ps) (hpath : (b!"librarypath", path) ∈ ps)
    (hlib : LibraryName (withSlashes path) lib) (P : List Bytes → Prop) (hP : CaseApart w lib P)
    (hi : IconOnTop w P ps) (hn : NoPackageDirs w) (hstat : AllStat w) (a : Archive)
    (h : packToolWin w args = .ok ⟨0, some a⟩) (l : Listing) (hl : w.env.library = some l)
    (content : List Bytes → Bytes) (hc : Copyable lin.librarySource l content) (ht : Truthful lin lib)
    (hpk : AsksEncryption ps → PlainPackages l ∧ GoodCrypto lin ∧ ∀ p, lin.canRead (lib :: p) = true)
    (p : List Bytes) (hf : (p, Kind.file) ∈ entries l) (ho : Outside p)
    (hclash : AsksEncryption ps → ∀ q, IsSource l q → p ≠ twin q) :
    (¬ (AsksEncryption ps ∧ ModelicaName (nameOf p)) → (lib :: p, content p) ∈ a) ∧
    (AsksEncryption ps ∧ ModelicaName (nameOf p) → ∃ out, (lib :: twin p, out) ∈ a ∧ ∃ key stored,
      Encrypted lin.C key (key.take lin.keyLen) (lin.iv p) (content p ++ stored) out ∧
      (stored = [] ∨ stored = lin.mask p)) := by
  obtain ⟨a', h1, h2⟩ := c83_same_partial w lin args ps path lib hs hp hpath hlib P hP hi hn hstat a h
  have hpath' : (b!"librarypath", withSlashes path) ∈ slashPairs ps :=
    List.mem_map.2 ⟨_, hpath, by simp [slashValue, withSlashes_eq]⟩
  have hask : AsksEncryption (slashPairs ps) ↔ AsksEncryption ps := by
    constructor
    · rintro ⟨v, h3, h4⟩
      obtain ⟨⟨k, x⟩, h5, h6⟩ := List.mem_map.1 h3
      simp only [Prod.mk.injEq] at h6
      obtain ⟨rfl, rfl⟩ := h6
      exact ⟨x, h5, h4⟩
    · rintro ⟨v, h3, h4⟩
      exact ⟨v, List.mem_map.2 ⟨_, h3, rfl⟩, h4⟩
  have hmem : ∀ q c, b!".library" ∉ q → (lib :: q, c) ∈ a' → (lib :: q, c) ∈ a := by
    intro q c hq hm
    rw [h2]
    refine List.mem_map.2 ⟨_, hm, ?_⟩
    unfold winFile
    rw [if_neg]
    intro he
    injection he with _ he
    exact hq (by rw [he]; simp)
  have hne : p ≠ [] := entries_ne_nil l _ hf
  have htw : ModelicaName (nameOf p) → b!".library" ∉ twin p := by
    intro hm hin
    rcases List.mem_append.1 hin with h3 | h3
    · exact ho (List.dropLast_subset _ h3)
    · simp only [List.mem_singleton] at h3
      have := congrArg List.getLast? h3
      simp at this
  have key := c40_partial lin (slashArgs args) a' h1 (slashPairs ps) (argPairs_slash hp) (withSlashes path) lib
    hpath' hlib l (by rw [hs.library, hl]) content hc ht (fun he => hpk (hask.1 he)) p hf ho
    (fun he => hclash (hask.1 he))
  rw [hask] at key
  refine ⟨fun hno => hmem p _ ho (key.1 hno), fun hyes => ?_⟩
  obtain ⟨out, h3, h4⟩ := key.2 hyes
  exact ⟨out, hmem _ _ (htw hyes.2) h3, h4⟩

theorem icon_truthful : Truthful iconLin b!"Lib" where
  icon fs l h := by
    have h : filesFirst fs = some l := h
    unfold filesFirst at h
    rw [Option.map_eq_some_iff] at h
    obtain ⟨l0, h1, rfl⟩ := h
    obtain ⟨h2, h3, h4⟩ := honestWalk_shows h1
    have hp : (entries (dirsLast l0 .done)).Perm (entries l0) := by
      have := dirsLast_perm l0 .done
      simpa [entries] using this
    refine ⟨(hp.map _).nodup_iff.2 h2, fun e he => h3 e (hp.mem_iff.1 he), fun q hq hb hne => ?_⟩
    exact (hp.map _).mem_iff.2 (h4 q hq hb hne)
  encrypt fs l h := shows_old (honestWalk_shows h)
  zip fs l h := honestWalk_shows h

example : Copyable iconLin.librarySource winIconLib (fun p => b!"text of " ++ relPath p) ∧ PlainPackages winIconLib ∧
    GoodCrypto iconLin ∧ NoClash winIconLib ∧ Truthful iconLin b!"Lib" :=
  ⟨sample_copyable winIconLib (by decide +kernel) (by decide +kernel), by unfold PlainPackages; decide +kernel,
    ⟨toy_good, by simp [iconLin, linMachine, sampleMachine], by simp [iconLin, linMachine, sampleMachine],
      fun _ => by simp [iconLin, linMachine, sampleMachine, toyIv],
      fun p => by simp [iconLin, linMachine, sampleMachine, toyMask]⟩, by
      have h1 : ∀ e ∈ entries winIconLib, ∀ f ∈ entries winIconLib, f.1 ≠ twin e.1 := by decide +kernel
      exact fun p q hp _ hq => h1 _ hp _ hq, icon_truthful⟩

/-! ## Exactly when there is a package -/

/-- **C83, exactly when, partial.** Without an icon, and if what works on Linux works on Windows, the tool
makes a package on Windows if and only if it makes one on Linux that has a file in every directory of the
library and of the extra files; the packages are the same but for the line ends of the manifest.

Missing for the full claim: as for `c83_same_partial`, libraries with entries that are neither regular files
nor directories or cannot be copied, and, for runs on Linux only, icons and libraries with directories of
which nothing gets into the package (`c83_empty_not`). -/
theorem c83_exactly_partial (w : PackWinEnv) (lin : PackEnv) (args : List Bytes) (ps : List (Bytes × Bytes))
    (path lib : Bytes) (hs : SamePlace w lin) (hw : AlsoWindows w lin) (hp : ArgPairs args ps)
    (hpath : (b!"librarypath", path) ∈ ps) (hlib : LibraryName (withSlashes path) lib) (P : List Bytes → Prop)
    (hP : CaseApart w lib P) (hicon : ∀ v, (b!"icon", v) ∉ ps) (hn : NoPackageDirs w) (hstat : AllStat w)
    (l : Listing) (hl : w.env.library = some l) (content : List Bytes → Bytes)
    (hc : Copyable lin.librarySource l content) (hx : ExtrasFit lin) (ht : Truthful lin lib) (a : Archive) :
    packToolWin w args = .ok ⟨0, some a⟩ ↔
      ∃ a', packTool lin (slashArgs args) = .ok ⟨0, some a'⟩ ∧ NoneEmpty lin lib a' ∧ a = a'.map (winFile lib) := by
  have hl' : lin.library = some l := by rw [hs.library, hl]
  constructor
  · intro h
    have hi : IconOnTop w P ps := ⟨fun v _ hv => absurd hv (hicon v), fun v hv => absurd hv (hicon v)⟩
    obtain ⟨a', h1, h2, d, t, icon, lves, fs1, fs2, fs3, fs4, fs5, fs6, zl, h3, h4, h5⟩ :=
      packTool_win hs hp hpath hlib hP hi hn hstat h
    exact ⟨a', h1, noneEmpty_of hs hw hP hl' hc hx ht.zip h3 h4 h5, h2⟩
  · rintro ⟨a', h1, h2, rfl⟩
    exact packTool_back hs hw hp hpath hlib hP hicon hl' hc hx ht.zip h2 h1

theorem icon_also : AlsoWindows iconWin iconLin where
  isDir _ h := h
  fileExists _ _ := rfl
  libraryFiles p c h := by
    simp only [iconLin, linMachine, sampleMachine, Option.some.injEq] at h
    subst h
    rfl
  extraFiles p c h := by
    simp only [iconLin, Option.some.injEq] at h
    subst h
    rfl
  temp := by simp [iconWin, winMachine]
  mkdir := rfl
  canRead _ := rfl

theorem icon_extras : ExtrasFit iconLin := by
  intro l hl
  have : l = .file b!"r.txt" .done := by simpa [iconLin] using hl.symm
  subst this
  refine ⟨⟨fun _ => b!"read me\n", by decide +kernel, by decide +kernel, fun p _ _ => rfl, fun p hp => ?_⟩,
    by decide +kernel⟩
  simp [entries] at hp

theorem icon_exactly (a : Archive) : packToolWin iconWin (winCommand b!"True") = .ok ⟨0, some a⟩ ↔
    ∃ a', packTool iconLin (slashArgs (winCommand b!"True")) = .ok ⟨0, some a'⟩ ∧ NoneEmpty iconLin b!"Lib" a' ∧
      a = a'.map (winFile b!"Lib") :=
  c83_exactly_partial iconWin iconLin _ _ _ _ icon_place icon_also (win_pairs _ (by decide)) (by decide) win_name _
    icon_apart (by intro v; simp [winPairs]) icon_dirs icon_stat winIconLib rfl _
    (sample_copyable winIconLib (by decide +kernel) (by decide +kernel)) icon_extras icon_truthful a

/-- There is a package, on both. -/
example : shown (packToolWin iconWin (winCommand b!"True")) = some (0, some [b!"Lib/x.moc", b!"Lib/package.moc",
    b!"Lib/.library/manifest.xml", b!"Lib/.library/r.txt", b!"Lib/.library/lve_linux64", b!"Lib/A/y.MOc",
    b!"Lib/A/package.moc", b!"Lib/i.png"]) := by decide +kernel

example : shown (packTool iconLin (slashArgs (winCommand b!"True"))) =
    shown (packToolWin iconWin (winCommand b!"True")) := by decide +kernel

/-! ## No source in packages that are encrypted -/

theorem zipEntriesWin_mem {env : PackEnv} {fs : Staged} (l : Listing) (dir : List Bytes) (res : Bool) {a : Archive}
    {ok : Bool} (h : zipEntriesWin env true fs l dir res = .ok (a, ok)) : ∀ f ∈ a, ¬ ModelicaName (nameOf f.1) := by
  induction l generalizing dir res a ok with
  | done =>
    simp only [zipEntriesWin, Res.ok.injEq, Prod.mk.injEq] at h
    simp [← h.1]
  | file n rest ih =>
    unfold zipEntriesWin at h
    split at h
    · rename_i hm
      have hm' : ¬ isModelicaFile n = true := by simpa using hm
      split at h
      · simp only [Res.ok.injEq, Prod.mk.injEq] at h
        simp [← h.1]
      · simp at h
      · split at h
        · simp at h
        · split at h
          · rw [Res.bind_eq_ok] at h
            obtain ⟨⟨b, ok'⟩, h1, h⟩ := h
            simp only [Res.ok.injEq, Prod.mk.injEq] at h
            rw [← h.1]
            intro f hf
            rcases List.mem_cons.1 hf with rfl | hf
            · intro hn
              rw [nameOf_append] at hn
              exact hm' ((isModelicaFile_iff n).2 hn)
            · exact ih dir true h1 f hf
          · simp only [Res.ok.injEq, Prod.mk.injEq] at h
            simp [← h.1]
    · exact ih dir res h
  | dir n sub rest ih1 ih2 =>
    unfold zipEntriesWin at h
    rw [Res.bind_eq_ok] at h
    obtain ⟨⟨b, ok1⟩, h1, h⟩ := h
    have hb := ih1 _ _ h1
    dsimp only at h
    split at h
    · rw [Res.bind_eq_ok] at h
      obtain ⟨⟨c, ok2⟩, h2, h⟩ := h
      have hc := ih2 _ _ h2
      simp only [Res.ok.injEq, Prod.mk.injEq] at h
      rw [← h.1]
      intro f hf
      rcases List.mem_append.1 hf with hf | hf
      · exact hb f hf
      · exact hc f hf
    · simp only [Res.ok.injEq, Prod.mk.injEq] at h
      rw [← h.1]
      exact hb
  | locked n rest ih =>
    simp only [zipEntriesWin, Res.ok.injEq, Prod.mk.injEq] at h
    simp [← h.1]
  | other n rest ih =>
    unfold zipEntriesWin at h
    exact ih dir res h

/-- How a run gets to an archive. -/
theorem packToolWin_archive {w : PackWinEnv} {args : List Bytes} {code : Nat} {a : Archive}
    (h : packToolWin w args = .ok ⟨code, some a⟩) :
    ∃ d tempDir fs fs' icon ok, packArguments w.env args = .ok (some d) ∧
      prepareIconFileWin w d tempDir (afterLastSep ((getValueOf d b!"librarypath").getD [])) fs = .ok (some icon) ∧
      createZipArchiveWin w.env d fs' = .ok (some a, ok) := by
  unfold packToolWin at h
  split at h
  · simp at h
  split at h
  · simp at h
  rw [Res.bind_eq_ok] at h
  obtain ⟨r, h1, h⟩ := h
  cases r with
  | none => simp at h
  | some d =>
    dsimp only at h
    unfold packLibraryWin at h
    cases htemp : w.env.tempDir with
    | none => simp [htemp] at h
    | some tempDir =>
      simp only [htemp] at h
      rw [Res.bind_eq_ok] at h
      obtain ⟨r1, m1, h⟩ := h
      cases r1 with
      | none => simp at h
      | some fs1 =>
        dsimp only at h
        split at h
        · simp at h
        · rename_i fs2 m2
          rw [Res.bind_eq_ok] at h
          obtain ⟨r3, m3, h⟩ := h
          cases r3 with
          | none => simp at h
          | some icon =>
            dsimp only at h
            split at h
            · simp at h
            · rw [Res.bind_eq_ok] at h
              obtain ⟨r5, m5, h⟩ := h
              cases r5 with
              | none => simp at h
              | some fs5 =>
                dsimp only at h
                rw [Res.bind_eq_ok] at h
                obtain ⟨fs6, m6, h⟩ := h
                rw [Res.bind_eq_ok] at h
                obtain ⟨r7, m7, h⟩ := h
                cases r7 with
                | none => simp at h
                | some fs7 =>
                  dsimp only at h
                  rw [Res.bind_eq_ok] at h
                  obtain ⟨⟨o, ok⟩, m8, h⟩ := h
                  simp only [Res.ok.injEq, PackResult.mk.injEq] at h
                  obtain ⟨-, rfl⟩ := h
                  exact ⟨d, tempDir, fs2, fs7, icon, ok, h1, m3, m8⟩

/-- **C83.** If the arguments ask for encryption, an archive made on Windows has no file whose name ends
with `.mo` in any letter case, whatever the library, the listings, failures, and the exit status. -/
theorem c83_no_source (w : PackWinEnv) (args : List Bytes) (r : PackResult) (h : packToolWin w args = .ok r)
    (a : Archive) (ha : r.archive = some a) (ps : List (Bytes × Bytes)) (hp : ArgPairs args ps)
    (he : AsksEncryption ps) : ∀ f ∈ a, ¬ ModelicaName (nameOf f.1) := by
  obtain ⟨code, ar⟩ := r
  simp only at ha
  subst ha
  obtain ⟨d, t, fs, fs', icon, ok, h1, -, h2⟩ := packToolWin_archive h
  have hu := (packArguments_encrypts h1 hp).2 he
  unfold createZipArchiveWin at h2
  split at h2
  · simp at h2
  · rename_i l _
    rw [Res.bind_eq_ok] at h2
    obtain ⟨⟨b, ok'⟩, h3, h2⟩ := h2
    rw [hu] at h3
    simp only [Res.ok.injEq, Prod.mk.injEq] at h2
    have hb := zipEntriesWin_mem l [] false h3
    split at h2
    · simp at h2
    · simp only [Option.some.injEq] at h2
      rw [← h2.1]
      exact hb

/-! ## Icons -/

/-- **C83, icons on NTFS.** NTFS lists names in alphabetical order, in which `.library`, the directory that
the tool itself has just made, comes before names that start with a letter.  If a directory is listed
first, and no file in it or in its subdirectories has the name of the icon, no package is made: whatever
else the library contains, a command line with an icon is of no use. -/
theorem c83_icon_fails (w : PackWinEnv) (args : List Bytes) (r : PackResult) (h : packToolWin w args = .ok r)
    (ps : List (Bytes × Bytes)) (hp : ArgPairs args ps) (v n : Bytes) (hv : (b!"icon", v) ∈ ps)
    (hn : LastName (withSlashes v) n)
    (hw : ∀ fs l, w.env.iconWalk fs = some l → ∃ d sub rest, l = .dir d sub rest ∧
      ∀ e ∈ entries sub, e.2 = .file → nameOf e.1 ≠ n) : r.archive = none := by
  obtain ⟨code, ar⟩ := r
  cases ar with
  | none => rfl
  | some a =>
    exfalso
    obtain ⟨d, t, fs, fs', icon, ok, h1, h2, -⟩ := packToolWin_archive h
    have hg := packArguments_get h1 hp (by decide) hv
    rw [if_neg (by decide), if_neg (by decide)] at hg
    have hname : afterLastSep v = n := by
      rw [← afterLastSlash_slashes, ← withSlashes_eq]
      exact lastName_eq hn
    unfold prepareIconFileWin at h2
    simp only [hg] at h2
    unfold locateIconFileWin at h2
    cases hl : w.env.iconWalk fs with
    | none => simp [hl] at h2
    | some l =>
      obtain ⟨x, sub, rest, rfl, hsub⟩ := hw fs l hl
      simp only [hl, hname, findFileWin] at h2
      generalize hdir : [afterLastSep ((getValueOf d b!"librarypath").getD [])] ++ [x] = dir at h2
      cases hf : findFileWin n sub dir none with
      | none =>
        rw [hf] at h2
        simp at h2
      | some p =>
        rcases findFileWin_path n sub dir none p hf with h3 | ⟨q, -, h3, h4⟩
        · simp at h3
        · exact hsub _ h3 rfl h4

/-- A machine that lists directories in alphabetical order. -/
def ntfsMachine (library : Listing) : PackWinEnv :=
  { winMachine library with
    env := { (winMachine library).env with
      iconWalk := fun _ => some (.dir b!".library" .done (.dir b!"A" (.file b!"i.png" .done) (.file b!"i.png" .done))) } }

example : ∀ fs l, (ntfsMachine winIconLib).env.iconWalk fs = some l → ∃ d sub rest, l = .dir d sub rest ∧
    ∀ e ∈ entries sub, e.2 = .file → nameOf e.1 ≠ b!"i.png" := by
  intro fs l h
  simp only [ntfsMachine, Option.some.injEq] at h
  subst h
  exact ⟨_, _, _, rfl, by simp [entries]⟩

example : shown (packToolWin (ntfsMachine winIconLib) (iconArgs b!"no")) = some (4, none) := by decide +kernel

/-! ## Where Windows and Linux differ -/

/-- A library with an empty directory: the package is made on Linux; on Windows, the tool fails. -/
theorem c83_empty_not : shown (packTool (linMachine (.dir b!"E" .done (.file b!"x.mo" .done)))
      (slashArgs (winCommand b!"no"))) = some (0, some [b!"Lib/.library/manifest.xml", b!"Lib/x.mo"]) ∧
    shown (packToolWin (winMachine (.dir b!"E" .done (.file b!"x.mo" .done))) (winCommand b!"no")) =
      some (9, some [b!"Lib/.library/manifest.xml", b!"Lib/x.mo"]) := by decide +kernel

/-- The full claim is false. -/
theorem c83_same_full_not : ¬ c83_same_full := by
  intro h
  have h1 := (h (winMachine (.dir b!"E" .done (.file b!"x.mo" .done)))
    (linMachine (.dir b!"E" .done (.file b!"x.mo" .done))) _ _ _ _ (win_place _)
    (win_pairs b!"no" (by decide)) (by decide) win_name).2
  have h2 := c83_empty_not
  cases h3 : packTool (linMachine (.dir b!"E" .done (.file b!"x.mo" .done))) (slashArgs (winCommand b!"no")) with
  | ub u =>
    rw [h3] at h2
    simp [shown] at h2
  | ok r =>
    obtain ⟨code, ar⟩ := r
    rw [h3] at h2
    cases ar with
    | none => simp [shown] at h2
    | some a =>
      have hc : code = 0 := by
        have := h2.1
        simp only [shown, Option.some.injEq, Prod.mk.injEq] at this
        exact this.1
      subst hc
      rw [h1 a h3] at h2
      have := h2.2
      simp [shown] at this

/-- An icon, where the first thing listed is the directory `.library`: Linux finds it, Windows does not. -/
theorem c83_icon_not : shown (packTool (linMachine winIconLib) (slashArgs (iconArgs b!"no"))) = some (0, some
      [b!"Lib/.library/manifest.xml", b!"Lib/package.mo", b!"Lib/A/package.mo", b!"Lib/A/y.MO", b!"Lib/x.mo",
        b!"Lib/i.png"]) ∧
    shown (packToolWin (winMachine winIconLib) (iconArgs b!"no")) = some (4, none) := by decide +kernel

/-- An icon in a subdirectory that is listed first: Windows finds it, Linux does not. -/
theorem c83_deep_icon_not :
    shown (packTool { linMachine (.dir b!"A" (.file b!"i.png" .done) .done) with
        iconWalk := fun _ => some (.dir b!"A" (.file b!"i.png" .done) (.dir b!".library" .done .done)) }
      (slashArgs (iconArgs b!"no"))) = some (4, none) ∧
    shown (packToolWin { winMachine (.dir b!"A" (.file b!"i.png" .done) .done) with
        env := { (winMachine (.dir b!"A" (.file b!"i.png" .done) .done)).env with
          iconWalk := fun _ => some (.dir b!"A" (.file b!"i.png" .done) (.dir b!".library" .done .done)) } }
      (iconArgs b!"no")) = some (0, some [b!"Lib/.library/manifest.xml", b!"Lib/A/i.png"]) := by decide +kernel

/-- `Package.mo`, with a capital letter, is encrypted on Windows; on Linux, it is dropped. -/
theorem c83_case_not : shown (packTool (linMachine (.file b!"Package.mo" .done)) (slashArgs (winCommand b!"true"))) =
      some (0, some [b!"Lib/.library/manifest.xml", b!"Lib/.library/lve_linux64"]) ∧
    shown (packToolWin (winMachine (.file b!"Package.mo" .done)) (winCommand b!"true")) =
      some (0, some [b!"Lib/package.moc", b!"Lib/.library/manifest.xml", b!"Lib/.library/lve_linux64"]) := by
  decide +kernel

/-- A directory called `package.mo`: the tool fails on Linux; Windows does not open directories as files,
and passes it over. -/
theorem c83_package_dir_not :
    shown (packTool (linMachine (.file b!"x.mo" (.dir b!"package.mo" (.file b!"y" .done) .done)))
      (slashArgs (winCommand b!"true"))) = some (8, none) ∧
    shown (packToolWin (winMachine (.file b!"x.mo" (.dir b!"package.mo" (.file b!"y" .done) .done)))
      (winCommand b!"true")) = some (0, some [b!"Lib/x.moc", b!"Lib/.library/manifest.xml",
        b!"Lib/.library/lve_linux64", b!"Lib/package.mo/y"]) := by decide +kernel

/-- A library with a directory of three files. -/
def threeFiles : Listing :=
  .file b!"x.mo" (.dir b!"A" (.file b!"a.mo" (.file b!"b.mo" (.file b!"c.mo" .done))) .done)

/-- `stat` fails for a file in a subdirectory: it and the files listed behind it are missing in the package,
and the exit status is 0. -/
theorem c83_stat_not : shown (packToolWin { winMachine threeFiles with
      fetch := fun p => if p = [b!"A", b!"b.mo"] then .noStat else .data (relPath p) } (winCommand b!"no")) =
    some (0, some [b!"Lib/.library/manifest.xml", b!"Lib/A/a.mo", b!"Lib/x.mo"]) := by decide +kernel

/-- A file that exists but cannot be opened: `fread` and `fclose` are called with a null pointer.  On Linux,
the file is left out. -/
theorem c83_open_not : packToolWin { winMachine threeFiles with
      fetch := fun p => if p = [b!"A", b!"b.mo"] then .noOpen else .data (relPath p) } (winCommand b!"no") =
    .ub .nullDeref := by rfl

/-- An icon, with the variable `TEMP` unset: `strlen` is called with a null pointer. -/
theorem c83_temp_not : packToolWin { iconWin with env := { iconWin.env with tmpVar := none } } (iconArgs b!"no") =
    .ub .nullDeref := by rfl

end Semla.Props
