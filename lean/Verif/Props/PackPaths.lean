import Verif.Lemmas.PackPaths
import Verif.Props.Pack

/-!
# C79: long paths and deep directories in the packaging tool
-/

namespace Semla.Props

open Semla Semla.Spec

theorem stagedAt_dst {tmp : Bytes} {dst : List Bytes} (h0 : dst ≠ []) (hdn : ∀ n ∈ dst, n ≠ [] ∧ (47 : UInt8) ∉ n)
    {p : List Bytes} (hp : p ≠ []) (h : ∀ n ∈ p, n ≠ [] ∧ (47 : UInt8) ∉ n) :
    stagedAt tmp (under (under tmp dst) p) = dst ++ p := by
  rw [← under_append _ h0 hp]
  refine stagedAt_under tmp _ fun n hn => ?_
  rcases List.mem_append.1 hn with hn | hn
  · exact hdn n hn
  · exact h n hn

/-- **C79, the steps (copying).** If all paths are shorter than 2048 bytes, in the library and in the copy, and fewer
directories are inside each other than can be opened, copying is what Model/Pack has: the path of every entry in the
copy has the names it has in the library, whatever fails.  The properties of the packaging tool (C39 to C46, C66, C69)
are about such libraries. -/
theorem c79_copy_steps {w : CopyWorld} {tmp src : Bytes} {l : Listing} {dst : List Bytes} {fs : Staged} {fds : Nat}
    (hf : FoundAt w.list src l) (hn : ProperNames l) (hs : PlainPath src) (h0 : dst ≠ [])
    (hdn : ∀ n ∈ dst, n ≠ [] ∧ (47 : UInt8) ∉ n) (h1 : PathsBelow 2048 src l) (h2 : PathsBelow 2048 (under tmp dst) l)
    (hd : levels l < fds) :
    copyTreeTop w tmp fds src (under tmp dst) fs =
      copyDirectory ⟨fun p => w.copied (under src p), fun p => w.mkdirOk (under (under tmp dst) p)⟩ (some l) dst fs := by
  obtain ⟨f, rfl⟩ : ∃ f, fds = f + 1 := ⟨fds - 1, by omega⟩
  have he : w.list (snprintf maxPathLength src) = some (topEntries l) := by
    rw [show snprintf maxPathLength src = src from snprintf_fits h1.1]; exact hf.1
  unfold copyTreeTop copyDirectory
  rw [if_neg (by simp [he]), copyTree_succ, he]
  simp only [Option.map_some]
  rw [copyTree_entries w ⟨fun p => w.copied (under src p), fun p => w.mkdirOk (under (under tmp dst) p)⟩ tmp l f src _
    [] dst fs hf.2 (by omega) hn hs h1 h2 (fun p hp h => stagedAt_dst h0 hdn hp h) (fun p _ _ => rfl)
    (fun p k _ _ _ => rfl)]

/-- **C79, copying.** If all paths are shorter than 2048 bytes, in the library and in the copy, and fewer directories
are inside each other than can be opened, a library that can be read is copied: every file and directory is in the
copy, under the names and with the contents it has in the library; nothing else is there, and `.library` is left out. -/
theorem c79_copy_partial {w : CopyWorld} {tmp src : Bytes} {l : Listing} {content : List Bytes → Bytes}
    {dst : List Bytes} {fs : Staged} {fds : Nat} (hl : LibraryOnDisk w src (under tmp dst) l content)
    (hs : PlainPath src) (h0 : dst ≠ []) (hdn : ∀ n ∈ dst, n ≠ [] ∧ (47 : UInt8) ∉ n) (h1 : PathsBelow 2048 src l)
    (h2 : PathsBelow 2048 (under tmp dst) l) (hd : levels l < fds) (hdir : fs.get dst = some .dir)
    (hfresh : ∀ p, p ≠ [] → fs.get (dst ++ p) = none) :
    ∃ fs', copyTreeTop w tmp fds src (under tmp dst) fs = some fs' ∧
      (∀ p, (p, Kind.file) ∈ entries l → Outside p → fs'.get (dst ++ p) = some (.file (content p))) ∧
      (∀ p, (p, Kind.dir) ∈ entries l → Outside p → fs'.get (dst ++ p) = some .dir) ∧
      (∀ p, p ≠ [] → fs'.get (dst ++ p) ≠ none → p ∈ (entries l).map (·.1) ∧ Outside p) ∧
      (∀ q, (∀ p, p ≠ [] → q ≠ dst ++ p) → fs'.get q = fs.get q) := by
  have key := copyEntries_spec ⟨fun p => w.copied (under src p), fun p => w.mkdirOk (under (under tmp dst) p)⟩ content l
    [] dst fs hl.nodup hl.kinds (fun p hp ho => hl.copied p hp ho) (fun p hp ho => hl.made p hp ho) hdir
    (fun p hp => hfresh p (by obtain ⟨e, he, rfl⟩ := List.mem_map.1 hp; exact entries_ne_nil l e he))
  obtain ⟨k1, k2, k3, k4⟩ := key
  refine ⟨_, c79_copy_steps hl.found hl.names hs h0 hdn h1 h2 hd, k2, k3, ?_, ?_⟩
  · intro p hp hne
    by_cases hm : p ∈ (entries l).map (·.1)
    · refine ⟨hm, Classical.byContradiction fun ho => hne (k4 p hm ho)⟩
    · rw [k1 _ (fun p' hp' he => hm (by rwa [List.append_cancel_left he]))] at hne
      exact absurd (hfresh p hp) hne
  · intro q hq
    exact k1 q fun p hp => hq p (by obtain ⟨e, he, rfl⟩ := List.mem_map.1 hp; exact entries_ne_nil l e he)

/-! ### A disk -/

/-- The directory reached through these names. -/
def subListing : Listing → List Bytes → Option Listing
  | l, [] => some l
  | .done, _ => none
  | .file _ rest, p => subListing rest p
  | .locked _ rest, p => subListing rest p
  | .other _ rest, p => subListing rest p
  | .dir n sub rest, m :: p => if m = n then subListing sub p else subListing rest (m :: p)

/-- A disk with this library at `src`; the contents of a file is its path. -/
def diskWith (src : Bytes) (l : Listing) : CopyWorld where
  list := fun path => if path.take src.length = src then (subListing l (namesFrom [] (path.drop src.length))).map topEntries
    else none
  copied := fun path => if path.take src.length = src ∧ (namesFrom [] (path.drop src.length), Kind.file) ∈ entries l then
    some (relPath (namesFrom [] (path.drop src.length))) else none
  mkdirOk := fun _ => true

/-- Checks `FoundBelow`. -/
def foundBelow (list : ReadDir) (path : Bytes) : Listing → Bool
  | .done => true
  | .file _ rest => foundBelow list path rest
  | .dir n sub rest => list (path ++ b!"/" ++ n) == some (topEntries sub) &&
      foundBelow list (path ++ b!"/" ++ n) sub && foundBelow list path rest
  | .locked n rest => list (path ++ b!"/" ++ n) == none && foundBelow list path rest
  | .other _ rest => foundBelow list path rest

theorem foundBelow_iff {list : ReadDir} {path : Bytes} {l : Listing} (h : foundBelow list path l = true) :
    FoundBelow list path l := by
  induction l generalizing path with
  | done => trivial
  | file n rest ih => exact ih h
  | other n rest ih => exact ih h
  | locked n rest ih =>
    simp only [foundBelow, Bool.and_eq_true, beq_iff_eq] at h
    exact ⟨h.1, ih h.2⟩
  | dir n sub rest ih1 ih2 =>
    simp only [foundBelow, Bool.and_eq_true, beq_iff_eq] at h
    exact ⟨h.1.1, ih1 h.1.2, ih2 h.2⟩

theorem diskWith_library {src dst : Bytes} {l : Listing}
    (h : (diskWith src l).list src = some (topEntries l) ∧ foundBelow (diskWith src l).list src l = true ∧ NoRepeats l ∧
      (∀ e ∈ entries l, ∀ n ∈ e.1, n ≠ [] ∧ (47 : UInt8) ∉ n) ∧ ∀ e ∈ entries l, e.2 = .file ∨ e.2 = .dir) :
    LibraryOnDisk (diskWith src l) src dst l relPath := by
  obtain ⟨h1, h2, h3, h4, h5⟩ := h
  refine ⟨⟨h1, foundBelow_iff h2⟩, h3, h4, h5, ?_, fun _ _ _ => rfl⟩
  intro p hp _
  have e : (under src p).take src.length = src ∧ namesFrom [] ((under src p).drop src.length) = p :=
    ⟨by simp [under], stagedAt_under src p (h4 _ hp)⟩
  show (if _ then _ else _) = _
  rw [e.1, e.2, if_pos ⟨rfl, hp⟩]

/-- A library with directories. -/
def smallTree : Listing :=
  .file b!"package.mo" (.dir b!"A" (.file b!"package.mo" (.dir b!"B" (.file b!"x.mo" .done) .done))
    (.dir b!".library" (.file b!"f" .done) .done))

/-- The temporary directory, and what is in it before the library is copied. -/
def tmpDir : Bytes := b!"/tmp/TemporaryFolderabcdef"
def staging0 : Staged := [([b!"Lib"], .dir), ([], .dir)]

theorem staging0_fresh (p : List Bytes) (hp : p ≠ []) : staging0.get ([b!"Lib"] ++ p) = none := by
  rw [Staged.get_none_iff]
  cases p with
  | nil => exact absurd rfl hp
  | cons a p => simp [staging0]

example : ∃ fs', copyTreeTop (diskWith b!"/home/u/Lib" smallTree) tmpDir 3 b!"/home/u/Lib" (under tmpDir [b!"Lib"]) staging0 =
      some fs' ∧ fs'.get [b!"Lib", b!"A", b!"B", b!"x.mo"] = some (.file b!"A/B/x.mo") :=
  have h := c79_copy_partial (w := diskWith b!"/home/u/Lib" smallTree) (src := b!"/home/u/Lib") (tmp := tmpDir)
    (dst := [b!"Lib"]) (fs := staging0) (fds := 3) (diskWith_library (by decide +kernel)) ⟨by decide, by decide⟩
    (by decide) (by decide) ⟨by decide, by decide +kernel⟩ ⟨by decide, by decide +kernel⟩ (by decide) (by decide)
    staging0_fresh
  let ⟨fs', h1, h2, _⟩ := h
  ⟨fs', h1, h2 [b!"A", b!"B", b!"x.mo"] (by decide) (by decide)⟩


/-! ### The later steps -/

/-- **C79, the icon.** The path found is that of the file found by Model/Pack. -/
theorem c79_icon {list : ReadDir} {name tmp : Bytes} {l : Listing} {lib : Bytes} {fds : Nat}
    (hf : FoundAt list (under tmp [lib]) l) (hlib : lib ≠ [] ∧ (47 : UInt8) ∉ lib) (hn : ProperNames l)
    (h1 : PathsBelow 2048 (under tmp [lib]) l) (hd : levels l < fds) :
    findTree list name fds (under tmp [lib]) none =
      ((findFile name l [lib] none).1.map (under tmp), (findFile name l [lib] none).2) := by
  obtain ⟨f, rfl⟩ : ∃ f, fds = f + 1 := ⟨fds - 1, by omega⟩
  have he : list (snprintf maxPathLength (under tmp [lib])) = some (topEntries l) := by
    rw [show snprintf maxPathLength (under tmp [lib]) = under tmp [lib] from snprintf_fits h1.1]; exact hf.1
  rw [findTree, he]
  exact findTree_entries list name tmp l f _ [lib] none hf.2 (by omega) hn
    (under_one tmp lib ▸ plain_child hlib.1 hlib.2) h1 (by simp) rfl

/-- **C79, encryption.** If also the path of `package.mo` in every directory is short enough, whether there is one or
not, the files are encrypted that Model/Pack has, each to its own path with `c` at the end. -/
theorem c79_encrypt {w : EncWorld EncState} {env : PackEnv} {e : CrEnv} {lib top : Bytes} {l : Listing} {fds : Nat}
    {fs : Staged} (hf : FoundAt w.list top l) (hw : env.encryptWalk fs = some l) (hn : ProperNames l)
    (h1 : PathsBelow 2049 top l)
    (h2 : ∀ p, p = [] ∨ (p, Kind.dir) ∈ entries l ∨ (p, Kind.locked) ∈ entries l →
      (under top (p ++ [b!"package.mo"])).length < 2049)
    (ho : ∀ p s, (∀ m ∈ p, m ≠ [] ∧ (47 : UInt8) ∉ m) →
      w.opens s (under top p) = (env.openRead s.fs (lib :: p)).isSome)
    (hc : ∀ p s, (∀ m ∈ p, m ≠ [] ∧ (47 : UInt8) ∉ m) →
      w.encrypt (relPath p) (under top p) (under top p ++ b!"c") s = encryptOne env e lib p s)
    (hd : levels l < fds) :
    encTree w top fds none ⟨[], fs, []⟩ = encryptDirectory env e lib fs := by
  obtain ⟨f, rfl⟩ : ∃ f, fds = f + 1 := ⟨fds - 1, by omega⟩
  have hpm : (b!"package.mo" : Bytes) ≠ [] ∧ (47 : UInt8) ∉ (b!"package.mo" : Bytes) := by decide
  have hh := encHere_fits w env e lib top [] ⟨[], fs, []⟩ (h2 [] (Or.inl rfl))
    (fun s => ho _ s (by intro m hm; simp only [List.nil_append, List.mem_singleton] at hm; subst hm; exact hpm))
    (fun s => hc _ s (by intro m hm; simp only [List.nil_append, List.mem_singleton] at hm; subst hm; exact hpm))
  have hfull : encFull top none = top := snprintf_fits h1.1
  have hr : relDir [] = none := rfl
  rw [hr] at hh
  have hw' : w.list (encFull top none) = some (topEntries l) := by rw [hfull]; exact hf.1
  rw [encTree_succ, hh, hw', encryptDirectory, hw]
  show (encryptPackage env e lib [] ⟨[], fs, []⟩).bind _ = (encryptPackage env e lib [] ⟨[], fs, []⟩).bind _
  congr 1
  funext r
  obtain ⟨s, b⟩ := r
  cases b
  · rfl
  · simp only [if_true]
    refine encTree_entries w env e lib top l f [] s hf.2 (by omega) hn h1 ?_ ?_ (by simp) (fun p hp s => hc p s hp)
    · intro p k hp hk
      rcases hk with rfl | rfl
      · exact h2 p (Or.inr (Or.inl hp))
      · exact h2 p (Or.inr (Or.inr hp))
    · intro p k hp hk s
      refine ho _ s ?_
      intro m hm
      rcases List.mem_append.1 hm with hm | hm
      · exact hn _ hp m hm
      · simp only [List.mem_singleton] at hm; subst hm; exact hpm

/-- **C79, the archive.** The files are added that Model/Pack has, under their paths from the temporary directory. -/
theorem c79_archive {list : ReadDir} {add : Bytes → Bytes → Option Bytes} {env : PackEnv} {enc : Bool} {fs : Staged}
    {tmp : Bytes} {l : Listing} {fds : Nat} (hf : FoundAt list tmp l) (hn : ProperNames l) (hs : PlainPath tmp)
    (h1 : PathsBelow 2049 tmp l)
    (ha : ∀ p, (p, Kind.file) ∈ entries l → add (relPath p) (under tmp p) =
      if env.zipAdds p then (match fs.get p with | some (.file c) => some c | _ => none) else none)
    (hd : levels l < fds) :
    zipTree list add enc tmp fds tmp =
      (((zipEntries env enc fs l []).1).map fun f => (relPath f.1, f.2), (zipEntries env enc fs l []).2) := by
  obtain ⟨f, rfl⟩ : ∃ f, fds = f + 1 := ⟨fds - 1, by omega⟩
  have he : list (snprintf (maxPathLength + 1) tmp) = some (topEntries l) := by
    rw [show snprintf (maxPathLength + 1) tmp = tmp from snprintf_fits h1.1]; exact hf.1
  rw [zipTree, he]
  exact zipTree_entries list add env enc fs tmp hs.1 l f tmp [] hf.2 (by omega) hn hs h1 rfl ha

/-- What the copy of `smallTree` looks like; the icon is found in it. -/
example : findTree (diskWith b!"/tmp/t/Lib" smallTree).list b!"x.mo" 3 (under b!"/tmp/t" [b!"Lib"]) none =
    (some b!"/tmp/t/Lib/A/B/x.mo", false) := by
  rw [c79_icon (l := smallTree) ⟨by decide +kernel, foundBelow_iff (by decide +kernel)⟩ (by decide)
    (by unfold ProperNames; decide +kernel) ⟨by decide, by decide +kernel⟩ (by decide)]
  decide +kernel

/-- A machine to encrypt `smallTree` on. -/
def pathsEnv : PackEnv := { sampleMachine smallTree with encryptWalk := fun _ => some smallTree }

def pathsWorld (e : CrEnv) : EncWorld EncState where
  list := (diskWith b!"/tmp/t/Lib" smallTree).list
  opens := fun s path => (pathsEnv.openRead s.fs (b!"Lib" :: namesFrom [] (path.drop 10))).isSome
  encrypt := fun rel _ _ s => encryptOne pathsEnv e b!"Lib" (namesFrom [] rel) s

example (e : CrEnv) (fs : Staged) :
    encTree (pathsWorld e) b!"/tmp/t/Lib" 3 none ⟨[], fs, []⟩ = encryptDirectory pathsEnv e b!"Lib" fs :=
  c79_encrypt (l := smallTree) (show FoundAt (diskWith b!"/tmp/t/Lib" smallTree).list b!"/tmp/t/Lib" smallTree from
      ⟨by decide +kernel, foundBelow_iff (by decide +kernel)⟩) rfl
    (by unfold ProperNames; decide +kernel) ⟨by decide, by decide +kernel⟩
    (by
      have h : ∀ e ∈ entries smallTree, (under b!"/tmp/t/Lib" (e.1 ++ [b!"package.mo"])).length < 2049 := by
        decide +kernel
      intro p hp
      rcases hp with rfl | hp | hp
      · decide +kernel
      · exact h _ hp
      · exact h _ hp)
    (by
      intro p s hp
      show (pathsEnv.openRead s.fs (b!"Lib" :: namesFrom [] ((under b!"/tmp/t/Lib" p).drop 10))).isSome = _
      rw [show namesFrom [] ((under b!"/tmp/t/Lib" p).drop 10) = p from stagedAt_under b!"/tmp/t/Lib" p hp])
    (by
      intro p s hp
      show encryptOne pathsEnv e b!"Lib" (namesFrom [] (relPath p)) s = _
      rw [namesFrom_relPath p hp])
    (by decide)

example : zipTree (diskWith b!"/tmp/t" smallTree).list (fun n _ => some n) true b!"/tmp/t" 3 b!"/tmp/t" =
    ([(b!".library/f", b!".library/f")], true) := by
  rw [c79_archive (l := smallTree) (fs := (entries smallTree).map fun e => (e.1, if e.2 = .file then .file (relPath e.1)
      else .dir)) (env := (sampleMachine smallTree)) ⟨by decide +kernel, foundBelow_iff (by decide +kernel)⟩
    (by unfold ProperNames; decide +kernel) ⟨by decide, by decide⟩ ⟨by decide, by decide +kernel⟩
    (by
      have h : ∀ e ∈ entries smallTree, e.2 = .file → some (relPath e.1) =
        if (sampleMachine smallTree).zipAdds e.1 then (match Staged.get ((entries smallTree).map fun e => (e.1, if e.2 = .file then
          .file (relPath e.1) else .dir)) e.1 with | some (.file c) => some c | _ => none) else none := by
        decide +kernel
      intro p hp
      exact h _ hp rfl) (by decide)]
  decide +kernel

/-! ### What goes wrong -/

/-- A path of 2044 bytes. -/
def longPath : Bytes := (List.replicate 204 b!"/aaaaaaaaa").flatten ++ b!"/aaa"

/-- **C79 does not hold: contents.** A library at a path of 2044 bytes has the files `ab` and `abc`.  The path of the
second is cut to that of the first: `abc` in the copy has the contents of `ab`, and all is reported to be well. -/
theorem c79_contents_not :
    ∃ w src l fs', LibraryOnDisk w src (under tmpDir [b!"Lib"]) l relPath ∧ PlainPath src ∧
      PathsBelow 2048 (under tmpDir [b!"Lib"]) l ∧ levels l < 12 ∧
      copyTreeTop w tmpDir 12 src (under tmpDir [b!"Lib"]) staging0 = some fs' ∧
      ∃ p c, (p, Kind.file) ∈ entries l ∧ fs'.get (b!"Lib" :: p) = some (.file c) ∧ c ≠ relPath p :=
  ⟨diskWith longPath (.file b!"ab" (.file b!"abc" .done)), longPath, .file b!"ab" (.file b!"abc" .done),
    [([b!"Lib", b!"abc"], .file b!"ab"), ([b!"Lib", b!"ab"], .file b!"ab"), ([b!"Lib"], .dir), ([], .dir)],
    diskWith_library (by decide +kernel), ⟨by decide +kernel, by decide +kernel⟩, ⟨by decide +kernel, by decide +kernel⟩,
    by decide, by decide +kernel, [b!"abc"], b!"ab", by decide, by decide, by decide⟩

/-- **C79 does not hold: missing files.** Without the file `ab`, nothing is copied at all. -/
theorem c79_missing_not :
    ∃ w src l, LibraryOnDisk w src (under tmpDir [b!"Lib"]) l relPath ∧ PlainPath src ∧
      PathsBelow 2048 (under tmpDir [b!"Lib"]) l ∧ levels l < 12 ∧ entries l ≠ [] ∧
      copyTreeTop w tmpDir 12 src (under tmpDir [b!"Lib"]) staging0 = some staging0 :=
  ⟨diskWith longPath (.file b!"abc" .done), longPath, .file b!"abc" .done,
    diskWith_library (by decide +kernel), ⟨by decide +kernel, by decide +kernel⟩, ⟨by decide +kernel, by decide +kernel⟩,
    by decide, by decide, by decide +kernel⟩

/-- Directories of this name inside each other. -/
def nested (n : Bytes) : Nat → Listing → Listing
  | 0, l => l
  | k + 1, l => .dir n (nested n k l) .done

/-- **C79 does not hold: names.** A library whose paths are all short enough where it is, but not in the temporary
directory: the copy has the file under a name with the end missing. -/
theorem c79_names_not :
    ∃ w src l fs', LibraryOnDisk w src (under tmpDir [b!"Lib"]) l relPath ∧ PlainPath src ∧ PathsBelow 2048 src l ∧
      levels l < 12 ∧ copyTreeTop w tmpDir 12 src (under tmpDir [b!"Lib"]) staging0 = some fs' ∧
      (∃ p, (p, Kind.file) ∈ entries l ∧ fs'.get (b!"Lib" :: p) = none) ∧
      ∃ p c, p ∉ (entries l).map (·.1) ∧ fs'.get (b!"Lib" :: p) = some (.file c) :=
  let n : Bytes := List.replicate 200 97
  let l := nested n 10 (.file b!"abcdefghij.mo" .done)
  ⟨diskWith b!"/Lib" l, b!"/Lib", l, copyTree (diskWith b!"/Lib" l) tmpDir 12 b!"/Lib" (under tmpDir [b!"Lib"]) staging0,
    diskWith_library (by decide +kernel), ⟨by decide, by decide⟩, ⟨by decide, by decide +kernel⟩, by decide +kernel,
    by decide +kernel, ⟨List.replicate 10 n ++ [b!"abcdefghij.mo"], by decide +kernel, by decide +kernel⟩,
    List.replicate 10 n ++ [b!"abcdef"], relPath (List.replicate 10 n ++ [b!"abcdefghij.mo"]), by decide +kernel,
    by decide +kernel⟩

/-- **C79 does not hold: open directories.** If no more than 16 directories can be opened, 16 inside each other (without the library
itself) are too many: what is in the last one is not copied, and all is reported to be well. -/
theorem c79_open_not :
    ∃ w l fs', LibraryOnDisk w b!"/Lib" (under tmpDir [b!"Lib"]) l relPath ∧ PathsBelow 2048 b!"/Lib" l ∧
      PathsBelow 2048 (under tmpDir [b!"Lib"]) l ∧
      copyTreeTop w tmpDir 16 b!"/Lib" (under tmpDir [b!"Lib"]) staging0 = some fs' ∧
      ∃ p, (p, Kind.file) ∈ entries l ∧ fs'.get (b!"Lib" :: p) = none :=
  let l := nested b!"a" 16 (.file b!"x.mo" .done)
  ⟨diskWith b!"/Lib" l, l, copyTree (diskWith b!"/Lib" l) tmpDir 16 b!"/Lib" (under tmpDir [b!"Lib"]) staging0,
    diskWith_library (by decide +kernel), ⟨by decide, by decide +kernel⟩, ⟨by decide, by decide +kernel⟩,
    by decide +kernel, List.replicate 16 b!"a" ++ [b!"x.mo"], by decide +kernel, by decide +kernel⟩

/-- **C79 does not hold: endless copies.** The path of a directory in a directory whose path has 2046 bytes is cut so
that it is the outer one again: this is copied into its own copy until no more directories can be opened. -/
theorem c79_endless_not :
    ∃ w src l fs', LibraryOnDisk w src (under tmpDir [b!"Lib"]) l relPath ∧ PlainPath src ∧
      PathsBelow 2048 (under tmpDir [b!"Lib"]) l ∧ levels l = 1 ∧
      copyTreeTop w tmpDir 4 src (under tmpDir [b!"Lib"]) staging0 = some fs' ∧
      fs'.get (b!"Lib" :: List.replicate 4 b!"d") = some .dir :=
  ⟨diskWith (longPath ++ b!"aa") (.dir b!"d" .done .done), longPath ++ b!"aa", .dir b!"d" .done .done,
    copyTree (diskWith (longPath ++ b!"aa") (.dir b!"d" .done .done)) tmpDir 4 (longPath ++ b!"aa")
      (under tmpDir [b!"Lib"]) staging0,
    diskWith_library (by decide +kernel), ⟨by decide +kernel, by decide +kernel⟩, ⟨by decide +kernel, by decide +kernel⟩,
    by decide, by decide +kernel, by decide +kernel⟩

end Semla.Props
