import Verif.Lemmas.PackAll
import Verif.Props.Crypt

/-!
# Properties of the packaging tool: C39, C40, C41

Vocabulary is defined in `Verif/Spec/PackTree.lean`.
-/

namespace Semla.Props

open Semla Spec

/-! ## A machine for the examples -/

/-- Lists a directory of the staging directory, in the order in which entries were made last. -/
def listDir (fs : Staged) : Nat → List Bytes → Listing
  | 0, _ => .done
  | fuel + 1, base =>
    (((fs.map (·.1)).filter fun q => base.isPrefixOf q && q.length == base.length + 1).map nameOf).eraseDups.foldr
      (fun n rest => match fs.get (base ++ [n]) with
        | some .dir => .dir n (listDir fs fuel (base ++ [n])) rest
        | some (.file _) => .file n rest
        | none => rest) .done

/-- Greatest number of names in a path. -/
def depth (fs : Staged) : Nat := (fs.map (·.1.length)).foldr max 0

/-- A walk that tells the truth. -/
def honestWalk (base : List Bytes) (fs : Staged) : Option Listing :=
  if Shows (listDir fs (depth fs) base) base fs then some (listDir fs (depth fs) base) else none

theorem honestWalk_shows {base : List Bytes} {fs : Staged} {l : Listing} (h : honestWalk base fs = some l) :
    Shows l base fs := by
  unfold honestWalk at h
  split at h
  · simp only [Option.some.injEq] at h
    subst h
    assumption
  · simp at h

theorem shows_old {l : Listing} {base : List Bytes} {fs : Staged} (h : Shows l base fs) : ShowsOld l base fs := by
  obtain ⟨h1, h2, h3⟩ := h
  refine ⟨h1, fun e he => Or.inl (h2 e he), fun q hq hb hne => ?_⟩
  obtain ⟨⟨q', k⟩, h4, h5⟩ := List.mem_map.1 (h3 q hq hb hne)
  simp only at h5
  subst h5
  refine ⟨k, h4, ?_⟩
  have := h2 _ h4
  obtain ⟨r, rfl⟩ := hb
  simpa using this

/-- A machine with the library `/l/Lib`, whose files have their paths as contents, and one vendor
executable. -/
def sampleMachine (library : Listing) : PackEnv where
  isDir p := p == b!"/l/Lib"
  fileExists _ := true
  readFile _ := none
  exeDir := true
  lve n := n == b!"lve_linux64"
  lveCopied _ := (some b!"ELF", true)
  extra := none
  extraSource := ⟨fun _ => none, fun _ => false⟩
  library := some library
  librarySource := ⟨fun p => some (b!"text of " ++ relPath p), fun _ => true⟩
  tempDir := some b!"/tmp/TemporaryFolderabcdef"
  mkdirOk _ := true
  tmpVar := none
  iconWalk := honestWalk [b!"Lib"]
  encryptWalk := honestWalk [b!"Lib"]
  zipWalk := honestWalk []
  canRead _ := true
  canWrite _ := true
  C := toy
  key := (List.range 32).map UInt8.ofNat
  keyLen := 32
  iv _ := toyIv
  mask p := toyMask p.length
  readError _ := false
  writeOk _ _ := true
  zipOpens := true
  zipAdds _ := true
  zipCloses := true

/-- A package in a package, an image, and a file in `.library`. -/
def sampleLib : Listing :=
  .file b!"x.mo" (.dir b!"A" (.file b!"y.MO" (.file b!"i.png" (.file b!"package.mo" .done)))
    (.dir b!".library" (.file b!"old.mo" .done) (.file b!"package.mo" .done)))

/-- Command lines with and without encryption. -/
def sampleCommand (encrypt : Bytes) : List Bytes :=
  [b!"-librarypath", b!"/l/Lib/", b!"-version", b!"1.0", b!"-language", b!"3.2", b!"-encrypt", encrypt]

def samplePairs (encrypt : Bytes) : List (Bytes × Bytes) :=
  [(b!"librarypath", b!"/l/Lib/"), (b!"version", b!"1.0"), (b!"language", b!"3.2"), (b!"encrypt", encrypt)]

theorem sample_pairs (encrypt : Bytes) (h : encrypt ≠ []) :
    ArgPairs (sampleCommand encrypt) (samplePairs encrypt) :=
  .cons (by decide) (by decide) (.cons (by decide) (by decide) (.cons (by decide) (by decide)
    (.cons (by decide) h .nil)))

theorem sample_truthful (l : Listing) : Truthful (sampleMachine l) b!"Lib" :=
  ⟨fun _ _ h => honestWalk_shows h, fun _ _ h => shows_old (honestWalk_shows h), fun _ _ h => honestWalk_shows h⟩

theorem sample_name : LibraryName b!"/l/Lib/" b!"Lib" :=
  ⟨b!"/l/", b!"/", rfl, by decide, by decide, by decide, by decide, Or.inr rfl⟩

theorem sample_crypto (l : Listing) : GoodCrypto (sampleMachine l) :=
  ⟨toy_good, by simp [sampleMachine], by simp [sampleMachine], fun _ => by simp [sampleMachine, toyIv],
    fun p => by simp [sampleMachine, toyMask]⟩

/-! ## C39 -/

/-- **C39.** If the arguments ask for encryption, the archive has no file whose name ends with `.mo` in any
letter case, whatever the library, the staging directory, the listings, failures, and the exit status. -/
theorem c39_no_source (env : PackEnv) (args : List Bytes) (r : PackResult) (h : packTool env args = .ok r)
    (a : Archive) (ha : r.archive = some a) (ps : List (Bytes × Bytes)) (hp : ArgPairs args ps)
    (he : AsksEncryption ps) : ∀ f ∈ a, ¬ ModelicaName (nameOf f.1) := by
  obtain ⟨code, ar⟩ := r
  simp only at ha
  subst ha
  obtain ⟨d, tempDir, lib, icon, lves, fs1, fs2, fs3, fs4, fs5, fs6, h1, h2, h3⟩ := packTool_archive h
  rintro ⟨p, c⟩ hf
  rcases h3 with ⟨l, h4, h5, -⟩ | ⟨h4, -⟩
  · rw [h5] at hf
    obtain ⟨-, q, -, -, h6⟩ := zipEntries_mem l [] p c hf
    exact h6 ((packArguments_encrypts h1 hp).2 he)
  · rw [h4] at hf
    simp at hf

/-- Exit status and paths in the archive, to be shown. -/
def shown : Res PackResult → Option (Nat × Option (List Bytes))
  | .ok r => some (r.code, r.archive.map fun a => a.map fun f => relPath f.1)
  | .ub _ => none

example : shown (packTool (sampleMachine sampleLib) (sampleCommand b!"True")) = some (0, some [b!"Lib/x.moc",
    b!"Lib/package.moc", b!"Lib/.library/manifest.xml", b!"Lib/.library/lve_linux64", b!"Lib/A/y.MOc",
    b!"Lib/A/package.moc", b!"Lib/A/i.png"]) := by decide +kernel

/-! ## C40 -/

/-- **C40, partial.** If the tool succeeds, every regular file of the library outside `.library` is in the
archive: unchanged, or, if it is a Modelica file and encryption is on, as its twin, which is an encryption
of its contents (with the mask behind them, for package files).

Missing for the full claim: failures of copying, which the tool does not notice, and entries that are no
regular files or directories (`Copyable`; `c40_copy_not`); with encryption, directories and files called
`package.mo` with other letter case (`c40_case_not`), and files that have the names of the encrypted twins
of others (`c40_clash_not`). -/
theorem c40_partial (env : PackEnv) (args : List Bytes) (a : Archive)
    (h : packTool env args = .ok ⟨0, some a⟩) (ps : List (Bytes × Bytes)) (hp : ArgPairs args ps)
    (path lib : Bytes) (hpath : (b!"librarypath", path) ∈ ps) (hlib : LibraryName path lib) (l : Listing)
    (hl : env.library = some l) (content : List Bytes → Bytes) (hc : Copyable env.librarySource l content)
    (ht : Truthful env lib)
    (hpk : AsksEncryption ps → PlainPackages l ∧ GoodCrypto env ∧ ∀ p, env.canRead (lib :: p) = true)
    (p : List Bytes) (hf : (p, Kind.file) ∈ entries l) (ho : Outside p)
    (hclash : AsksEncryption ps → ∀ q, IsSource l q → p ≠ twin q) :
    (¬ (AsksEncryption ps ∧ ModelicaName (nameOf p)) → (lib :: p, content p) ∈ a) ∧
    (AsksEncryption ps ∧ ModelicaName (nameOf p) → ∃ out, (lib :: twin p, out) ∈ a ∧ ∃ key stored,
      Encrypted env.C key (key.take env.keyLen) (env.iv p) (content p ++ stored) out ∧
      (stored = [] ∨ stored = env.mask p)) := by
  obtain ⟨d, tempDir, icon, lves, fs1, fs2, fs3, fs4, fs5, fs6, zl, -, -, h1, h2, h3, h4, h5⟩ :=
    packTool_packed h hp hpath hlib hl hc
  have hshow := ht.zip fs6 zl h3
  have inside : ∀ q c, fs6.get (lib :: q) = some (.file c) →
      (usingEncryption d = true → ¬ ModelicaName (nameOf (lib :: q))) → (lib :: q, c) ∈ a := by
    intro q c hq hm
    obtain ⟨c', h6, h7⟩ := zipEntries_complete zl [] h5 (lib :: q) (shows_mem hshow (by simp) hq) hm
    rw [List.nil_append, hq] at h6
    simp only [Option.some.injEq, Node.file.injEq] at h6
    rw [h4, h6]
    exact h7
  have hne : p ≠ [] := entries_ne_nil l _ hf
  constructor
  · intro hn
    refine inside p _ (h1.stays (fun l' hl' => (ht.encrypt fs5 l' hl').1) p hf ho ?_ hc.kinds) ?_
    · intro he q hq hm
      by_cases hq' : Outside q
      · exact hclash (h2.1 he) q ⟨hq, hq', hm⟩
      · rintro rfl
        refine hq' fun hin => ho ?_
        have hqne : q ≠ [] := entries_ne_nil l _ hq
        rw [← dropLast_nameOf hqne] at hin
        rcases List.mem_append.1 hin with h | h
        · exact List.mem_append_left _ h
        · simp only [List.mem_singleton] at h
          rw [← h] at hm
          exact absurd ((isModelicaFile_iff _).2 hm) (by decide)
    · intro he hm
      rw [nameOf_cons _ hne] at hm
      exact hn ⟨h2.1 he, hm⟩
  · rintro ⟨he, hm⟩
    obtain ⟨g1, g2, g3⟩ := hpk he
    rw [h2.2 he] at h1
    have hv := h1.visited (ht.encrypt fs5) g1 g3 p hf ho hm
    obtain ⟨out, h6, h7⟩ := h1.twins g2 (fun l' hl' => (ht.encrypt fs5 l' hl').1) p hv _ (h1.source p hf ho)
    refine ⟨out, inside _ _ h6 ?_, h7⟩
    intro _ hm'
    rw [twin_eq, nameOf_encryptedPath] at hm'
    exact not_modelica_append_c _ hm'

theorem sample_copyable (l : Listing) (hn : NoRepeats l) (hk : ∀ e ∈ entries l, e.2 = .file ∨ e.2 = .dir) :
    Copyable (sampleMachine l).librarySource l (fun p => b!"text of " ++ relPath p) :=
  ⟨hn, hk, fun _ _ _ => rfl, fun _ _ _ => rfl⟩

/-- `NoClash` for the sample library. -/
theorem sample_noClash : NoClash sampleLib := by
  intro p q hp _ hq
  have h1 : ∀ e ∈ entries sampleLib, ∀ f ∈ entries sampleLib, f.1 ≠ twin e.1 := by decide +kernel
  exact h1 _ hp _ hq

example : (∃ a, packTool (sampleMachine sampleLib) (sampleCommand b!"True") = .ok ⟨0, some a⟩) ∧
    Copyable (sampleMachine sampleLib).librarySource sampleLib (fun p => b!"text of " ++ relPath p) ∧
    Truthful (sampleMachine sampleLib) b!"Lib" ∧ NoClash sampleLib ∧ PlainPackages sampleLib ∧
    GoodCrypto (sampleMachine sampleLib) :=
  ⟨⟨_, by rfl⟩, sample_copyable _ (by decide +kernel) (by decide +kernel), sample_truthful _, sample_noClash,
    by unfold PlainPackages; decide +kernel, sample_crypto _⟩

example : shown (packTool (sampleMachine sampleLib) (sampleCommand b!"no")) = some (0, some
    [b!"Lib/.library/manifest.xml", b!"Lib/package.mo", b!"Lib/A/package.mo", b!"Lib/A/i.png", b!"Lib/A/y.MO",
      b!"Lib/x.mo"]) := by decide +kernel

/-- The full claim is false: `Package.mo`, with a capital letter, is neither encrypted nor put into the
archive. -/
theorem c40_case_not : shown (packTool (sampleMachine (.dir b!"A" (.file b!"Package.mo" .done)
    (.file b!"package.mo" .done))) (sampleCommand b!"true")) = some (0, some [b!"Lib/package.moc",
    b!"Lib/.library/manifest.xml", b!"Lib/.library/lve_linux64"]) := by decide +kernel

/-- The full claim is false: `x.moc` is replaced by the twin of `x.mo`. -/
theorem c40_clash_not : ∃ a, packTool (sampleMachine (.file b!"x.mo" (.file b!"x.moc" .done)))
    (sampleCommand b!"true") = .ok ⟨0, some a⟩ ∧
    ([b!"Lib", b!"x.moc"], (b!"text of x.moc")) ∉ a ∧ [b!"Lib", b!"x.moc"] ∈ a.map (·.1) :=
  ⟨_, by rfl, by decide +kernel, by decide +kernel⟩

/-- The full claim is false: a file that cannot be read is left out, and the exit status is still 0. -/
theorem c40_copy_not : shown (packTool { sampleMachine sampleLib with
      librarySource := ⟨fun p => if p = [b!"x.mo"] then none else some (relPath p), fun _ => true⟩ }
    (sampleCommand b!"no")) = some (0, some [b!"Lib/.library/manifest.xml", b!"Lib/package.mo",
      b!"Lib/A/package.mo", b!"Lib/A/i.png", b!"Lib/A/y.MO"]) := by decide +kernel

/-! ## C41 -/

/-- **C41.** Whenever a file in or below a directory is handed to the encryptor, the `package.mo` of that
directory has been before, if there is one that can be opened.  This holds for any listings, in any order,
and also for runs that fail. -/
theorem c41_order (env : PackEnv) (e : CrEnv) (lib : Bytes) (fs : Staged) (s : EncState) (ok : Bool)
    (h : encryptDirectory env e lib fs = .ok (s, ok)) (before after : List (List Bytes)) (dir p : List Bytes)
    (hlog : s.log = before ++ (dir ++ p) :: after) (hp : p ≠ []) (hpk : p ≠ [b!"package.mo"])
    (hread : env.canRead (lib :: dir ++ [b!"package.mo"]) = true)
    (hget : fs.get (lib :: dir ++ [b!"package.mo"]) ≠ none) : dir ++ [b!"package.mo"] ∈ before := by
  rw [encryptDirectory_eq, Res.bind_eq_ok] at h
  obtain ⟨⟨s1, ok1⟩, h1, h2⟩ := h
  simp only [Res.ok.injEq, Prod.mk.injEq] at h2
  obtain ⟨done, ⟨rest, h3⟩, h4, -⟩ := encSeq_log h1
  rw [h2.1] at h4
  simp only [List.nil_append] at h4
  rw [hlog] at h4
  exact allVisits_ordered env lib fs before (dir ++ p) (after ++ rest)
    (by rw [← h3, ← h4, List.append_assoc, List.cons_append]) dir p hp rfl hpk
    ((opens_iff ..).2 ⟨hread, hget⟩)

/-- **C41.** No file is encrypted twice, and only files with Modelica names are; again for any order, and
for runs that fail. -/
theorem c41_once (env : PackEnv) (e : CrEnv) (lib : Bytes) (fs : Staged) (s : EncState) (ok : Bool)
    (h : encryptDirectory env e lib fs = .ok (s, ok)) (hw : ∀ l, env.encryptWalk fs = some l → NoRepeats l) :
    s.log.Nodup ∧ ∀ p ∈ s.log, ModelicaName (nameOf p) := by
  rw [encryptDirectory_eq, Res.bind_eq_ok] at h
  obtain ⟨⟨s1, ok1⟩, h1, h2⟩ := h
  simp only [Res.ok.injEq, Prod.mk.injEq] at h2
  obtain ⟨done, h3, h4, -⟩ := encSeq_log h1
  rw [h2.1] at h4
  simp only [List.nil_append] at h4
  rw [h4]
  exact ⟨(allVisits_nodup env lib fs hw).sublist h3.sublist,
    fun p hp => (allVisits_mem env lib fs p (h3.subset hp)).2⟩

/-- **C41, partial.** A run that succeeds has encrypted every Modelica file.

Missing for the full claim: files in directories called `package.mo` and files with this name in other
letter case (`c41_case_not`), and package files that cannot be read. -/
theorem c41_all_partial (env : PackEnv) (e : CrEnv) (lib : Bytes) (fs : Staged) (s : EncState)
    (h : encryptDirectory env e lib fs = .ok (s, true))
    (hw : ∀ l, env.encryptWalk fs = some l → ShowsOld l [lib] fs) (p : List Bytes) (hp : p ≠ []) (c : Bytes)
    (hc : fs.get (lib :: p) = some (.file c)) (hm : ModelicaName (nameOf p))
    (hd : ∀ d ∈ p.dropLast, eqNoCase d b!"package.mo" = false)
    (hpk : eqNoCase (nameOf p) b!"package.mo" = true →
      nameOf p = b!"package.mo" ∧ env.canRead (lib :: p) = true) : p ∈ s.log := by
  rw [encryptDirectory_eq, Res.bind_eq_ok] at h
  obtain ⟨⟨s1, ok1⟩, h1, h2⟩ := h
  simp only [Res.ok.injEq, Prod.mk.injEq, Bool.and_eq_true] at h2
  obtain ⟨done, h3, h4, h5⟩ := encSeq_log h1
  rw [h2.1] at h4
  simp only [List.nil_append] at h4
  rw [h4, h5 h2.2.1]
  exact allVisits_complete env lib fs hw h2.2.2 p hp c hc hm hd hpk

/-- **C41.** The record of files is what it should be: a run that succeeds has done one call of the
encryptor for each of them, in this order and with one context, on the contents the file had before; what
the calls delivered is in the encrypted twins, and nothing else has changed. -/
theorem c41_calls (env : PackEnv) (e : CrEnv) (lib : Bytes) (fs : Staged) (s : EncState)
    (h : encryptDirectory env e lib fs = .ok (s, true)) (hw : ∀ l, env.encryptWalk fs = some l → NoRepeats l) :
    ∃ jobs outs, encryptAll e [] jobs = .ok (some outs) ∧ jobs.map (fun j => j.dirs ++ [j.name]) = s.log ∧
      (∀ j ∈ jobs, fs.get (lib :: j.dirs ++ [j.name]) = some (.file j.plain)) ∧
      List.Forall₂ (fun p o => s.fs.get (lib :: twin p) = some (.file o.2)) s.log outs ∧
      ∀ q, (∀ p ∈ s.log, q ≠ lib :: twin p) → s.fs.get q = fs.get q := by
  rw [encryptDirectory_eq, Res.bind_eq_ok] at h
  obtain ⟨⟨s1, ok1⟩, h1, h2⟩ := h
  simp only [Res.ok.injEq, Prod.mk.injEq, Bool.and_eq_true] at h2
  obtain ⟨h2, rfl, -⟩ := h2
  subst h2
  obtain ⟨done, h3, h4, h5⟩ := encSeq_log h1
  simp only [List.nil_append] at h4
  have hlog : s1.log = (allVisits env lib fs).1 := h4.trans (h5 rfl)
  obtain ⟨outs, h6, h7, h8, h9⟩ := encSeq_jobs fs h1 (fun _ _ => rfl) (allVisits_mem env lib fs)
    (allVisits_nodup env lib fs hw)
  have hne := fun p hp => (allVisits_mem env lib fs p hp).1
  refine ⟨(allVisits env lib fs).1.map (jobOf env lib fs), outs, h6, ?_, ?_, ?_, ?_⟩
  · rw [hlog, List.map_map]
    conv => rhs; rw [← List.map_id (allVisits env lib fs).1]
    exact List.map_congr_left fun p hp => dropLast_nameOf (hne p hp)
  · intro j hj
    obtain ⟨p, hp, rfl⟩ := List.mem_map.1 hj
    obtain ⟨c, hc⟩ := h7 p hp
    have : lib :: (jobOf env lib fs p).dirs ++ [(jobOf env lib fs p).name] = lib :: p :=
      congrArg (lib :: ·) (dropLast_nameOf (hne p hp))
    rw [this, hc]
    simp [jobOf, hc]
  · rw [hlog]
    exact h8.imp fun _ _ h => h.2
  · intro q hq
    rw [hlog] at hq
    exact h9 q hq

/-- A staging directory. -/
def sampleStaged : Staged :=
  [([b!"L", b!"A", b!"package.mo"], .file b!"2"), ([b!"L", b!"A", b!"x.mo"], .file b!"3"), ([b!"L", b!"A"], .dir),
    ([b!"L", b!"package.mo"], .file b!"1"), ([b!"L", b!"y.mo"], .file b!"4"), ([b!"L"], .dir), ([], .dir)]

/-- What the encryption of a staging directory did. -/
def logOf : Res (EncState × Bool) → Option (List Bytes × Bool)
  | .ok (s, ok) => some (s.log.map relPath, ok)
  | .ub _ => none

example : logOf (encryptDirectory { sampleMachine .done with encryptWalk := honestWalk [b!"L"] }
    ⟨toy, (List.range 32).map UInt8.ofNat, 32, [], fun _ => none⟩ b!"L" sampleStaged) =
    some ([b!"package.mo", b!"A/package.mo", b!"A/x.mo", b!"y.mo"], true) := by decide +kernel

/-- The full claim is false for `Package.mo`. -/
theorem c41_case_not : logOf (encryptDirectory { sampleMachine .done with encryptWalk := honestWalk [b!"L"] }
    ⟨toy, (List.range 32).map UInt8.ofNat, 32, [], fun _ => none⟩ b!"L"
    [([b!"L", b!"Package.mo"], .file b!"1"), ([b!"L"], .dir), ([], .dir)]) = some ([], true) := by decide +kernel

end Semla.Props
