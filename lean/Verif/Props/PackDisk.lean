import Verif.Lemmas.PackDisk
import Verif.Props.CopyFile

/-!
# C94: packages made with a temporary directory on a disk that fills up

`flawless env` is the same machine without failing writes; what its runs produce is the subject of C39, C40, C57 and C58.  What
happens to the copies of files is C93.
-/

set_option linter.unusedSimpArgs false

namespace Semla.Props

open Semla Semla.Spec

/-- **C94, full statement.** Whatever the room on the disk and the buffering: if the packaging tool exits with 0 and there is
a package, it is the package that is made on a large disk. -/
def c94_full : Prop :=
  ∀ (disk : StagingDisk) (env : PackEnv) (args : List Bytes) (a : Archive), NamesOnly env →
    packToolDisk disk env args = .ok ⟨0, some a⟩ → packTool (flawless env) args = .ok ⟨0, some a⟩

theorem copyLves_flawless (env : PackEnv) (lib : Bytes) (ns : List Bytes) (fs : Staged) :
    copyLves (flawless env) lib ns fs = copyLves env lib ns fs := by
  induction ns generalizing fs with
  | nil => rfl
  | cons n ns ih =>
    have h1 : (flawless env).lve = env.lve := rfl
    have h2 : (flawless env).lveCopied = env.lveCopied := rfl
    simp only [copyLves, h1, h2, ih]

theorem copyLVE_flawless (env : PackEnv) (d : ArgData) (lib : Bytes) (fs : Staged) :
    copyLVE (flawless env) d lib fs = copyLVE env d lib fs := by
  have h1 : (flawless env).exeDir = env.exeDir := rfl
  simp only [copyLVE, copyLves_flawless, h1]

/-- **C94, partial.** If the packaging tool exits with 0 and there is a package, it would have done so on a large disk, and the
package has the same files in the same order.  Every file is the same or has been cut where the disk was full.  Modelica files
are not cut by this; of all other files than the manifest at most as much is missing as the C library keeps in its buffer.

Missing: the ends of encrypted files, `c94_encrypted_not`, and of the manifest, `c94_manifest_not`. -/
theorem c94_partial (disk : StagingDisk) (b : Nat) (hb : ∀ p i, (disk p).kept i ≤ b) (env : PackEnv) (hw : NamesOnly env)
    (args : List Bytes) (a : Archive) (h : packToolDisk disk env args = .ok ⟨0, some a⟩) :
    ∃ a0, packTool (flawless env) args = .ok ⟨0, some a0⟩ ∧ CutArchive disk b a0 a := by
  unfold packToolDisk at h
  split at h
  · simp at h
  · rename_i h0
    split at h
    · simp at h
    · rename_i hh
      rw [Res.bind_eq_ok] at h
      obtain ⟨d, hd, h⟩ := h
      have hd' : packArguments (flawless env) args = .ok d := hd
      unfold packTool
      simp only [h0, hh, if_false, hd', Res.bind_ok]
      cases d with
      | none => simp at h
      | some d =>
        simp only at h ⊢
        unfold packLibraryDisk at h
        unfold packLibrary
        have e1 : (flawless env).tempDir = env.tempDir := rfl
        rw [e1]
        cases ht : env.tempDir with
        | none => rw [ht] at h; simp at h
        | some tempDir =>
          rw [ht] at h
          simp only at h ⊢
          rw [Res.bind_eq_ok] at h
          obtain ⟨lib, hlib, h⟩ := h
          simp only [hlib, Res.bind_ok]
          have e2 : copyFolderStructure (flawless env) lib = copyFolderStructure env lib := rfl
          rw [e2]
          cases h1 : copyFolderStructure env lib with
          | none => rw [h1] at h; simp at h
          | some fs1 =>
            rw [h1] at h
            simp only at h ⊢
            have e3 : createLibraryFolder (flawless env) lib fs1 = createLibraryFolder env lib fs1 := rfl
            rw [e3]
            cases h2 : createLibraryFolder env lib fs1 with
            | none => rw [h2] at h; simp at h
            | some fs2 =>
              rw [h2] at h
              simp only at h ⊢
              rw [Res.bind_eq_ok] at h
              obtain ⟨icon, hi, h⟩ := h
              have e4 : prepareIconFile (flawless env) d tempDir lib fs2 = .ok icon := hi
              simp only [e4, Res.bind_ok]
              cases icon with
              | none => simp at h
              | some icon =>
                simp only at h ⊢
                rw [copyLVE_flawless]
                cases h3 : copyLVE env d lib fs2 with
                | none => rw [h3] at h; simp at h
                | some r =>
                  obtain ⟨fs3, lves⟩ := r
                  rw [h3] at h
                  simp only at h ⊢
                  have e5 : copyExtraFiles (flawless env) lib fs3 = copyExtraFiles env lib fs3 := rfl
                  rw [e5]
                  cases h4 : copyExtraFiles env lib fs3 with
                  | none => rw [h4] at h; simp at h
                  | some fs4 =>
                    rw [h4] at h
                    simp only at h ⊢
                    rw [Res.bind_eq_ok] at h
                    obtain ⟨fs5, h5, h⟩ := h
                    rw [Res.bind_eq_ok] at h
                    obtain ⟨r, h6, h⟩ := h
                    cases r with
                    | none => simp at h
                    | some fs6 =>
                      obtain ⟨fs5', g1, g2⟩ := writeManifestDisk_cut (b := b) h5
                      obtain ⟨fs6', g3, g4⟩ := encryptFilesDisk_cut hb hw g2 h6
                      simp only [Res.ok.injEq, PackResult.mk.injEq] at h
                      obtain ⟨h7, h8⟩ := h
                      obtain ⟨a0, g5, g6⟩ := createZipArchive_cut hw g4 (a := a) (ok := (createZipArchive env d fs6).2)
                        (by rw [← h8])
                      refine ⟨a0, ?_, g6⟩
                      simp only [g1, g3, Res.bind_ok, g5, h7]
                      rfl

/-- **C94, enough room for the package.** If in addition there is room for the files of the package, it is the same. -/
theorem c94_package (disk : StagingDisk) (b : Nat) (hb : ∀ p i, (disk p).kept i ≤ b) (env : PackEnv) (hw : NamesOnly env)
    (args : List Bytes) (a : Archive) (h : packToolDisk disk env args = .ok ⟨0, some a⟩)
    (hroom : ∀ a0, packTool (flawless env) args = .ok ⟨0, some a0⟩ → ∀ f ∈ a0, f.2.length ≤ (disk f.1).room) :
    packTool (flawless env) args = .ok ⟨0, some a⟩ := by
  obtain ⟨a0, h1, h2⟩ := c94_partial disk b hb env hw args a h
  rw [cutArchive_room h2 (hroom a0 h1)]
  exact h1

/-- **C94, large disks.** There is an amount of room with which the disk does not matter, to success or failure. -/
theorem c94_room (env : PackEnv) (args : List Bytes) :
    ∃ n, ∀ disk : StagingDisk, (∀ p, n ≤ (disk p).room) → packToolDisk disk env args = packTool (flawless env) args := by
  unfold packToolDisk packTool
  split
  · exact ⟨0, fun _ _ => rfl⟩
  · split
    · exact ⟨0, fun _ _ => rfl⟩
    · have hd' : packArguments (flawless env) args = packArguments env args := rfl
      rw [hd']
      refine bind_room (x := fun _ => packArguments env args) ⟨0, fun _ _ => rfl⟩ fun d => ?_
      cases d with
      | none => exact ⟨0, fun _ _ => rfl⟩
      | some d =>
        simp only [packLibraryDisk, packLibrary]
        have e1 : (flawless env).tempDir = env.tempDir := rfl
        rw [e1]
        cases env.tempDir with
        | none => exact ⟨0, fun _ _ => rfl⟩
        | some tempDir =>
          refine bind_room (x := fun _ => getLibraryName _) ⟨0, fun _ _ => rfl⟩ fun lib => ?_
          have e2 : copyFolderStructure (flawless env) lib = copyFolderStructure env lib := rfl
          simp only [e2]
          cases copyFolderStructure env lib with
          | none => exact ⟨0, fun _ _ => rfl⟩
          | some fs1 =>
            have e3 : createLibraryFolder (flawless env) lib fs1 = createLibraryFolder env lib fs1 := rfl
            simp only [e3]
            cases createLibraryFolder env lib fs1 with
            | none => exact ⟨0, fun _ _ => rfl⟩
            | some fs2 =>
              have e4 : prepareIconFile (flawless env) d tempDir lib fs2 = prepareIconFile env d tempDir lib fs2 := rfl
              simp only [e4]
              refine bind_room (x := fun _ => prepareIconFile env d tempDir lib fs2) ⟨0, fun _ _ => rfl⟩ fun icon => ?_
              cases icon with
              | none => exact ⟨0, fun _ _ => rfl⟩
              | some icon =>
                simp only [copyLVE_flawless]
                cases copyLVE env d lib fs2 with
                | none => exact ⟨0, fun _ _ => rfl⟩
                | some r =>
                  obtain ⟨fs3, lves⟩ := r
                  have e5 : copyExtraFiles (flawless env) lib fs3 = copyExtraFiles env lib fs3 := rfl
                  simp only [e5]
                  cases copyExtraFiles env lib fs3 with
                  | none => exact ⟨0, fun _ _ => rfl⟩
                  | some fs4 =>
                    refine bind_room (writeManifestDisk_room env d lib lves icon fs4) fun fs5 => ?_
                    refine bind_room (encryptFilesDisk_room env d tempDir lib fs5) fun r => ?_
                    cases r with
                    | none => exact ⟨0, fun _ _ => rfl⟩
                    | some fs6 =>
                      refine ⟨0, fun _ _ => ?_⟩
                      have hz : ∀ l dir, zipEntries (flawless env) (usingEncryption d) fs6 l dir =
                          zipEntries env (usingEncryption d) fs6 l dir := by
                        intro l dir
                        induction l generalizing dir with
                        | done => rfl
                        | file n rest ih => simp only [zipEntries, ih]; rfl
                        | dir n sub rest ihs ihr => simp only [zipEntries, ihs, ihr]
                        | locked n rest ih => rfl
                        | other n rest ih => simp only [zipEntries, ih]
                      have hc : createZipArchive (flawless env) d fs6 = createZipArchive env d fs6 := by
                        simp only [createZipArchive, hz]; rfl
                      simp only [hc]

/-- An archive comes from `createZipArchive`. -/
theorem packToolDisk_archive {disk : StagingDisk} {env : PackEnv} {args : List Bytes} {r : PackResult}
    (h : packToolDisk disk env args = .ok r) {a : Archive} (ha : r.archive = some a) :
    ∃ d fs, packArguments env args = .ok (some d) ∧ (createZipArchive env d fs).1 = some a := by
  unfold packToolDisk at h
  split at h
  · simp only [Res.ok.injEq] at h; subst h; simp at ha
  · split at h
    · simp only [Res.ok.injEq] at h; subst h; simp at ha
    · rw [Res.bind_eq_ok] at h
      obtain ⟨d, hd, h⟩ := h
      cases d with
      | none => simp only [Res.ok.injEq] at h; subst h; simp at ha
      | some d =>
        refine ⟨d, ?_⟩
        simp only [hd, true_and]
        simp only [packLibraryDisk] at h
        split at h
        · simp at h
        · rw [Res.bind_eq_ok] at h
          obtain ⟨lib, -, h⟩ := h
          split at h
          · simp only [Res.ok.injEq] at h; subst h; simp at ha
          · split at h
            · simp only [Res.ok.injEq] at h; subst h; simp at ha
            · rw [Res.bind_eq_ok] at h
              obtain ⟨icon, -, h⟩ := h
              split at h
              · simp only [Res.ok.injEq] at h; subst h; simp at ha
              · split at h
                · simp only [Res.ok.injEq] at h; subst h; simp at ha
                · split at h
                  · simp only [Res.ok.injEq] at h; subst h; simp at ha
                  · rw [Res.bind_eq_ok] at h
                    obtain ⟨fs5, -, h⟩ := h
                    rw [Res.bind_eq_ok] at h
                    obtain ⟨o, -, h⟩ := h
                    split at h
                    · simp only [Res.ok.injEq] at h; subst h; simp at ha
                    · rename_i fs6
                      simp only [Res.ok.injEq] at h
                      subst h
                      exact ⟨fs6, ha⟩

/-- **C94, secrecy.** However little room there is, and whatever the exit status: a package made with encryption has no
Modelica files. -/
theorem c94_no_source (disk : StagingDisk) (env : PackEnv) (args : List Bytes) (r : PackResult)
    (h : packToolDisk disk env args = .ok r) (a : Archive) (ha : r.archive = some a) (ps : List (Bytes × Bytes))
    (hp : ArgPairs args ps) (he : AsksEncryption ps) : ∀ f ∈ a, ¬ ModelicaName (nameOf f.1) := by
  obtain ⟨d, fs, h1, h2⟩ := packToolDisk_archive h ha
  rintro ⟨p, c⟩ hf
  rcases createZip_some h2 with ⟨l, -, h5, -⟩ | ⟨h5, -⟩
  · rw [h5] at hf
    obtain ⟨-, q, -, -, h6⟩ := zipEntries_mem l [] p c hf
    exact h6 ((packArguments_encrypts h1 hp).2 he)
  · rw [h5] at hf
    simp at hf

/-- **C94, whole packages, partial.** A package that is reported as made, by a tool that copies files as in C93 and has room for
the files of the package, has every file of the library with its contents if it is made without encryption, and otherwise the
encryption of every Modelica file and all other files.

Missing: as for `c93_package_partial`. -/
theorem c94_complete_partial (disk : StagingDisk) (b : Nat) (hb : ∀ p i, (disk p).kept i ≤ b) (env : PackEnv)
    (hw : NamesOnly env) (library : List Bytes → CopyCalls) (lve : Bytes → CopyCalls) (args : List Bytes) (a : Archive)
    (h : packToolDisk disk (env.copying library lve) args = .ok ⟨0, some a⟩)
    (hroom : ∀ a0, packTool (flawless (env.copying library lve)) args = .ok ⟨0, some a0⟩ →
      ∀ f ∈ a0, f.2.length ≤ (disk f.1).room)
    (ps : List (Bytes × Bytes)) (hp : ArgPairs args ps) (path lib : Bytes) (hpath : (b!"librarypath", path) ∈ ps)
    (hlib : LibraryName path lib) (l : Listing) (hl : env.library = some l) (content : List Bytes → Bytes)
    (mode : List Bytes → Nat) (hn : NoRepeats l) (hk : ∀ e ∈ entries l, e.2 = .file ∨ e.2 = .dir)
    (hc : ∀ p, (p, Kind.file) ∈ entries l → Outside p →
      Steady (library p) (content p) (mode p) ∧ CanCopy (library p) (content p))
    (hd : ∀ p, (p, Kind.dir) ∈ entries l → Outside p → env.librarySource.mkdirOk p = true)
    (ht : Truthful env lib)
    (hpk : AsksEncryption ps → PlainPackages l ∧ GoodCrypto env ∧ ∀ p, env.canRead (lib :: p) = true)
    (p : List Bytes) (hf : (p, Kind.file) ∈ entries l) (ho : Outside p)
    (hclash : AsksEncryption ps → ∀ q, IsSource l q → p ≠ twin q) :
    (¬ (AsksEncryption ps ∧ ModelicaName (nameOf p)) → (lib :: p, content p) ∈ a) ∧
    (AsksEncryption ps ∧ ModelicaName (nameOf p) → ∃ out, (lib :: twin p, out) ∈ a ∧ ∃ key stored,
      Encrypted env.C key (key.take env.keyLen) (env.iv p) (content p ++ stored) out ∧
      (stored = [] ∨ stored = env.mask p)) :=
  c93_package_partial (flawless env) library lve args a
    (c94_package disk b hb (env.copying library lve) ⟨hw.encrypt, hw.zip⟩ args a h hroom) ps hp path lib hpath hlib l hl
    content mode hn hk hc hd ⟨ht.icon, ht.encrypt, ht.zip⟩
    (fun he => ⟨(hpk he).1, ⟨(hpk he).2.1.crypto, (hpk he).2.1.key, (hpk he).2.1.keyLen, (hpk he).2.1.iv,
      (hpk he).2.1.mask⟩, (hpk he).2.2⟩) p hf ho hclash

/-- The machine of C40, on which listing a directory does not look into files. -/
def diskMachine : PackEnv :=
  { sampleMachine sampleLib with
    encryptWalk := fun fs => honestWalk [b!"Lib"] (emptied fs)
    zipWalk := fun fs => honestWalk [] (emptied fs) }

theorem emptied_emptied (fs : Staged) : emptied (emptied fs) = emptied fs := by
  unfold emptied
  rw [List.map_map]
  apply List.map_congr_left
  rintro ⟨p, n⟩ -
  cases n <;> rfl

theorem diskMachine_names : NamesOnly diskMachine :=
  ⟨fun fs => by simp only [diskMachine, emptied_emptied], fun fs => by simp only [diskMachine, emptied_emptied]⟩

/-- Room for 100000 bytes except in one file; the C library keeps 4096 bytes. -/
def fullFor (p : List Bytes) (room : Nat) : StagingDisk := fun q => ⟨if q = p then room else 100000, fun _ => 4096⟩

theorem fullFor_kept (p : List Bytes) (room : Nat) : ∀ q i, (fullFor p room q).kept i ≤ 4096 := fun _ _ => Nat.le_refl _

/-- Contents that a package has for a file, and the length of the contents; exit status. -/
def packedSize (r : Res PackResult) (p : List Bytes) : Option (Nat × Option Nat) :=
  (packedAs r p).map fun x => (x.1, x.2.map (·.length))

-- non-vacuity of `c94_partial` and `c94_no_source`
example : ∃ a a0, packToolDisk (fullFor [b!"Lib", b!"x.moc"] 40) diskMachine (sampleCommand b!"True") = .ok ⟨0, some a⟩ ∧
    packTool (flawless diskMachine) (sampleCommand b!"True") = .ok ⟨0, some a0⟩ ∧
    CutArchive (fullFor [b!"Lib", b!"x.moc"] 40) 4096 a0 a ∧ ∀ f ∈ a, ¬ ModelicaName (nameOf f.1) := by
  obtain ⟨a0, h1, h2⟩ := c94_partial (fullFor [b!"Lib", b!"x.moc"] 40) 4096 (fullFor_kept _ _) diskMachine
    diskMachine_names (sampleCommand b!"True") _ rfl
  exact ⟨_, a0, rfl, h1, h2, c94_no_source (fullFor [b!"Lib", b!"x.moc"] 40) diskMachine _ _ rfl _ rfl
    (samplePairs b!"True") (sample_pairs _ (by decide)) ⟨b!"True", by decide, by decide⟩⟩

theorem emptied_kind (fs : Staged) (q : List Bytes) : ((emptied fs).get q).map kindOf = (fs.get q).map kindOf := by
  unfold emptied Staged.get
  induction fs with
  | nil => rfl
  | cons e fs ih =>
    by_cases he : e.1 = q
    · obtain ⟨p, n⟩ := e
      cases n <;> simp_all [kindOf]
    · simpa [List.find?_cons, he] using ih

theorem shows_emptied {l : Listing} {base : List Bytes} {fs : Staged} (h : Shows l base (emptied fs)) : Shows l base fs := by
  obtain ⟨h1, h2, h3⟩ := h
  refine ⟨h1, fun e he => by rw [← emptied_kind]; exact h2 e he, fun q hq => h3 q ?_⟩
  unfold emptied
  rw [List.map_map]
  exact hq

theorem diskMachine_truthful : Truthful diskMachine b!"Lib" :=
  ⟨fun _ _ h => honestWalk_shows h, fun _ _ h => shows_old (shows_emptied (honestWalk_shows h)),
    fun _ _ h => shows_emptied (honestWalk_shows h)⟩

-- non-vacuity of `c94_package` and `c94_complete_partial`: the library of C40, on a disk with room
example : ∃ a, packToolDisk (fullFor [] 0) (diskMachine.copying goodCopies (fun _ => goodCopy b!"ELF"))
      (sampleCommand b!"True") = .ok ⟨0, some a⟩ ∧
    ([b!"Lib", b!"A", b!"i.png"], b!"text of A/i.png") ∈ a := by
  refine ⟨_, rfl, ?_⟩
  refine (c94_complete_partial (fullFor [] 0) 4096 (fullFor_kept _ _) diskMachine diskMachine_names goodCopies
    (fun _ => goodCopy b!"ELF") (sampleCommand b!"True") _ rfl ?_ (samplePairs b!"True") (sample_pairs _ (by decide))
    b!"/l/Lib/" b!"Lib" (by decide) sample_name sampleLib rfl
    (fun p => b!"text of " ++ relPath p) (fun _ => 420) (by decide +kernel) (by decide +kernel)
    (fun p hp _ => ⟨goodCopy_steady _, goodCopy_can _ ?_⟩) (fun _ _ _ => rfl) diskMachine_truthful
    (fun _ => ⟨by unfold PlainPackages; decide +kernel, ⟨(sample_crypto sampleLib).crypto, (sample_crypto sampleLib).key,
      (sample_crypto sampleLib).keyLen, (sample_crypto sampleLib).iv, (sample_crypto sampleLib).mask⟩, fun _ => rfl⟩)
    [b!"A", b!"i.png"] (by decide +kernel) (by decide) (fun _ q hq => ?_)).1 (fun h => absurd h.2 ?_)
  · intro a0 h0
    have hr : ((match packTool (flawless (diskMachine.copying goodCopies (fun _ => goodCopy b!"ELF")))
        (sampleCommand b!"True") with
      | .ok r => r.archive
      | .ub _ => none).getD []).all (fun f => decide (f.2.length ≤ (fullFor [] 0 f.1).room)) = true := by decide +kernel
    rw [h0] at hr
    simpa only [Option.getD_some, List.all_eq_true, decide_eq_true_eq] using hr
  · have : ∀ e ∈ entries sampleLib, (b!"text of " ++ relPath e.1).length ≤ 1000 := by decide +kernel
    exact this _ hp
  · exact sample_noClash q _ hq.1 hq.2.2 (by decide +kernel)
  · rw [← isModelicaFile_iff]; decide

/-- **C94, negation, encrypted files.** There is room for 40 bytes of `x.moc`.  All writes succeed, as the C library keeps
them; closing the file fails.  The exit status is 0 and the package has 40 of the 64 bytes. -/
theorem c94_encrypted_not :
    packedSize (packToolDisk (fullFor [b!"Lib", b!"x.moc"] 40) diskMachine (sampleCommand b!"True")) [b!"Lib", b!"x.moc"] =
      some (0, some 40) ∧
    packedSize (packTool (flawless diskMachine) (sampleCommand b!"True")) [b!"Lib", b!"x.moc"] = some (0, some 64) := by
  constructor <;> decide +kernel

/-- Decryption of the encrypted file `p` of the library in a package, unpacked to `/d`: result and bytes. -/
def decryptedFrom (r : Res PackResult) (p : List Bytes) : Option (Int × Bytes) :=
  match r with
  | .ok r =>
    let a := r.archive.getD []
    match crDecrypt ⟨toy, diskMachine.key, 32, b!"/d",
        fun q => (a.find? fun f => b!"/d/" ++ relPath (f.1.drop 1) == q).map (·.2)⟩ [] (relPath p)
        ((a.lookup (b!"Lib" :: p)).getD []) with
    | .ok x => some x.2
    | .ub _ => none
  | .ub _ => none

/-- **C94, negation, whole library.** There is room for 70 of the 112 bytes of `package.moc` of the library.  The exit status
is 0; the end that is missing has the key mask of the directory, so other files, which are complete, cannot be decrypted. -/
theorem c94_unusable_not :
    packedSize (packToolDisk (fullFor [b!"Lib", b!"package.moc"] 70) diskMachine (sampleCommand b!"True"))
      [b!"Lib", b!"x.moc"] = some (0, some 64) ∧
    (decryptedFrom (packToolDisk (fullFor [b!"Lib", b!"package.moc"] 70) diskMachine (sampleCommand b!"True"))
      [b!"x.moc"]).map (·.1) = some (-1) ∧
    (decryptedFrom (packToolDisk (fullFor [b!"Lib", b!"package.moc"] 70) diskMachine (sampleCommand b!"True"))
      [b!"A", b!"y.MOc"]).map (·.1) = some (-1) ∧
    decryptedFrom (packTool (flawless diskMachine) (sampleCommand b!"True")) [b!"x.moc"] =
      some (12, b!"text of x.mo") := by
  refine ⟨?_, ?_, ?_, ?_⟩ <;> decide +kernel

/-- **C94, negation, manifest.** There is no room for the manifest.  The exit status is 0, and the manifest in the package is
empty. -/
theorem c94_manifest_not :
    packedSize (packToolDisk (fullFor [b!"Lib", b!".library", b!"manifest.xml"] 0) diskMachine (sampleCommand b!"no"))
      [b!"Lib", b!".library", b!"manifest.xml"] = some (0, some 0) := by
  decide +kernel

theorem c94_full_not : ¬ c94_full := by
  intro h
  have h1 := h (fullFor [b!"Lib", b!"x.moc"] 40) diskMachine (sampleCommand b!"True") _ diskMachine_names rfl
  have h2 := c94_encrypted_not.2
  rw [h1] at h2
  revert h2
  decide +kernel

end Semla.Props
