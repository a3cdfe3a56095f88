import Verif.Props.PackClean

/-!
# Property C69: the extra files of the vendor

The directory `.library` beside the packaging tool (`env.extra`) has files that vendor executables and tools
need.  Vocabulary is defined in `Verif/Spec/PackTree.lean`.
-/

namespace Semla.Props

open Semla Spec

/-- **C69, partial.** If the tool succeeds, every regular file of the extra directory is in the archive, in
the same place below `.library`, unchanged.

Missing for the full claim: files whose copying fails (`c69_copy_not`), files in a directory `.library` of
the extra directory (`c69_nested_not`), names of files that the tool puts there (`c69_manifest_not`), and
Modelica files if the library is encrypted (`c69_modelica_not`). -/
theorem c69_partial (env : PackEnv) (args : List Bytes) (a : Archive)
    (h : packTool env args = .ok ⟨0, some a⟩) (ps : List (Bytes × Bytes)) (hp : ArgPairs args ps)
    (path lib : Bytes) (hpath : (b!"librarypath", path) ∈ ps) (hlib : LibraryName path lib) (l : Listing)
    (hl : env.library = some l) (content : List Bytes → Bytes) (hc : Copyable env.librarySource l content)
    (ht : Truthful env lib) (x : Listing) (hx : env.extra = some (some x)) (more : List Bytes → Bytes)
    (hm : Copyable env.extraSource x more) (hres : NoReserved env (AsksEncryption ps) x)
    (hmo : AsksEncryption ps → PlainExtras env) (p : List Bytes) (hf : (p, Kind.file) ∈ entries x)
    (ho : Outside p) : (lib :: b!".library" :: p, more p) ∈ a := by
  obtain ⟨d, tempDir, icon, lves, fs1, fs2, fs3, fs4, fs5, fs6, zl, hd, hs, hpkd, henc, hz, ha, hok⟩ :=
    packTool_packed h hp hpath hlib hl hc
  have hw := fun l' hl' => (ht.encrypt fs5 l' hl').1
  have hpm : p ∈ (entries x).map (·.1) := List.mem_map.2 ⟨_, hf, rfl⟩
  obtain ⟨-, top⟩ := copyFolderStructure_top hs.copy
  -- after copying the vendor executables there is nothing in the way
  have free : ∀ q ∈ (entries x).map (·.1), fs3.get ([lib, b!".library"] ++ q) = none := by
    intro q hq
    have hne : q ≠ [] := by
      obtain ⟨e, he, rfl⟩ := List.mem_map.1 hq
      exact entries_ne_nil x e he
    have h2 : fs2.get ([lib, b!".library"] ++ q) = none := by
      rw [createLibraryFolder_frame hs.folder _ (by simpa using hne)]
      exact top q
    have h3 := hs.lveDone
    unfold copyLVE at h3
    split at h3
    · rename_i hu
      split at h3
      · rw [copyLves_other _ h3 _ (by
          intro n hn hlve he
          simp only [List.cons_append, List.nil_append, List.cons.injEq, true_and] at he
          have hn' : n ∈ vendorExecutables.map (·.1) := hn
          obtain ⟨v, hv, rfl⟩ := List.mem_map.1 hn'
          exact (hres q hq).2 (henc.1 hu) v hv hlve he)]
        exact h2
      · simp at h3
    · simp only [Option.some.injEq, Prod.mk.injEq] at h3
      rw [← h3.1]
      exact h2
  have hdir : fs3.get [lib, b!".library"] = some .dir := by
    have h2 : fs2.get [lib, b!".library"] = some .dir := by
      have := hs.folder
      unfold createLibraryFolder at this
      split at this
      · rw [Staged.get_mkdir this, if_pos rfl]
      · simp at this
    have h3 := hs.lveDone
    unfold copyLVE at h3
    split at h3
    · split at h3
      · rw [copyLves_other _ h3 _ (by simp)]
        exact h2
      · simp at h3
    · simp only [Option.some.injEq, Prod.mk.injEq] at h3
      rw [← h3.1]
      exact h2
  have h4 : fs4.get (lib :: b!".library" :: p) = some (.file (more p)) := by
    have h' := hs.extra
    unfold copyExtraFiles at h'
    split at h'
    · rw [hx] at h'
      simp only [copyDirectory, Option.map_some, Option.some.injEq] at h'
      have := (copyEntries_spec env.extraSource more x [] [lib, b!".library"] fs3 hm.nodup hm.kinds
        (fun p hp ho => hm.copied p hp ho) (fun p hp ho => hm.made p hp ho) hdir free).2.1 p hf ho
      rw [h'] at this
      simpa using this
    · simp at h'
  have h5 : fs5.get (lib :: b!".library" :: p) = some (.file (more p)) := by
    have h' := hs.manifest
    unfold writeManifest at h'
    dsimp only at h'
    split at h'
    · simp at h'
    · rename_i fs' hw
      rw [Res.bind_eq_ok] at h'
      obtain ⟨doc, -, h'⟩ := h'
      simp only [Res.ok.injEq] at h'
      have hne : lib :: b!".library" :: p ≠ [lib, b!".library", b!"manifest.xml"] := by
        simpa using (hres p hpm).1
      rw [← h', Staged.get_set, if_neg hne]
      split at hw
      · rw [Staged.get_write hw, if_neg hne]
        exact h4
      · simp at hw
  have h6 : fs6.get (lib :: b!".library" :: p) = some (.file (more p)) := by
    cases hu : usingEncryption d with
    | false => rw [encryptFiles_off hs.encrypt hu]; exact h5
    | true =>
      obtain ⟨s, g1, g2, -⟩ := encryptFiles_on hs.encrypt hu
      obtain ⟨-, -, g7, -, g3⟩ := encSeq_jobs fs5 g1 (fun _ _ => rfl) (allVisits_mem env lib fs5)
        (allVisits_nodup env lib fs5 hw)
      rw [g2, g3]
      · exact h5
      · intro q hq he
        obtain ⟨hne, hmq⟩ := allVisits_mem env lib fs5 q hq
        obtain ⟨c, hcq⟩ := g7 q hq
        obtain ⟨-, j2, -⟩ := hs.prep.library (hmo (henc.1 hu)) hl hc q hne hmq c hcq
        simp only [List.cons.injEq, true_and] at he
        have hq1 : q.dropLast = (b!".library" :: p).dropLast := by
          rw [he, ← twin_eq]
          unfold twin
          rw [List.dropLast_concat]
        have hp0 : p ≠ [] := entries_ne_nil x _ hf
        apply j2
        apply List.dropLast_subset
        rw [hq1]
        cases p with
        | nil => exact absurd rfl hp0
        | cons n p => simp
  obtain ⟨c', h7, h8⟩ := zipEntries_complete zl [] hok (lib :: b!".library" :: p)
    (shows_mem (ht.zip fs6 zl hz) (by simp) h6) (by
      intro hu hmod
      have hp0 : p ≠ [] := entries_ne_nil x _ hf
      rw [nameOf_cons _ (by simp), nameOf_cons _ hp0] at hmod
      exact hmo (henc.1 hu) x hx _ hf hmod)
  rw [List.nil_append, h6] at h7
  simp only [Option.some.injEq, Node.file.injEq] at h7
  rw [ha, h7]
  exact h8

/-! ### Cases -/

/-- Extra files of a vendor. -/
def extraLib : Listing :=
  .dir b!"Vendor" (.file b!"lic.dll" (.dir b!"data" (.file b!"package.moc" .done) .done)) .done

/-- A machine with the extra files `x`. -/
def extraMachine (x : Listing) : PackEnv :=
  { sampleMachine sampleLib with extra := some (some x), extraSource := ⟨fun p => some (relPath p), fun _ => true⟩ }

example : shown (packTool (extraMachine extraLib) (sampleCommand b!"True")) = some (0, some [b!"Lib/x.moc",
    b!"Lib/package.moc", b!"Lib/.library/manifest.xml", b!"Lib/.library/Vendor/data/package.moc",
    b!"Lib/.library/Vendor/lic.dll", b!"Lib/.library/lve_linux64", b!"Lib/A/y.MOc",
    b!"Lib/A/package.moc", b!"Lib/A/i.png"]) := by decide +kernel

/-- The hypotheses of `c69_partial` hold. -/
example : Copyable (extraMachine extraLib).extraSource extraLib relPath ∧
    NoReserved (extraMachine extraLib) True extraLib ∧ PlainExtras (extraMachine extraLib) ∧
    ([b!"Vendor", b!"data", b!"package.moc"], Kind.file) ∈ entries extraLib := by
  refine ⟨⟨by decide +kernel, by decide +kernel, fun _ _ _ => rfl, fun _ _ _ => rfl⟩, ?_, ?_, by decide⟩
  · unfold NoReserved
    decide +kernel
  · intro l hl e he hm
    simp only [extraMachine, Option.some.injEq] at hl
    subst hl
    have : ∀ e ∈ entries extraLib, isModelicaFile (nameOf e.1) = false := by decide +kernel
    rw [← isModelicaFile_iff, this e he] at hm
    simp at hm

/-- What the archive has at a path. -/
def inArchive (r : Res PackResult) (p : List Bytes) : Option Bytes :=
  match r with
  | .ok ⟨0, some a⟩ => (a.find? (·.1 = p)).map (·.2)
  | _ => none

/-! ### What is missing -/

/-- The full claim is false: an extra file that cannot be copied is missing, and the exit status is 0. -/
theorem c69_copy_not : shown (packTool { extraMachine (.file b!"a" .done) with
      extraSource := ⟨fun _ => none, fun _ => true⟩ } (sampleCommand b!"no")) =
    shown (packTool (sampleMachine sampleLib) (sampleCommand b!"no")) := by decide +kernel

/-- The full claim is false: a directory `.library` in the extra directory is left out. -/
theorem c69_nested_not : shown (packTool (extraMachine (.dir b!"V" (.dir b!".library" (.file b!"a" .done) .done)
      .done)) (sampleCommand b!"no")) =
    shown (packTool (sampleMachine sampleLib) (sampleCommand b!"no")) := by decide +kernel

/-- The full claim is false: a file `manifest.xml` is overwritten. -/
theorem c69_manifest_not : inArchive (packTool (extraMachine (.file b!"manifest.xml" .done)) (sampleCommand b!"no"))
      [b!"Lib", b!".library", b!"manifest.xml"] =
    inArchive (packTool (sampleMachine sampleLib) (sampleCommand b!"no"))
      [b!"Lib", b!".library", b!"manifest.xml"] := by decide +kernel

/-- The full claim is false: if the library is encrypted, extra Modelica files are so, too, and are missing
themselves. -/
theorem c69_modelica_not : (shown (packTool (extraMachine (.file b!"s.mo" .done)) (sampleCommand b!"True"))).any
    (fun r => r.1 = 0 && r.2.any fun names => names.contains b!"Lib/.library/s.moc" &&
      !names.contains b!"Lib/.library/s.mo") = true := by decide +kernel

/-- An extra file with the name of a vendor executable takes its place. -/
theorem c69_vendor_not : inArchive (packTool (extraMachine (.file b!"lve_linux64" .done)) (sampleCommand b!"True"))
      [b!"Lib", b!".library", b!"lve_linux64"] = some b!"lve_linux64" := by decide +kernel

end Semla.Props
