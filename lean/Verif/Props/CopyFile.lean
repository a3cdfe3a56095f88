import Verif.Spec.CopyFile
import Verif.Lemmas.FullDisk
import Verif.Props.Pack

/-!
# C93: copies of files in a package

The copies are made with `copyFile`; that a package has all files of a library, if these are copied right, is C40.
-/

set_option linter.unusedSimpArgs false

namespace Semla.Props

open Semla Semla.Spec

/-- **C93, full statement.** If the packaging tool reports that it has copied a file, the copy has the contents and the
permissions of the file. -/
def c93_full : Prop :=
  ∀ (c : CopyCalls) (content : Bytes) (mode : Nat) (copy : Option FileCopy), c.source = some (content, mode) →
    copyFile c = (copy, true) → copy = some (content, mode)

/-- **C93, partial.** If the file can be read and stays as it is while it is copied, and the disk has room, a copy that is
reported as made has the contents and the permissions of the file.

Missing: errors of reading, `c93_read_not`, and a full disk, `c93_disk_not`. -/
theorem c93_copy_partial (c : CopyCalls) (content : Bytes) (mode : Nat) (hs : Steady c content mode)
    (hroom : content.length ≤ c.disk.room) (copy : Option FileCopy) (h : copyFile c = (copy, true)) :
    copy = some (content, mode) := by
  unfold copyFile at h
  rw [hs.source] at h
  cases hsz : c.size with
  | none => rw [hsz] at h; simp at h
  | some n =>
    rw [hsz] at h
    have hn := hs.size n hsz
    subst hn
    simp only at h
    split at h
    · simp at h
    · split at h
      · simp at h
      · have hr : min c.readable content.length = content.length := Nat.min_eq_right hs.readable
        have hb : copyBuffer content c.readable content.length = content := by
          simp [copyBuffer, hr]
        rw [hb, closed_all hroom] at h
        simp only [Prod.mk.injEq] at h
        unfold copyPermissions at h
        cases hm : c.mode with
        | none => rw [hm] at h; simp at h
        | some m =>
          rw [hm] at h
          simp only at h
          split at h
          · rw [hs.mode m hm] at h; exact h.1.symm
          · simp at h

/-- **C93, copies are made.** If in addition the calls do not fail, the copy is made. -/
theorem c93_made (c : CopyCalls) (content : Bytes) (mode : Nat) (hs : Steady c content mode) (hc : CanCopy c content) :
    copyFile c = (some (content, mode), true) := by
  have h : (copyFile c).2 = true := by
    unfold copyFile
    rw [hs.source]
    cases hsz : c.size with
    | none => exact absurd hsz hc.stat
    | some n =>
      simp only [hc.memory, hc.opens, not_true_eq_false, if_false]
      unfold copyPermissions
      cases hm : c.mode with
      | none => exact absurd hm hc.mode
      | some m => simp [hc.chmod]
  have := c93_copy_partial c content mode hs hc.room (copyFile c).1 (by rw [← h])
  rw [← this, ← h]

/-- **C93, whatever fails.** A copy starts with bytes of the file, from its start, and the rest of it are zeros: nothing
else from the memory or from another file gets into a package. -/
theorem c93_bytes (c : CopyCalls) (content : Bytes) (mode : Nat) (hsrc : c.source = some (content, mode)) (copy : FileCopy)
    (ok : Bool) (h : copyFile c = (some copy, ok)) :
    ∃ n k, copy.1 = content.take n ++ List.replicate k 0 ∧
      ∀ size, c.size = some size → copy.1.length ≤ size := by
  unfold copyFile at h
  rw [hsrc] at h
  cases hsz : c.size with
  | none => rw [hsz] at h; simp at h
  | some size =>
    rw [hsz] at h
    simp only at h
    split at h
    · simp at h
    · split at h
      · simp at h
      · simp only [Prod.mk.injEq, Option.some.injEq] at h
        obtain ⟨rfl, -⟩ := h
        simp only [OutDisk.closed, copyBuffer]
        refine ⟨min c.disk.room (min c.readable size), min (c.disk.room - (content.take (min c.readable size)).length)
          (size - (content.take (min c.readable size)).length), ?_, ?_⟩
        · rw [List.take_append, List.take_take, List.take_replicate]
        · have : ((content.take (min c.readable size) ++
              List.replicate (size - (content.take (min c.readable size)).length) 0).take c.disk.room).length ≤ size := by
            simp only [List.length_take, List.length_append, List.length_replicate]
            omega
          intro size' hs'
          simp only [Option.some.injEq] at hs'
          subst hs'
          exact this

/-- **C93, packages, partial.** If the files of the library can be read and copied, and the disk has room, a package made
without encryption has every file of the library, with its contents; one made with encryption has the encryption of every
Modelica file, and all other files.

Missing: as for `c93_copy_partial` and `c40_partial`. -/
theorem c93_package_partial (env : PackEnv) (library : List Bytes → CopyCalls) (lve : Bytes → CopyCalls)
    (args : List Bytes) (a : Archive) (h : packTool (env.copying library lve) args = .ok ⟨0, some a⟩)
    (ps : List (Bytes × Bytes)) (hp : ArgPairs args ps) (path lib : Bytes) (hpath : (b!"librarypath", path) ∈ ps)
    (hlib : LibraryName path lib) (l : Listing) (hl : env.library = some l) (content : List Bytes → Bytes)
    (mode : List Bytes → Nat) (hn : NoRepeats l) (hk : ∀ e ∈ entries l, e.2 = .file ∨ e.2 = .dir)
    (hc : ∀ p, (p, Kind.file) ∈ entries l → Outside p →
      Steady (library p) (content p) (mode p) ∧ CanCopy (library p) (content p))
    (hd : ∀ p, (p, Kind.dir) ∈ entries l → Outside p → env.librarySource.mkdirOk p = true)
    (ht : Truthful env lib)
    (hpk : AsksEncryption ps → PlainPackages l ∧ GoodCrypto env ∧ ∀ p, env.canRead (lib :: p) = true)
    (p : List Bytes) (hf : (p, Kind.file) ∈ entries l) (ho : Outside p)
    (hclash : AsksEncryption ps → ∀ q, IsSource l q → p ≠ twin q) :
    (¬ (AsksEncryption ps ∧ ModelicaName (nameOf p)) → (lib :: p, content p) ∈ a) ∧
    (AsksEncryption ps ∧ ModelicaName (nameOf p) → ∃ out, (lib :: twin p, out) ∈ a ∧ ∃ key stored,
      Encrypted env.C key (key.take env.keyLen) (env.iv p) (content p ++ stored) out ∧
      (stored = [] ∨ stored = env.mask p)) := by
  have hco : Copyable (env.copying library lve).librarySource l content :=
    ⟨hn, hk, fun p hp ho => by
      simp only [PackEnv.copying, c93_made _ _ _ (hc p hp ho).1 (hc p hp ho).2, Option.map_some], hd⟩
  exact c40_partial (env.copying library lve) args a h ps hp path lib hpath hlib l hl content hco
    ⟨ht.icon, ht.encrypt, ht.zip⟩ (fun he => ⟨(hpk he).1, ⟨(hpk he).2.1.crypto, (hpk he).2.1.key, (hpk he).2.1.keyLen,
      (hpk he).2.1.iv, (hpk he).2.1.mask⟩, (hpk he).2.2⟩) p hf ho hclash

/-- A file with permissions 0644 that can be read and copied without failures. -/
def goodCopy (content : Bytes) : CopyCalls :=
  { source := some (content, 420), size := some content.length, readable := content.length, memory := true, opens := true
    disk := ⟨1000, fun _ => 4096⟩, newMode := 384, mode := some 420, chmod := true }

/-- A machine on which all files can be copied. -/
def copyMachine (library : List Bytes → CopyCalls) (lve : CopyCalls) : PackEnv :=
  (sampleMachine sampleLib).copying library (fun _ => lve)

/-- The files of the library of C40. -/
def goodCopies (p : List Bytes) : CopyCalls := goodCopy (b!"text of " ++ relPath p)

theorem goodCopy_steady (content : Bytes) : Steady (goodCopy content) content 420 :=
  ⟨rfl, fun _ h => (Option.some.inj h).symm, Nat.le_refl _, fun _ h => (Option.some.inj h).symm⟩

theorem goodCopy_can (content : Bytes) (h : content.length ≤ 1000) : CanCopy (goodCopy content) content :=
  ⟨by simp [goodCopy], rfl, rfl, h, by simp [goodCopy], rfl⟩

-- non-vacuity of `c93_copy_partial` and `c93_made`
example : copyFile (goodCopy b!"model x end x;") = (some (b!"model x end x;", 420), true) :=
  c93_made _ _ _ (goodCopy_steady _) (goodCopy_can _ (by decide))

-- non-vacuity of `c93_package_partial`: the library of C40
example : ∃ a, packTool (copyMachine goodCopies (goodCopy b!"ELF")) (sampleCommand b!"True") = .ok ⟨0, some a⟩ ∧
    ([b!"Lib", b!"A", b!"i.png"], b!"text of A/i.png") ∈ a := by
  refine ⟨_, rfl, ?_⟩
  refine (c93_package_partial (sampleMachine sampleLib) goodCopies (fun _ => goodCopy b!"ELF") (sampleCommand b!"True") _
    rfl (samplePairs b!"True") (sample_pairs _ (by decide)) b!"/l/Lib/" b!"Lib" (by decide) sample_name sampleLib rfl
    (fun p => b!"text of " ++ relPath p) (fun _ => 420) (by decide +kernel) (by decide +kernel)
    (fun p hp _ => ⟨goodCopy_steady _, goodCopy_can _ ?_⟩) (fun _ _ _ => rfl) (sample_truthful _)
    (fun _ => ⟨by unfold PlainPackages; decide +kernel, sample_crypto _, fun _ => rfl⟩) [b!"A", b!"i.png"]
    (by decide +kernel) (by decide) (fun _ q hq => ?_)).1 (fun h => absurd h.2 ?_)
  · have : ∀ e ∈ entries sampleLib, (b!"text of " ++ relPath e.1).length ≤ 1000 := by decide +kernel
    exact this _ hp
  · exact sample_noClash q _ hq.1 hq.2.2 (by decide +kernel)
  · rw [← isModelicaFile_iff]; decide

/-- Contents that a package has for a file, and the exit status. -/
def packedAs (r : Res PackResult) (p : List Bytes) : Option (Nat × Option Bytes) :=
  match r with
  | .ok r => some (r.code, (r.archive.getD []).lookup p)
  | .ub _ => none

/-- **C93, negation, reading.** Reading `x.mo` fails after 4 bytes.  The copy is reported as made; in the package the file
has its size, but zeros behind these bytes.  The exit status is 0. -/
theorem c93_read_not :
    copyFile { goodCopy b!"text of x.mo" with readable := 4 } =
      (some (b!"text" ++ List.replicate 8 0, 420), true) ∧
    packedAs (packTool (copyMachine (fun p => if p = [b!"x.mo"] then { goodCopies p with readable := 4 } else goodCopies p)
      (goodCopy b!"ELF")) (sampleCommand b!"no")) [b!"Lib", b!"x.mo"] =
      some (0, some (b!"text" ++ List.replicate 8 0)) := by
  constructor <;> decide +kernel

/-- **C93, negation, full disk.** There is no room for the copy of `x.mo`.  It is reported as made; in the package the
file is empty.  The exit status is 0. -/
theorem c93_disk_not :
    copyFile { goodCopy b!"text of x.mo" with disk := ⟨0, fun _ => 4096⟩ } = (some ([], 420), true) ∧
    packedAs (packTool (copyMachine (fun p => if p = [b!"x.mo"] then { goodCopies p with disk := ⟨0, fun _ => 4096⟩ }
      else goodCopies p) (goodCopy b!"ELF")) (sampleCommand b!"no")) [b!"Lib", b!"x.mo"] = some (0, some []) := by
  constructor <;> decide +kernel

/-- **C93, negation, vendor executable.** There is room for one byte of the vendor executable.  The package has this
byte as vendor executable, so the encrypted library cannot be used, and the exit status is 0. -/
theorem c93_lve_not :
    packedAs (packTool (copyMachine goodCopies { goodCopy b!"ELF" with disk := ⟨1, fun _ => 4096⟩ })
      (sampleCommand b!"True")) [b!"Lib", b!".library", b!"lve_linux64"] = some (0, some b!"E") := by
  decide +kernel

theorem c93_full_not : ¬ c93_full := by
  intro h
  have := h { goodCopy b!"text of x.mo" with disk := ⟨0, fun _ => 4096⟩ } b!"text of x.mo" 420 _ rfl c93_disk_not.1
  revert this
  decide

-- non-vacuity of `c93_bytes`
example : ∃ n k, b!"text" ++ List.replicate 8 0 = (b!"text of x.mo").take n ++ List.replicate k 0 := by
  obtain ⟨n, k, h, -⟩ := c93_bytes _ _ 420 rfl _ _ c93_read_not.1
  exact ⟨n, k, h⟩

end Semla.Props
