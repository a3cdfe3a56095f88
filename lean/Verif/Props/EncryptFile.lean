import Verif.Lemmas.EncFile
import Verif.Lemmas.CrCut
import Verif.Props.Crypt

/-!
# Properties of the single-file tools: C49, C54, C55

The encrypted library on disk is described by `LibraryAt` (`Verif/Spec/Crypt.lean`): under the base
directory every file of `jobs` is stored encrypted with the key that belongs to its place.
-/

set_option linter.unusedSimpArgs false

namespace Semla.Props

open Semla Semla.Spec

/-- The primitives and the key array are as the build produces them. -/
def GoodTool (v : FileToolEnv) : Prop := v.C.Good ∧ v.key.length = 32 ∧ v.keyLen ≤ 32

/-! ## C49 -/

theorem sizesOk_withFile {e : CrEnv} {jobs : List Job} {j : Job} (h : SizesOk e jobs)
    (hj : SizesOk e [j]) : SizesOk e (withFile jobs j) := by
  intro k hk
  rcases mem_withFile.1 hk with h1 | h1
  · exact h k h1.1
  · exact hj k (by simp [h1])

theorem path_ne {jobs : List Job} {keyLen : Nat} (hC : Complete keyLen jobs) {j k : Job} (hj : j ∈ jobs)
    (hk : k ∈ jobs) (hne : ¬ (k.dirs = j.dirs ∧ k.name = j.name)) (b : Bytes) :
    b ++ b!"/" ++ (k.path ++ b!"c") ≠ b ++ b!"/" ++ (j.path ++ b!"c") := by
  intro h
  have h1 := List.append_cancel_right (List.append_cancel_left h)
  have hn : ∀ i ∈ jobs, ∀ d ∈ i.dirs ++ [i.name], IsName d := by
    intro i hi d hd
    obtain ⟨a, -, c⟩ := hC.names i hi
    rcases List.mem_append.1 hd with h | h
    · exact (c d h).1
    · simp at h; subst h; exact a
  have h2 := relPath_inj (hn k hk) (hn j hj) h1
  apply hne
  have := List.append_inj' h2 rfl
  exact ⟨this.1, by simpa using this.2⟩

/-- **C49, partial.** A file `j` is encrypted into an encrypted library with a base directory: a file
other than a package file (new, or replacing one) in a directory that has a package file, or the package
file of a new directory below one that has a package file, or of an empty library.  The run exits with
0, writes nothing but the named file, and afterwards every file of the library, old or new, is decrypted
to its contents, for every sequence of requests.

Missing: replacing an existing package file (`c49_replace_package_not`); package files that are empty
and directories without package file (as in C33); sizes as in C33. -/
theorem c49_incremental_partial (v : FileToolEnv) (hv : GoodTool v) (fs : Files) (destdir inName : Bytes)
    (jobs : List Job) (j : Job)
    -- the library as it is
    (hP : Complete v.keyLen jobs) (hlib : LibraryAt (v.context fs destdir) jobs)
    (hsz : SizesOk (v.context fs destdir) (j :: jobs))
    (hne : ∀ k ∈ j :: jobs, k.isPackage → k.plain ≠ [])
    -- the file that is added and its place
    (ha : Addable jobs j)
    (hn : IsName j.name ∧ (eqNoCase b!"package.mo" j.name → j.name = b!"package.mo") ∧
      ∀ d ∈ j.dirs, IsName d ∧ ¬ eqNoCase b!"package.mo" d ∧ ¬ eqNoCase b!"package.moc" d)
    (hl : destdir.length + 1 + (j.path ++ b!"c").length < 4096)
    -- the random draws of the run
    (hiv : v.iv = j.iv ∧ j.iv.length = 16) (hmask : (∀ d, v.rand d = j.mask) ∧ j.mask.length = v.keyLen)
    -- the files can be read and written
    (hin : fs inName = some j.plain) (hbad : v.bad = false) (hok : ∀ n, v.wOk n = true)
    (hw : v.writable (destdir ++ b!"/" ++ (j.path ++ b!"c")) = true)
    (hdiff : inName ≠ destdir ++ b!"/" ++ (j.path ++ b!"c")) :
    ∃ fs', encryptFileMain v fs [inName, j.path ++ b!"c", destdir] = .ok (0, fs') ∧
      (∀ q, q ≠ destdir ++ b!"/" ++ (j.path ++ b!"c") → fs' q = fs q) ∧
      LibraryAt (v.context fs' destdir) (withFile jobs j) ∧
      ∀ reqs : List Job, (∀ k ∈ reqs, k ∈ withFile jobs j) →
        ∃ t, decryptAll (v.context fs' destdir) [] (reqs.map fun k => k.path ++ b!"c") =
          .ok (t, reqs.map fun k => some k.plain) := by
  have he : GoodEnv (v.context fs destdir) := ⟨hv.1, hv.2.1, hv.2.2⟩
  have hjs := hsz j (by simp)
  have hlr := (libRead_iff (e := v.context fs destdir) hP).1 hlib
  have hC : Complete v.keyLen (withFile jobs j) := withFile_complete hP ha hn ⟨hiv.2, hmask.2⟩
  obtain ⟨t, t', key, flag, out, h1, h2, h3⟩ := encrypt_into_lib (v.context fs destdir) he hP hlr
    (fun k hk => hsz k (by simp [hk])) (fun k hk => hne k (by simp [hk])) j ha hn
    ⟨hiv.2, hmask.2⟩ v.junk hjs.1 v.rand (hmask.1 _)
  have hwf : v.wOk = fun _ => true := funext hok
  refine ⟨fs.set (destdir ++ b!"/" ++ (j.path ++ b!"c")) (some out), ?_, ?_, ?_⟩
  · have hs : snprintf 4096 (destdir ++ b!"/" ++ (j.path ++ b!"c")) =
        destdir ++ b!"/" ++ (j.path ++ b!"c") := by
      unfold snprintf
      rw [List.take_of_length_le]
      simp only [List.length_append] at hl ⊢
      simp at hl ⊢; omega
    have hlen : ¬ 4096 ≤ (j.path ++ b!"c").length := by omega
    have hnil : ¬ j.path ++ b!"c" = [] := by simp
    have hdrop : (j.path ++ b!"c").dropLast = j.path := by simp
    simp only [encryptFileMain, hin, hlen, if_false, h1, Res.bind_ok, hnil, hs, hdrop, encryptTo, hw,
      not_true_eq_false, hdiff, hiv.1, hbad, hwf, h2, if_true]
  · intro q hq
    simp only [Files.set, hq, if_false]
  · have hlr' : LibRead (v.context (fs.set (destdir ++ b!"/" ++ (j.path ++ b!"c")) (some out)) destdir)
        (withFile jobs j) := by
      intro k hk
      have hjm : j ∈ withFile jobs j := mem_withFile.2 (Or.inr rfl)
      rcases mem_withFile.1 hk with h | h
      · obtain ⟨content, hc1, hc2⟩ := hlr k h.1
        refine ⟨content, ?_, ?_⟩
        · have := path_ne hC hjm hk h.2 destdir
          simp only [FileToolEnv.context, Files.set, this, if_false]
          exact hc1
        · have hm1 : maskOf (withFile jobs j) k.dirs = maskOf jobs k.dirs :=
            maskOf_withFile hP hC ha h.1 (List.prefix_refl _)
          have hm2 : maskOf (withFile jobs j) k.dirs.dropLast = maskOf jobs k.dirs.dropLast :=
            maskOf_withFile hP hC ha h.1 (List.dropLast_prefix _)
          unfold EncOf at hc2 ⊢
          have : fileKeyOf (v.context fs destdir) (maskOf (withFile jobs j)) k.dirs =
              fileKeyOf (v.context fs destdir) (maskOf jobs) k.dirs := by
            funext b; simp [fileKeyOf, hm1, hm2]
          rw [← this] at hc2
          exact hc2
      · subst h
        exact ⟨out, by simp [FileToolEnv.context, Files.set], h3⟩
    refine ⟨(libRead_iff hC).2 hlr', fun reqs hr => ?_⟩
    obtain ⟨t2, h4, -⟩ := decryptAll_lib _ ⟨hv.1, hv.2.1, hv.2.2⟩ hC hlr'
      (sizesOk_withFile (fun k hk => hsz k (by simp [hk])) (fun k hk => hsz k (by simp at hk; simp [hk])))
      (by
        intro k hk
        rcases mem_withFile.1 hk with h | h
        · exact hne k (by simp [h.1])
        · exact hne k (by simp [h])) reqs hr [] (decInv_nil _)
    exact ⟨t2, h4⟩

/-- A run of the tool with the toy cipher; `n` chooses the draws. -/
def toyTool (n : Nat) : FileToolEnv :=
  ⟨toy, (List.range 32).map UInt8.ofNat, 32, fun _ => true, toyIv, fun _ => toyMask n, false,
    fun _ => true, []⟩

theorem toyTool_good (n : Nat) : GoodTool (toyTool n) :=
  ⟨toy_good, by simp [toyTool], by simp [toyTool]⟩

/-- The library of C33 encrypted below `/l`, and a new source file. -/
def exDisk : Files := fun q =>
  if q = b!"/src/new.mo" then some b!"model new end new;" else (toyEnv (outsOf (toyEnv []) exLib)).read q

/-- The new file, to be added to package A. -/
def exNew : Job := ⟨[b!"A"], b!"new.mo", toyIv, toyMask 9, b!"model new end new;"⟩

/-- What the encryptor produces for a library is, once installed, an encrypted library. -/
theorem libraryAt_of_encryptAll (e : CrEnv) (he : GoodEnv e) (jobs : List Job)
    (hP : Packaged e.keyLen jobs) (hl : ∀ j ∈ jobs, (relPath j.dirs).length + 1 ≤ 4096)
    (outs : List (Bytes × Bytes)) (h : encryptAll e [] jobs = .ok (some outs)) (basedir : Bytes)
    (read : Bytes → Option Bytes) (hread : ∀ o ∈ outs, read (basedir ++ b!"/" ++ o.1) = some o.2) :
    LibraryAt { e with basedir := basedir, read := read } jobs := by
  obtain ⟨outs', h1, h2⟩ := encryptAll_spec e he hP hl jobs [] rfl [] encInv_nil
  rw [h] at h1
  cases h1
  apply (libRead_iff (e := { e with basedir := basedir, read := read }) hP.complete).2
  intro j hj
  obtain ⟨o, ho, hp, hq⟩ := forall₂_mem h2 j hj
  exact ⟨o.2, by rw [← hp]; exact hread _ ho, hq⟩

theorem exDisk_library : LibraryAt ((toyTool 9).context exDisk b!"/l") exLib :=
  libraryAt_of_encryptAll (toyEnv []) (toyEnv_good []) exLib exLib_packaged (by decide)
    (outsOf (toyEnv []) exLib) (by rfl) b!"/l" exDisk (by decide +kernel)

example : ∃ fs', encryptFileMain (toyTool 9) exDisk [b!"/src/new.mo", b!"A/new.moc", b!"/l"] =
      .ok (0, fs') ∧ LibraryAt ((toyTool 9).context fs' b!"/l") (withFile exLib exNew) := by
  obtain ⟨fs', h1, -, h2, -⟩ := c49_incremental_partial (toyTool 9) (toyTool_good 9) exDisk b!"/l"
    b!"/src/new.mo" exLib exNew exLib_packaged.complete exDisk_library
    (by intro k hk; revert k; decide) (by decide)
    (by unfold Addable; decide)
    (by refine ⟨⟨by decide, by decide⟩, by decide, ?_⟩
        intro d hd; simp [exNew] at hd; subst hd; exact ⟨⟨by decide, by decide⟩, by decide, by decide⟩)
    (by decide) ⟨rfl, by decide⟩ ⟨fun _ => rfl, by decide⟩ (by decide +kernel) rfl (fun _ => rfl) rfl
    (by decide)
  exact ⟨fs', h1, h2⟩

/-- Exit status and files of a run. -/
def runOf : Res (Nat × Files) → Option Nat × Files
  | .ok (n, f) => (some n, f)
  | _ => (none, fun _ => none)

theorem runOf_eq {r : Res (Nat × Files)} {n : Nat} (h : (runOf r).1 = some n) : r = .ok (n, (runOf r).2) := by
  cases r with
  | ok x => obtain ⟨a, b⟩ := x; simp [runOf] at h ⊢; exact h
  | ub x => simp [runOf] at h

def resultsOf : Res (MaskTable × List (Option Bytes)) → Option (List (Option Bytes))
  | .ok (_, l) => some l
  | _ => none

theorem resultsOf_eq {r : Res (MaskTable × List (Option Bytes))} {l : List (Option Bytes)}
    (h : resultsOf r = some l) : ∃ t, r = .ok (t, l) := by
  cases r with
  | ok x => obtain ⟨a, b⟩ := x; simp [resultsOf] at h; exact ⟨a, by rw [h]⟩
  | ub x => simp [resultsOf] at h

/-- The disk of the example with the source of a package file. -/
def exDisk2 : Files := fun q => if q = b!"/src/package.mo" then some b!"package A end A;" else exDisk q

def exRun : Res (Nat × Files) :=
  encryptFileMain (toyTool 9) exDisk2 [b!"/src/package.mo", b!"A/package.moc", b!"/l"]

/-- **C49, negation.** Encrypting the package file of a directory again makes the other files of the
directory undecryptable: the run succeeds, the new package file is decrypted, its sibling no longer
is.  (The file that is replaced has the very same contents.) -/
theorem c49_replace_package_not :
    ∃ (v : FileToolEnv) (fs fs' : Files) (jobs : List Job), GoodTool v ∧ Complete v.keyLen jobs ∧
      LibraryAt (v.context fs b!"/l") jobs ∧ exLib[1] ∈ jobs ∧ exLib[2] ∈ jobs ∧
      fs b!"/src/package.mo" = some exLib[1].plain ∧
      encryptFileMain v fs [b!"/src/package.mo", b!"A/package.moc", b!"/l"] = .ok (0, fs') ∧
      ∃ t, decryptAll (v.context fs' b!"/l") [] [b!"A/package.moc", b!"A/x.moc"] =
        .ok (t, [some exLib[1].plain, none]) := by
  have h1 : (runOf exRun).1 = some 0 := by decide +kernel
  have h2 : exRun = .ok (0, (runOf exRun).2) := runOf_eq h1
  refine ⟨toyTool 9, exDisk2, (runOf exRun).2, exLib, toyTool_good 9, exLib_packaged.complete, ?_,
    by decide, by decide, rfl, h2, ?_⟩
  · exact libraryAt_of_encryptAll (toyEnv []) (toyEnv_good []) exLib exLib_packaged (by decide)
      (outsOf (toyEnv []) exLib) (by rfl) b!"/l" exDisk2 (by decide +kernel)
  · have h3 : resultsOf (decryptAll ((toyTool 9).context (runOf exRun).2 b!"/l") []
      [b!"A/package.moc", b!"A/x.moc"]) = some [some exLib[1].plain, none] := by decide +kernel
    exact resultsOf_eq h3

/-! ## C54 -/

/-- **C54, with base directory.** Whatever the names, contents and failures: if the run is defined, at
most the file `<basedir>/<name>` (cut to the buffer) is changed; it holds an encryption of the contents of the first
file if the exit status is 0; otherwise it is removed or, with every other file, as before. -/
theorem c54_base_directory (v : FileToolEnv) (hv : GoodTool v) (fs fs' : Files)
    (hiv : v.iv.length = 16) (hr : ∀ d, (v.rand d).length = v.keyLen) (inName target destdir : Bytes)
    (status : Nat) (h : encryptFileMain v fs [inName, target, destdir] = .ok (status, fs')) :
    let dest := (destdir ++ b!"/" ++ target).take 4095
    (∀ q, q ≠ dest → fs' q = fs q) ∧
    (status = 0 → inName ≠ dest → ∃ content key out, fs inName = some content ∧ fs' dest = some out ∧
      Encrypted v.C key (key.take v.keyLen) v.iv (content ++
        if eqNoCase b!"package.mo" (fileName target.dropLast) then v.rand (dirKey target.dropLast) else [])
        out) ∧
    (status ≠ 0 → fs' dest = none ∨ fs' = fs) := by
  intro dest
  simp only [encryptFileMain] at h
  cases hin : fs inName with
  | none =>
    rw [hin] at h
    simp only [Res.ok.injEq, Prod.mk.injEq] at h
    obtain ⟨rfl, rfl⟩ := h
    exact ⟨fun _ _ => rfl, by simp, by simp⟩
  | some content =>
    rw [hin] at h
    simp only at h
    split at h
    · cases h
    rw [Res.bind_eq_ok] at h
    obtain ⟨⟨t, key, flag⟩, -, h⟩ := h
    simp only at h
    split at h
    · cases h
    have hs : snprintf 4096 (destdir ++ b!"/" ++ target) = dest := rfl
    rw [hs] at h
    unfold encryptTo at h
    split at h
    · simp only [Res.ok.injEq, Prod.mk.injEq] at h
      obtain ⟨rfl, rfl⟩ := h
      exact ⟨fun _ _ => rfl, by simp, by simp⟩
    · obtain ⟨t', out, ok, h1, h2⟩ := crEncrypt_spec (v.context fs destdir) ⟨hv.1, hv.2.1, hv.2.2⟩ t
        target.dropLast v.iv hiv v.rand hr (if inName = dest then [] else content) v.bad v.wOk
      simp only [h1, Res.bind_ok, Res.ok.injEq] at h
      cases ok with
      | true =>
        simp only [if_true, Prod.mk.injEq] at h
        obtain ⟨rfl, rfl⟩ := h
        refine ⟨fun q hq => by simp only [Files.set, hq, if_false], fun _ hd => ?_, by simp⟩
        obtain ⟨-, key', h3⟩ := h2 rfl
        rw [if_neg hd] at h3
        refine ⟨content, key', out, rfl, by simp [Files.set], ?_⟩
        have : ∀ (c : Prop) [Decidable c] (a b : Bytes), a ++ (if c then b else []) =
            if c then a ++ b else a := by intro c _ a b; split <;> simp
        rw [this]
        exact h3
      | false =>
        simp only [Bool.false_eq_true, if_false, Prod.mk.injEq] at h
        obtain ⟨rfl, rfl⟩ := h
        exact ⟨fun q hq => by simp only [Files.set, hq, if_false], by simp, fun _ => Or.inl (by simp [Files.set])⟩

-- the run of C49's example, and a target without directory
example : runOf (encryptFileMain (toyTool 9) exDisk2 [b!"/src/package.mo", b!"A/package.moc", b!"/l"]) =
    runOf exRun ∧ (runOf exRun).1 = some 0 := ⟨rfl, by decide +kernel⟩
example : (runOf (encryptFileMain (toyTool 9) exDisk [b!"/nowhere", b!"y.moc", b!"/l"])).1 = some 1 := by
  decide +kernel

/-- **C54, negation without base directory.** `encrypt_file x.mo x.moc`, for every contents of `x.mo`:
the run exits with 0, `x.moc` is not written, and the cleartext is overwritten with an encryption of
nothing. -/
theorem c54_no_base_directory_not (v : FileToolEnv) (hv : GoodTool v) (fs : Files) (content : Bytes)
    (hiv : v.iv.length = 16) (hbad : v.bad = false) (hok : ∀ n, v.wOk n = true)
    (hw : v.writable b!"x.mo" = true) (hin : fs b!"x.mo" = some content) :
    ∃ fs' out, encryptFileMain v fs [b!"x.mo", b!"x.moc"] = .ok (0, fs') ∧
      fs' b!"x.moc" = fs b!"x.moc" ∧ fs' b!"x.mo" = some out ∧
      crDecryptNoContext (v.context fs []) out = .ok (0, []) := by
  obtain ⟨t, out, h1, h2⟩ := c30_round_trip (v.context fs []) ⟨hv.1, hv.2.1, hv.2.2⟩ b!"x.mo" v.iv []
    ⟨by decide, by decide⟩ (by decide) hiv v.rand (by decide)
  have hwf : v.wOk = fun _ => true := funext hok
  refine ⟨fs.set b!"x.mo" (some out), out, ?_, rfl, rfl, h2⟩
  simp [encryptFileMain, hin, encryptTo, hw, baseStart, isSep, hbad, hwf, h1]

example : (runOf (encryptFileMain (toyTool 9) (fun q => if q = b!"x.mo" then some b!"model x end x;" else none)
    [b!"x.mo", b!"x.moc"])).1 = some 0 := by decide +kernel

theorem baseStart_name (dir name : Bytes) (hd : dir = [] ∨ ∃ c, dir.getLast? = some c ∧ isSep c = true)
    (hn : ∀ c ∈ name, isSep c = false) : ∀ n, dir.length ≤ n → n ≤ (dir ++ name).length →
    baseStart (dir ++ name) n = dir.length := by
  intro n
  induction n with
  | zero =>
    intro h1 _
    unfold baseStart
    omega
  | succ n ih =>
    intro h1 h2
    unfold baseStart
    by_cases h : dir.length ≤ n
    · have hc : isSep ((dir ++ name).getD n 0) = false := by
        have hl : n - dir.length < name.length := by simp at h2; omega
        rw [List.getD_eq_getElem?_getD, List.getElem?_append_right h, List.getElem?_eq_getElem hl, Option.getD_some]
        exact hn _ (List.getElem_mem hl)
      rw [hc]
      simp only [Bool.false_eq_true, if_false]
      exact ih h (by omega)
    · have hl : dir.length = n + 1 := by omega
      have hc : isSep ((dir ++ name).getD n 0) = true := by
        rcases hd with rfl | ⟨c, h3, h4⟩
        · simp at hl
        · rw [List.getD_eq_getElem?_getD, List.getElem?_append_left (by omega)]
          rw [List.getLast?_eq_getElem?, hl] at h3
          simp only [Nat.add_sub_cancel] at h3
          rw [h3]
          exact h4
      rw [hc, hl]
      rfl

/-- **C54, without base directory, partial.**  With two arguments the tool writes to the second one without its last
letter if that is `c`, and what it writes there is decrypted to the contents of the first file.  Nothing else is
changed.  Missing: the file that is written is not the one that was named (`c54_no_base_directory_not`); names of
package files, and files that cannot be read or written. -/
theorem c54_no_base_directory_partial (v : FileToolEnv) (hv : GoodTool v) (fs : Files)
    (inName dir name suffix content : Bytes) (hd : dir = [] ∨ ∃ c, dir.getLast? = some c ∧ isSep c = true)
    (hn : IsName name) (hp : ¬ eqNoCase b!"package.mo" name)
    (hs : suffix = b!"c" ∨ suffix = [] ∧ name.getLast? ≠ some 99)
    (hl : (dir ++ name ++ suffix).length < 4096) (hlen : content.length + 96 < 2 ^ 31)
    (hiv : v.iv.length = 16) (hbad : v.bad = false) (hok : ∀ n, v.wOk n = true)
    (hw : v.writable (dir ++ name) = true) (hin : fs inName = some content) (hne : inName ≠ dir ++ name) :
    ∃ fs' out, encryptFileMain v fs [inName, dir ++ name ++ suffix] = .ok (0, fs') ∧
      (∀ q, q ≠ dir ++ name → fs' q = fs q) ∧ fs' (dir ++ name) = some out ∧
      crDecryptNoContext (v.context fs []) out = .ok ((content.length : Int), content) := by
  obtain ⟨t, out, h1, h2⟩ := c30_round_trip (v.context fs []) ⟨hv.1, hv.2.1, hv.2.2⟩ name v.iv content hn hp hiv v.rand
    hlen
  have hwf : v.wOk = fun _ => true := funext hok
  refine ⟨fs.set (dir ++ name) (some out), out, ?_, fun q hq => by simp [Files.set, hq], by simp [Files.set], h2⟩
  have hnn : name ≠ [] := hn.1
  have hpos : 0 < name.length := List.length_pos_iff.2 hnn
  have hb := baseStart_name dir name hd (fun c hc => by simp [isSep, hn.2 c hc])
  have hcut : (if (dir ++ name ++ suffix).getLast? = some 99 then (dir ++ name ++ suffix).dropLast
      else dir ++ name ++ suffix) = dir ++ name := by
    rcases hs with rfl | ⟨rfl, h3⟩
    · simp
    · rw [List.append_nil, if_neg]
      rw [List.getLast?_append_of_ne_nil _ hnn]
      exact h3
  have hstart : baseStart (dir ++ name) ((dir ++ name ++ suffix).length - 1) = dir.length := by
    apply hb
    · simp; omega
    · rcases hs with rfl | ⟨rfl, -⟩ <;> simp
  have hnil : ¬ dir ++ name ++ suffix = [] := by simp [hnn]
  simp only [encryptFileMain, hin, Nat.not_le.2 hl, hnil, if_false, hcut, hstart, encryptTo, hw, not_true_eq_false, hne,
    List.drop_left, hbad, hwf, h1, Res.bind_ok, if_true]

example : (runOf (encryptFileMain (toyTool 9) (fun q => if q = b!"x.mo" then some b!"model x end x;" else none)
    [b!"x.mo", b!"out/y.moc"])).1 = some 0 := by decide +kernel

/-! ## C55 -/

/-- **C55, frame.** The decryption tool changes no file but the one named for its output; and if it exits
with a status other than 0 and that file could be opened, the file does not exist afterwards. -/
theorem c55_frame (v : FileToolEnv) (fs fs' : Files) (dir rel outName : Bytes) (status : Nat)
    (h : decryptFileMain v fs [dir, rel, outName] = .ok (status, fs')) :
    (∀ q, q ≠ outName → fs' q = fs q) ∧ (status ≠ 0 → fs' outName = none ∨ (v.writable outName = false ∧ fs' = fs)) := by
  simp only [decryptFileMain] at h
  split at h
  · simp only [Res.ok.injEq, Prod.mk.injEq] at h
    obtain ⟨rfl, rfl⟩ := h
    split
    · exact ⟨fun q hq => by simp only [Files.set, hq, if_false], fun _ => Or.inl (by simp [Files.set])⟩
    · rename_i hw
      exact ⟨fun _ _ => rfl, fun _ => Or.inr ⟨by simpa using hw, rfl⟩⟩
  · split at h
    · rename_i hw
      simp only [Res.ok.injEq, Prod.mk.injEq] at h
      obtain ⟨rfl, rfl⟩ := h
      exact ⟨fun _ _ => rfl, fun _ => Or.inr ⟨by simpa using hw, rfl⟩⟩
    · rw [Res.bind_eq_ok] at h
      obtain ⟨⟨t, key, flag⟩, -, h⟩ := h
      simp only at h
      rw [Res.bind_eq_ok] at h
      obtain ⟨⟨t', n, out⟩, -, h⟩ := h
      simp only at h
      split at h
      · simp only [Res.ok.injEq, Prod.mk.injEq] at h
        obtain ⟨rfl, rfl⟩ := h
        exact ⟨fun q hq => by simp only [Files.set, hq, if_false], by simp⟩
      · simp only [Res.ok.injEq, Prod.mk.injEq] at h
        obtain ⟨rfl, rfl⟩ := h
        exact ⟨fun q hq => by simp only [Files.set, hq, if_false], fun _ => Or.inl (by simp [Files.set])⟩

/-- **C55, contents.** For a file of an encrypted library the tool exits with 0 and the output file holds
exactly the original contents, provided it is not a file of the library itself.

Missing: encrypted files of more than 10 MB, of which the tool reads the first 10 MB only
(`c55_large_partial`), and what C33 excludes. -/
theorem c55_contents_partial (v : FileToolEnv) (hv : GoodTool v) (fs : Files) (dir outName : Bytes)
    (jobs : List Job) (hP : Complete v.keyLen jobs) (hlib : LibraryAt (v.context fs dir) jobs)
    (hsz : SizesOk (v.context fs dir) jobs) (hne : ∀ k ∈ jobs, k.isPackage → k.plain ≠ []) (j : Job)
    (hj : j ∈ jobs)
    (hsize : ∀ content, fs (dir ++ b!"/" ++ (j.path ++ b!"c")) = some content → content.length ≤ 10 * 1024 * 1024)
    (hl : dir.length + 1 + (j.path ++ b!"c").length < 4096)
    (hw : v.writable outName = true) (hok : v.wOk 0 = true)
    (hout : ∀ k ∈ jobs, outName ≠ dir ++ b!"/" ++ (k.path ++ b!"c")) :
    ∃ fs', decryptFileMain v fs [dir, j.path ++ b!"c", outName] = .ok (0, fs') ∧
      fs' outName = some j.plain ∧ ∀ q, q ≠ outName → fs' q = fs q := by
  have hlr := (libRead_iff (e := v.context fs dir) hP).1 hlib
  have hlr1 : LibRead (v.context (fs.set outName (some [])) dir) jobs := by
    intro k hk
    obtain ⟨content, h1, h2⟩ := hlr k hk
    refine ⟨content, ?_, h2⟩
    simp only [FileToolEnv.context, Files.set, Ne.symm (hout k hk), if_false]
    exact h1
  obtain ⟨content, h1, h2⟩ := hlr1 j hj
  have he : GoodEnv (v.context (fs.set outName (some [])) dir) := ⟨hv.1, hv.2.1, hv.2.2⟩
  have hcl := encOf_length he hP hj (hsz j hj).2 h2
  obtain ⟨t', out, h3, h4, -⟩ := decrypt_lib _ he hP hlr1 hsz hne j hj [] (decInv_nil _) content h2
  have hs : snprintf 4096 (dir ++ b!"/" ++ (j.path ++ b!"c")) = dir ++ b!"/" ++ (j.path ++ b!"c") := by
    unfold snprintf
    rw [List.take_of_length_le]
    simp only [List.length_append] at hl ⊢
    simp at hl ⊢; omega
  have hfs : fs (dir ++ b!"/" ++ (j.path ++ b!"c")) = some content := by
    have h1' : fs.set outName (some []) (dir ++ b!"/" ++ (j.path ++ b!"c")) = some content := h1
    rw [← h1']
    simp only [Files.set, Ne.symm (hout j hj), if_false]
  have hlen2 : 48 ≤ content.length ∧ content.length ≤ 10 * 1024 * 1024 := by
    have := encrypted_length he.crypto (hP.draws j hj).1 h2
    exact ⟨by omega, hsize content hfs⟩
  refine ⟨fs.set outName (some j.plain), ?_, by simp [Files.set], fun q hq => by
    simp only [Files.set, hq, if_false]⟩
  have h1' : fs.set outName (some []) (dir ++ b!"/" ++ (j.path ++ b!"c")) = some content := h1
  unfold crDecrypt at h3
  rw [Res.bind_eq_ok] at h3
  obtain ⟨⟨t, key, flag⟩, h5, h6⟩ := h3
  have hb : ¬ content.length < 48 := by omega
  have htk : content.take decryptBufSize = content := List.take_of_length_le (by
    unfold decryptBufSize; omega)
  have hkey : (v.context (fs.set outName (some [])) dir).key = v.key := rfl
  rw [hkey] at h5
  simp only [decryptFileMain, hs, hfs, hw, not_true_eq_false, if_false, h5, Res.bind_ok, h1',
    Option.getD_some, htk, decryptFileMain.decryptTailStatic, hb, h6]
  simp [h4, hok]

example : ∃ fs', decryptFileMain (toyTool 9) exDisk [b!"/l", b!"A/x.moc", b!"/out"] = .ok (0, fs') ∧
    fs' b!"/out" = some b!"model x end x;" := by
  obtain ⟨fs', h1, h2, -⟩ := c55_contents_partial (toyTool 9) (toyTool_good 9) exDisk b!"/l" b!"/out" exLib
    exLib_packaged.complete exDisk_library (by intro k hk; revert k; decide) (by decide) exLib[2]
    (by decide) (fun content h => by
      have : (exDisk (b!"/l" ++ b!"/" ++ (exLib[2].path ++ b!"c"))).map List.length = some 64 := by decide +kernel
      rw [h] at this
      injection this with this
      rw [this]
      decide) (by decide) rfl rfl (by decide)
  exact ⟨fs', h1, h2⟩

/-- **C55, large files.** For an encrypted file of more than 10 MB the tool exits with 1 and leaves no output file,
unless the contents have a byte between 1 and 16 at the place where reading stops (for a package file, contents
and key mask).  For such a byte, one would have to know that the tool does not meet 32 bytes of the file that
happen to be the MAC of the part before them. -/
theorem c55_large_partial (v : FileToolEnv) (hv : GoodTool v) (fs : Files) (dir outName : Bytes)
    (jobs : List Job) (hP : Complete v.keyLen jobs) (hlib : LibraryAt (v.context fs dir) jobs)
    (hsz : SizesOk (v.context fs dir) jobs) (hne : ∀ k ∈ jobs, k.isPackage → k.plain ≠ []) (j : Job)
    (hj : j ∈ jobs) (content : Bytes) (hfile : fs (dir ++ b!"/" ++ (j.path ++ b!"c")) = some content)
    (hsize : 10 * 1024 * 1024 < content.length) (c : UInt8)
    (hc : (j.plain ++ if j.isPackage then j.mask else [])[10 * 1024 * 1024 - 49]? = some c)
    (hc2 : c = 0 ∨ 16 < c)
    (hl : dir.length + 1 + (j.path ++ b!"c").length < 4096)
    (hw : v.writable outName = true)
    (hout : ∀ k ∈ jobs, outName ≠ dir ++ b!"/" ++ (k.path ++ b!"c")) :
    ∃ fs', decryptFileMain v fs [dir, j.path ++ b!"c", outName] = .ok (1, fs') ∧
      fs' outName = none ∧ ∀ q, q ≠ outName → fs' q = fs q := by
  have hlr := (libRead_iff (e := v.context fs dir) hP).1 hlib
  have hlr1 : LibRead (v.context (fs.set outName (some [])) dir) jobs := by
    intro k hk
    obtain ⟨content, h1, h2⟩ := hlr k hk
    refine ⟨content, ?_, h2⟩
    simp only [FileToolEnv.context, Files.set, Ne.symm (hout k hk), if_false]
    exact h1
  obtain ⟨content', h1, h2⟩ := hlr1 j hj
  have he : GoodEnv (v.context (fs.set outName (some [])) dir) := ⟨hv.1, hv.2.1, hv.2.2⟩
  have h1' : fs.set outName (some []) (dir ++ b!"/" ++ (j.path ++ b!"c")) = some content' := h1
  have hcont : content' = content := by
    have : fs (dir ++ b!"/" ++ (j.path ++ b!"c")) = some content' := by
      rw [← h1']
      simp only [Files.set, Ne.symm (hout j hj), if_false]
    rw [hfile] at this
    exact (Option.some.inj this).symm
  subst hcont
  obtain ⟨t, flag, h5⟩ := demask_found _ he hP hlr1 hsz hne j hj [] (decInv_nil _)
  have hs : snprintf 4096 (dir ++ b!"/" ++ (j.path ++ b!"c")) = dir ++ b!"/" ++ (j.path ++ b!"c") := by
    unfold snprintf
    rw [List.take_of_length_le]
    simp only [List.length_append] at hl ⊢
    simp at hl ⊢; omega
  have hc3 : c.toNat = 0 ∨ 16 < c.toNat := by
    rcases hc2 with rfl | h
    · exact Or.inl rfl
    · exact Or.inr h
  have hcut : decryptBufSize = 48 + 16 * 655357 := by decide
  have h6 := decryptTail_cut _ he t (j.path ++ b!"c") _ _ j.iv _ content' (hP.draws j hj).1 flag h2 655357
    (by decide) (by decide) (by omega) c hc hc3
  have hb : ¬ (content'.take decryptBufSize).length < 48 := by
    rw [List.length_take, hcut]; omega
  have hkey : (v.context (fs.set outName (some [])) dir).key = v.key := rfl
  rw [hkey] at h5
  rw [← hcut] at h6
  refine ⟨fs.set outName none, ?_, by simp [Files.set], fun q hq => by simp only [Files.set, hq, if_false]⟩
  simp only [decryptFileMain, hs, hfile, hw, not_true_eq_false, if_false, h5, Res.bind_ok, h1',
    Option.getD_some, decryptFileMain.decryptTailStatic, hb, h6]
  simp

/-- A package of 11 MB. -/
def bigJob : Job := ⟨[], b!"package.mo", toyIv, toyMask 9, List.replicate 11534336 97⟩

theorem bigJob_complete : Complete (toyTool 9).keyLen [bigJob] where
  names := by
    intro j hj
    rw [List.mem_singleton.1 hj]
    exact ⟨isName_package, fun _ => rfl, fun d hd => by cases hd⟩
  draws := by
    intro j hj
    rw [List.mem_singleton.1 hj]
    exact ⟨(by decide : toyIv.length = 16), (by decide : (toyMask 9).length = 32)⟩
  nodup := by simp
  closed := by
    intro j hj ds hds
    rw [List.mem_singleton.1 hj] at hds
    exact ⟨bigJob, by simp, (List.prefix_nil.1 hds).symm, rfl⟩

/-- Every payload has an encryption. -/
theorem encrypted_exists (C : Crypto) (key macKey iv payload : Bytes) :
    ∃ out, Encrypted C key macKey iv payload out := by
  obtain ⟨bs, r, h1, h2, h3⟩ := exists_blocks payload
  refine ⟨_, bs ++ [r ++ List.replicate (16 - r.length) (UInt8.ofNat (16 - r.length))], 16 - r.length, by omega,
    by omega, ?_, ?_, rfl⟩
  · intro b hb
    rcases List.mem_append.1 hb with hb | hb
    · exact h1 b hb
    · rw [List.mem_singleton.1 hb]; simp; omega
  · rw [← h3]; simp

theorem big_length {a b out : Bytes} (h : out.length = 16 + 16 * ((a ++ b).length / 16 + 1) + 32)
    (ha : a.length = 11534336) : 10 * 1024 * 1024 < out.length := by
  rw [List.length_append, ha] at h
  omega

/-- Non-vacuity: a package of 11 MB cannot be decrypted with the tool. -/
example : ∃ fs fs' : Files, LibraryAt ((toyTool 9).context fs b!"/l") [bigJob] ∧
    decryptFileMain (toyTool 9) fs [b!"/l", b!"package.moc", b!"/out"] = .ok (1, fs') ∧ fs' b!"/out" = none := by
  obtain ⟨out, ho⟩ := encrypted_exists toy (toyTool 9).key ((toyTool 9).key.take 32) bigJob.iv
    (bigJob.plain ++ if bigJob.isPackage then bigJob.mask else [])
  have hlen := encrypted_length toy_good (by decide : toyIv.length = 16) ho
  have hp : bigJob.isPackage := rfl
  have hpl : bigJob.plain.length = 11534336 := List.length_replicate
  let fs : Files := fun q => if q = b!"/l/package.moc" then some out else none
  have hlib : LibraryAt ((toyTool 9).context fs b!"/l") [bigJob] := by
    intro j hj
    rw [List.mem_singleton.1 hj]
    refine ⟨out, (toyTool 9).key, rfl, ?_, ho⟩
    unfold KeyOf
    have hd : bigJob.dirs = [] := rfl
    rw [if_pos hp, if_pos hd]
    rfl
  obtain ⟨fs', h1, h2, -⟩ := c55_large_partial (toyTool 9) (toyTool_good 9) fs b!"/l" b!"/out" [bigJob]
    bigJob_complete hlib
    (by
      intro k hk
      rw [List.mem_singleton.1 hk]
      refine ⟨(by decide : b!"/l".length + 1 + (relPath ([] ++ [b!"package.moc"])).length < 4096), ?_⟩
      rw [hpl]; decide)
    (by
      intro k hk _ h0
      rw [List.mem_singleton.1 hk] at h0
      have h3 := congrArg List.length h0
      rw [hpl] at h3
      exact absurd h3 (by decide))
    bigJob (by simp) out rfl
    (big_length hlen hpl)
    97
    (by
      rw [List.getElem?_append_left (by rw [hpl]; decide)]
      exact List.getElem?_replicate_of_lt (by decide))
    (Or.inr (by decide)) (by decide) rfl
    (by
      intro k hk
      rw [List.mem_singleton.1 hk]
      decide)
  exact ⟨fs, fs', hlib, h1, h2⟩

-- a corrupted file: status 1, and the output file that was there is gone
example : (runOf (decryptFileMain (toyTool 9) (fun q => if q = b!"/out" then some b!"old" else
    (exDisk q).map (fun c => c.dropLast ++ [0])) [b!"/l", b!"package.moc", b!"/out"])).1 = some 1 := by
  decide +kernel

/-- **C55, negation.** With the encrypted file itself as output file the tool never delivers anything,
and destroys the file. -/
theorem c55_same_file_not (v : FileToolEnv) (fs : Files) (dir rel content : Bytes)
    (hl : dir.length + 1 + rel.length < 4096) (hin : fs (dir ++ b!"/" ++ rel) = some content)
    (hw : v.writable (dir ++ b!"/" ++ rel) = true) (status : Nat) (fs' : Files)
    (h : decryptFileMain v fs [dir, rel, dir ++ b!"/" ++ rel] = .ok (status, fs')) :
    status = 1 ∧ fs' (dir ++ b!"/" ++ rel) = none := by
  have hp : snprintf 4096 (dir ++ b!"/" ++ rel) = dir ++ b!"/" ++ rel := by
    unfold snprintf
    rw [List.take_of_length_le]
    simp; omega
  simp only [decryptFileMain, hp, hin, hw, not_true_eq_false, if_false] at h
  rw [Res.bind_eq_ok] at h
  obtain ⟨⟨t, key, flag⟩, -, h⟩ := h
  simp [Files.set, decryptFileMain.decryptTailStatic] at h
  obtain ⟨rfl, rfl⟩ := h
  simp [Files.set]

example : (runOf (decryptFileMain (toyTool 9) exDisk [b!"/l", b!"A/x.moc", b!"/l/A/x.moc"])).1 = some 1 ∧
    (exDisk b!"/l/A/x.moc").isSome := by
  constructor <;> decide +kernel

end Semla.Props
