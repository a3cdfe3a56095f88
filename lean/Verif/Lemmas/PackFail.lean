import Verif.Lemmas.PackManifest
import Verif.Lemmas.PackStaging

/-!
# Lemmas about failing steps of the packaging tool
-/

namespace Semla

open Spec

/-- How the part after the validation of arguments can end. -/
inductive PackOutcome (env : PackEnv) (d : ArgData) (lib tempDir : Bytes) : PackResult → Prop where
  | copy : copyFolderStructure env lib = none → PackOutcome env d lib tempDir ⟨2, none⟩
  | folder {fs1} : copyFolderStructure env lib = some fs1 → createLibraryFolder env lib fs1 = none →
      PackOutcome env d lib tempDir ⟨3, none⟩
  | icon {fs1 fs2} : copyFolderStructure env lib = some fs1 → createLibraryFolder env lib fs1 = some fs2 →
      prepareIconFile env d tempDir lib fs2 = .ok none → PackOutcome env d lib tempDir ⟨4, none⟩
  | vendor {fs1 fs2 icon} : copyFolderStructure env lib = some fs1 → createLibraryFolder env lib fs1 = some fs2 →
      prepareIconFile env d tempDir lib fs2 = .ok (some icon) → copyLVE env d lib fs2 = none →
      PackOutcome env d lib tempDir ⟨5, none⟩
  | extra {fs1 fs2 icon fs3 lves} : copyFolderStructure env lib = some fs1 →
      createLibraryFolder env lib fs1 = some fs2 → prepareIconFile env d tempDir lib fs2 = .ok (some icon) →
      copyLVE env d lib fs2 = some (fs3, lves) → copyExtraFiles env lib fs3 = none →
      PackOutcome env d lib tempDir ⟨6, none⟩
  | encrypt {fs1 fs2 icon fs3 lves fs4 fs5} : copyFolderStructure env lib = some fs1 →
      createLibraryFolder env lib fs1 = some fs2 → prepareIconFile env d tempDir lib fs2 = .ok (some icon) →
      copyLVE env d lib fs2 = some (fs3, lves) → copyExtraFiles env lib fs3 = some fs4 →
      writeManifest env d lib lves icon fs4 = .ok fs5 → encryptFiles env d tempDir lib fs5 = .ok none →
      PackOutcome env d lib tempDir ⟨8, none⟩
  | all {icon lves fs1 fs2 fs3 fs4 fs5 fs6} : PackSteps env d tempDir lib icon lves fs1 fs2 fs3 fs4 fs5 fs6 →
      PackOutcome env d lib tempDir
        ⟨if (createZipArchive env d fs6).2 then 0 else 9, (createZipArchive env d fs6).1⟩

theorem packLibrary_outcome {env : PackEnv} {d : ArgData} {r : PackResult} (h : packLibrary env d = .ok r) :
    ∃ tempDir lib, env.tempDir = some tempDir ∧
      getLibraryName ((getValueOf d b!"librarypath").getD []) = .ok lib ∧ PackOutcome env d lib tempDir r := by
  unfold packLibrary at h
  split at h
  · simp at h
  · rename_i tempDir ht
    rw [Res.bind_eq_ok] at h
    obtain ⟨lib, hl, h⟩ := h
    refine ⟨tempDir, lib, ht, hl, ?_⟩
    dsimp only at h
    split at h
    · rename_i h1
      simp only [Res.ok.injEq] at h
      subst h
      exact .copy h1
    · rename_i fs1 h1
      split at h
      · rename_i h2
        simp only [Res.ok.injEq] at h
        subst h
        exact .folder h1 h2
      · rename_i fs2 h2
        rw [Res.bind_eq_ok] at h
        obtain ⟨ic, hi, h⟩ := h
        cases ic with
        | none =>
          simp only [Res.ok.injEq] at h
          subst h
          exact .icon h1 h2 hi
        | some icon =>
          dsimp only at h
          split at h
          · rename_i h3
            simp only [Res.ok.injEq] at h
            subst h
            exact .vendor h1 h2 hi h3
          · rename_i fs3 lves h3
            split at h
            · rename_i h4
              simp only [Res.ok.injEq] at h
              subst h
              exact .extra h1 h2 hi h3 h4
            · rename_i fs4 h4
              rw [Res.bind_eq_ok] at h
              obtain ⟨fs5, h5, h⟩ := h
              rw [Res.bind_eq_ok] at h
              obtain ⟨r6, h6, h⟩ := h
              cases r6 with
              | none =>
                simp only [Res.ok.injEq] at h
                subst h
                exact .encrypt h1 h2 hi h3 h4 h5 h6
              | some fs6 =>
                simp only [Res.ok.injEq] at h
                subst h
                exact .all ⟨ht, hl, h1, h2, hi, h3, h4, h5, h6⟩

/-! ## The arguments -/

theorem trimSlashes_spec (p : Bytes) : ∃ s, p = s ++ trimSlashes p ∧ (∀ c ∈ s, c = 47 ∨ c = 92) ∧
    (p ≠ [] → trimSlashes p ≠ []) ∧
    ((trimSlashes p).length ≤ 1 ∨ ((trimSlashes p).head? ≠ some 47 ∧ (trimSlashes p).head? ≠ some 92)) := by
  fun_induction trimSlashes p with
  | case1 => exact ⟨[], rfl, by simp, by simp, by simp⟩
  | case2 c => exact ⟨[], rfl, by simp, by simp, by simp⟩
  | case3 c c' cs h ih =>
    obtain ⟨s, h1, h2, h3, h4⟩ := ih
    refine ⟨c :: s, by rw [List.cons_append, ← h1], ?_, fun _ => h3 (by simp), h4⟩
    intro x hx
    rcases List.mem_cons.1 hx with rfl | hx
    · exact h.symm
    · exact h2 x hx
  | case4 c c' cs h =>
    refine ⟨[], rfl, by simp, by simp, Or.inr ?_⟩
    simp only [not_or] at h
    simp only [List.head?_cons, ne_eq, Option.some.injEq]
    exact ⟨h.2, h.1⟩

theorem trimPath_trimmed {p : Bytes} (hp : p ≠ []) : Trimmed p (trimPath p) := by
  obtain ⟨s, h1, h2, h3, h4⟩ := trimSlashes_spec p.reverse
  refine ⟨s.reverse, ?_, fun c hc => h2 c (List.mem_reverse.1 hc), ?_, ?_⟩
  · have := congrArg List.reverse h1
    rwa [List.reverse_reverse, List.reverse_append] at this
  · unfold trimPath
    simp only [ne_eq, List.reverse_eq_nil_iff]
    exact h3 (by simpa using hp)
  · unfold trimPath
    rw [List.length_reverse, List.getLast?_reverse]
    have h5 : trimSlashes p.reverse ≠ [] := h3 (by simpa using hp)
    rcases h4 with h4 | h4
    · left
      have := List.length_pos_iff.2 h5
      omega
    · exact Or.inr h4

theorem trimmed_unique {p t u : Bytes} (ht : Trimmed p t) (hu : Trimmed p u) : t = u := by
  have key : ∀ {t u : Bytes}, Trimmed p t → Trimmed p u → t.length ≤ u.length → t = u := by
    intro t u ⟨s, h1, h2, h3, h4⟩ ⟨s', h1', h2', h3', h4'⟩ hle
    have hpre : t <+: u := List.prefix_of_prefix_length_le (h1 ▸ List.prefix_append _ _)
      (h1' ▸ List.prefix_append _ _) hle
    obtain ⟨w, hw⟩ := hpre
    by_cases hw0 : w = []
    · rw [hw0, List.append_nil] at hw
      exact hw
    · exfalso
      have hs : s = w ++ s' := by
        have : t ++ s = t ++ (w ++ s') := by rw [← h1, ← List.append_assoc, hw, ← h1']
        exact List.append_cancel_left this
      have hlast : ∃ c, u.getLast? = some c ∧ (c = 47 ∨ c = 92) := by
        refine ⟨w.getLast hw0, ?_, ?_⟩
        · rw [← hw, List.getLast?_append, List.getLast?_eq_some_getLast hw0]
          rfl
        · exact h2 _ (by rw [hs]; exact List.mem_append_left _ (List.getLast_mem hw0))
      obtain ⟨c, hc, hc'⟩ := hlast
      have hlen := congrArg List.length hw
      rw [List.length_append] at hlen
      have := List.length_pos_iff.2 h3
      have := List.length_pos_iff.2 hw0
      rcases h4' with h4' | h4'
      · omega
      · rcases hc' with rfl | rfl
        · exact h4'.1 hc
        · exact h4'.2 hc
  rcases Nat.le_total t.length u.length with h | h
  · exact key ht hu h
  · exact (key hu ht h).symm

theorem countLVE_pos (env : PackEnv) :
    countLVE env ≠ 0 ↔ env.exeDir = true ∧ ∃ x ∈ vendorExecutables, env.lve x.1 = true := by
  unfold countLVE
  have hn : lveNames = vendorExecutables.map (·.1) := rfl
  split
  · rename_i he
    rw [← Nat.pos_iff_ne_zero, List.countP_pos_iff, hn]
    simp [he]
  · rename_i he
    simp [he]

/-- The validation accepts what is acceptable. -/
theorem packArguments_iff (env : PackEnv) (args : List Bytes) :
    (∃ d, packArguments env args = .ok (some d)) ↔ Acceptable env args := by
  constructor
  · rintro ⟨d, h⟩
    obtain ⟨d0, h1, h2, h3, h4, h5, h6⟩ := packArguments_ok h
    obtain ⟨ps, hp, hdist⟩ := (Props.c38_accepts args).1 ⟨d0, h1⟩
    have hlook := fun k hk => Props.c38_lookup args d0 h1 ps hp k hk
    refine ⟨ps, hp, hdist, ?_, ?_, ?_, ?_⟩
    · intro k hk
      have hk' : ∀ k ∈ [b!"librarypath", b!"version", b!"language"], k ∈ knownArguments := by decide
      exact (hlook k (hk' k hk)).2.2.1 (List.all_eq_true.1 h2 k hk)
    · intro path t hpath ht
      have hne := argPairs_value hp _ hpath
      rw [trimmed_unique ht (trimPath_trimmed hne)]
      rw [getValueOf_setValue, if_pos rfl, ((hlook _ (by decide)).1 path).1 hpath] at h4
      exact h4
    · intro he
      have hu := (packArguments_encrypts h hp).2 he
      exact (countLVE_pos env).1 fun h0 => h5 ⟨hu, h0⟩
    · intro k hk v hv
      have hk' : ∀ k ∈ [b!"tools", b!"dependencies", b!"icon"], k ∈ knownArguments ∧ k ≠ b!"librarypath" ∧
        k ≠ b!"encrypt" := by decide
      obtain ⟨g1, g2, g3⟩ := hk' k hk
      have := packArguments_get h hp g1 hv
      rw [if_neg g2, if_neg g3] at this
      exact h6 k hk v this
  · rintro ⟨ps, hp, hdist, h2, h4, h5, h6⟩
    obtain ⟨d0, h1⟩ := (Props.c38_accepts args).2 ⟨ps, hp, hdist⟩
    have hlook := fun k hk => Props.c38_lookup args d0 h1 ps hp k hk
    unfold packArguments
    rw [h1, Res.bind_ok]
    dsimp only
    rw [if_neg]
    · rw [if_neg]
      · rw [if_neg]
        · rw [if_pos]
          · exact ⟨_, rfl⟩
          · rw [List.all_eq_true]
            intro k hk
            have hk' : ∀ k ∈ [b!"tools", b!"dependencies", b!"icon"], k ∈ knownArguments ∧ k ≠ b!"librarypath" ∧
              k ≠ b!"encrypt" := by decide
            obtain ⟨g1, g2, g3⟩ := hk' k hk
            rw [getValueOf_setValue, if_neg g3, getValueOf_setValue, if_neg g2]
            cases hv : getValueOf d0 k with
            | none => rfl
            | some v => exact h6 k hk v (((hlook k g1).1 v).2 hv)
        · rintro ⟨g1, g2⟩
          refine (countLVE_pos env).2 (h5 ?_) g2
          rw [usingEncryption_iff, getValueOf_setValue, if_pos rfl, getValueOf_setValue,
            if_neg (by decide)] at g1
          obtain ⟨v, hv1, hv2⟩ := g1
          rw [Option.map_eq_some_iff] at hv1
          obtain ⟨w, hw1, hw2⟩ := hv1
          refine ⟨w, ((hlook _ (by decide)).1 w).2 hw1, ?_⟩
          subst hw2
          unfold eqNoCase stringToLower at hv2
          rw [List.map_map] at hv2
          unfold eqNoCase
          have e : (toLower ∘ toLower) = toLower := funext toLower_toLower
          rwa [e] at hv2
      · intro hn
        obtain ⟨path, hpath⟩ := h2 b!"librarypath" (by decide)
        rw [getValueOf_setValue, if_pos rfl, ((hlook _ (by decide)).1 path).1 hpath] at hn
        exact hn (h4 path _ hpath (trimPath_trimmed (argPairs_value hp _ hpath)))
    · intro hn
      apply hn
      refine List.all_eq_true.2 fun k hk => ?_
      have hk' : ∀ k ∈ [b!"librarypath", b!"version", b!"language"], k ∈ knownArguments := by decide
      exact (hlook k (hk' k hk)).2.2.2 (h2 k hk)

/-! ## Single steps -/

/-- Copying changes only what is in the listing and not in a `.library`. -/
theorem copyEntries_outside (s : Source) (l : Listing) (src dst : List Bytes) (fs : Staged)
    (q : List Bytes) (h : ∀ p ∈ (entries l).map (·.1), Outside p → q ≠ dst ++ p) :
    (copyEntries s l src dst fs).get q = fs.get q := by
  have single : ∀ n : Bytes, n ≠ b!".library" → Outside [n] := by
    intro n hn hm
    exact hn (List.mem_singleton.1 hm).symm
  induction l generalizing src dst fs with
  | done => rfl
  | file n rest ih =>
    have hr : ∀ p ∈ (entries rest).map (·.1), Outside p → q ≠ dst ++ p :=
      fun p hp => h p (List.mem_cons_of_mem _ hp)
    simp only [copyEntries]
    split
    · exact ih _ _ _ hr
    · rename_i hn
      rw [ih _ _ _ hr]
      split
      · exact write_frame _ _ _ _ (h [n] List.mem_cons_self (single n hn))
      · rfl
  | dir n sub rest ih1 ih2 =>
    have hr : ∀ p ∈ (entries rest).map (·.1), Outside p → q ≠ dst ++ p := fun p hp => h p (by
      unfold entries
      rw [List.map_append]
      exact List.mem_append_right _ hp)
    simp only [copyEntries]
    split
    · exact ih2 _ _ _ hr
    · rename_i hn
      rw [ih2 _ _ _ hr, ih1]
      · split
        · exact mkdir_frame _ _ _ (h [n] List.mem_cons_self (single n hn))
        · rfl
      · intro p hp ho
        obtain ⟨e, he, rfl⟩ := List.mem_map.1 hp
        have := h (n :: e.1) (List.mem_map.2 ⟨(n :: e.1, e.2), List.mem_append_left _
          (List.mem_cons_of_mem _ (List.mem_map.2 ⟨e, he, rfl⟩)), rfl⟩) (by
            intro hm
            rcases List.mem_cons.1 hm with hm | hm
            · exact hn hm.symm
            · exact ho hm)
        simpa using this
  | locked n rest ih =>
    have hr : ∀ p ∈ (entries rest).map (·.1), Outside p → q ≠ dst ++ p :=
      fun p hp => h p (List.mem_cons_of_mem _ hp)
    simp only [copyEntries]
    split
    · exact ih _ _ _ hr
    · rename_i hn
      rw [ih _ _ _ hr]
      split
      · exact mkdir_frame _ _ _ (h [n] List.mem_cons_self (single n hn))
      · rfl
  | other n rest ih =>
    have hr : ∀ p ∈ (entries rest).map (·.1), Outside p → q ≠ dst ++ p :=
      fun p hp => h p (List.mem_cons_of_mem _ hp)
    simp only [copyEntries]
    exact ih _ _ _ hr

theorem copyFolderStructure_none (env : PackEnv) (lib : Bytes) (hlib : lib ≠ []) :
    copyFolderStructure env lib = none ↔
      (lib = b!"." ∨ lib = b!"..") ∨ env.mkdirOk [lib] = false ∨ env.library = none := by
  have hm : Staged.empty.mkdir [lib] = some (Staged.empty.set [lib] .dir) := rfl
  unfold copyFolderStructure
  split
  · rename_i h
    simp only [List.mem_cons, hlib, List.not_mem_nil, or_false, false_or, Bool.not_eq_true] at h
    simp only [true_iff]
    rcases h with h | h
    · exact Or.inl h
    · exact Or.inr (Or.inl h)
  · rename_i h
    simp only [List.mem_cons, hlib, List.not_mem_nil, or_false, false_or, Bool.not_eq_true, not_or] at h
    rw [hm]
    unfold copyDirectory
    simp [h.1.1, h.1.2, h.2]

/-- The copy has its top-level directory, and no `.library`. -/
theorem copyFolderStructure_top {env : PackEnv} {lib : Bytes} {fs : Staged}
    (h : copyFolderStructure env lib = some fs) :
    fs.get [lib] = some .dir ∧ ∀ x, fs.get (lib :: b!".library" :: x) = none := by
  unfold copyFolderStructure at h
  split at h
  · simp at h
  · split at h
    · simp at h
    · rename_i fs0 h0
      unfold copyDirectory at h
      rw [Option.map_eq_some_iff] at h
      obtain ⟨l, -, h⟩ := h
      have hg := Staged.get_mkdir h0
      constructor
      · rw [← h, copyEntries_outside, hg, if_pos rfl]
        intro p hp _ he
        obtain ⟨e, hem, rfl⟩ := List.mem_map.1 hp
        have := entries_ne_nil l e hem
        simp only [List.cons_append, List.nil_append, List.cons.injEq, true_and] at he
        exact this he.symm
      · intro x
        rw [← h, copyEntries_outside, hg, if_neg (by simp)]
        · rfl
        · intro p _ ho he
          simp only [List.cons_append, List.nil_append, List.cons.injEq, true_and] at he
          exact ho (he ▸ List.mem_cons_self)

theorem createLibraryFolder_none {env : PackEnv} {lib : Bytes} {fs : Staged}
    (h : copyFolderStructure env lib = some fs) :
    createLibraryFolder env lib fs = none ↔ env.mkdirOk [lib, b!".library"] = false := by
  obtain ⟨h1, h2⟩ := copyFolderStructure_top h
  unfold createLibraryFolder
  cases env.mkdirOk [lib, b!".library"] with
  | false => simp
  | true =>
    simp only [if_true, Bool.true_eq_false, iff_false]
    unfold Staged.mkdir
    rw [if_pos ⟨by simp, h1, h2 []⟩]
    simp

theorem copyLves_none {env : PackEnv} {lib : Bytes} (ns : List Bytes) {fs : Staged}
    (hd : fs.get [lib, b!".library"] = some .dir) (hf : ∀ n, fs.get [lib, b!".library", n] ≠ some .dir) :
    copyLves env lib ns fs = none ↔ ∃ n ∈ ns, env.lve n = true ∧ ∀ c, env.lveCopied n ≠ (some c, true) := by
  induction ns generalizing fs with
  | nil => simp [copyLves]
  | cons n ns ih =>
    unfold copyLves
    split
    · rename_i hn
      split
      · rename_i c hc
        have hw : fs.write [lib, b!".library", n] c = some (fs.set [lib, b!".library", n] (.file c)) := by
          unfold Staged.write
          rw [if_pos ⟨by simp, hd, hf n⟩]
        rw [hw]
        dsimp only
        rw [Option.map_eq_none_iff, ih]
        · constructor
          · rintro ⟨m, h1, h2⟩
            exact ⟨m, List.mem_cons_of_mem _ h1, h2⟩
          · rintro ⟨m, h1, h2, h3⟩
            rcases List.mem_cons.1 h1 with rfl | h1
            · exact absurd hc (h3 c)
            · exact ⟨m, h1, h2, h3⟩
        · rw [Staged.get_set, if_neg (by simp), hd]
        · intro m
          rw [Staged.get_set]
          split
          · simp
          · exact hf m
      · rename_i hc
        simp only [true_iff]
        refine ⟨n, List.mem_cons_self, hn, fun c h => ?_⟩
        exact hc c h
    · rename_i hn
      rw [ih hd hf]
      constructor
      · rintro ⟨m, h1, h2⟩
        exact ⟨m, List.mem_cons_of_mem _ h1, h2⟩
      · rintro ⟨m, h1, h2, h3⟩
        rcases List.mem_cons.1 h1 with rfl | h1
        · exact absurd h2 hn
        · exact ⟨m, h1, h2, h3⟩

theorem copyLVE_none {env : PackEnv} {d : ArgData} {lib : Bytes} {fs1 fs2 : Staged}
    (h1 : copyFolderStructure env lib = some fs1) (h2 : createLibraryFolder env lib fs1 = some fs2)
    (hx : usingEncryption d = true → env.exeDir = true) :
    copyLVE env d lib fs2 = none ↔ usingEncryption d = true ∧
      ∃ x ∈ vendorExecutables, env.lve x.1 = true ∧ ∀ c, env.lveCopied x.1 ≠ (some c, true) := by
  obtain ⟨g1, g2⟩ := copyFolderStructure_top h1
  have hn : lveNames = vendorExecutables.map (·.1) := rfl
  unfold copyLVE
  split
  · rename_i hu
    rw [if_pos (hx hu), copyLves_none, hn]
    · simp [hu]
    · unfold createLibraryFolder at h2
      split at h2
      · rw [Staged.get_mkdir h2, if_pos rfl]
      · simp at h2
    · intro n
      rw [createLibraryFolder_frame h2 _ (by simp), g2 [n]]
      simp
  · rename_i hu
    simp [hu]

theorem copyExtra_none (env : PackEnv) (lib : Bytes) (fs : Staged) :
    copyExtraFiles env lib fs = none ↔ env.exeDir = false ∨ env.extra = some none := by
  unfold copyExtraFiles
  cases env.exeDir with
  | false => simp
  | true =>
    cases h : env.extra with
    | none => simp
    | some l => cases l <;> simp [copyDirectory]

/-- A successful sequence has written to every file. -/
theorem encSeq_write {env : PackEnv} {e : CrEnv} {lib : Bytes} {ps : List (List Bytes)} {s s' : EncState}
    (h : encSeq env e lib ps s = .ok (s', true)) : ∀ p ∈ ps, env.writeOk p 0 = true := by
  induction ps generalizing s with
  | nil => simp
  | cons x ps ih =>
    unfold encSeq at h
    rw [Res.bind_eq_ok] at h
    obtain ⟨⟨s1, ok1⟩, h1, h⟩ := h
    dsimp only at h
    split at h
    · rename_i hok
      subst hok
      intro p hp
      rcases List.mem_cons.1 hp with rfl | hp
      · obtain ⟨content, bad, t, out, -, hcr, -⟩ := encryptOne_ok h1
        unfold crEncrypt at hcr
        split at hcr
        · simp at hcr
        · rename_i hw
          simpa using hw
      · exact ih h p hp
    · simp at h

/-- A successful sequence has met no read error. -/
theorem encSeq_read {env : PackEnv} {e : CrEnv} {lib : Bytes} {ps : List (List Bytes)} {s s' : EncState}
    (h : encSeq env e lib ps s = .ok (s', true)) : ∀ p ∈ ps, env.readError (lib :: p) = true →
    ∀ c, ¬ ∃ fs, KeepsSources fs s.fs ∧ ModelicaName (nameOf p) ∧ fs.get (lib :: p) = some (.file c) ∧ p ≠ [] := by
  induction ps generalizing s with
  | nil => simp
  | cons x ps ih =>
    unfold encSeq at h
    rw [Res.bind_eq_ok] at h
    obtain ⟨⟨s1, ok1⟩, h1, h⟩ := h
    dsimp only at h
    split at h
    · rename_i hok
      intro p hp hr c
      rintro ⟨fs, hk, hm, hg, hne⟩
      rcases List.mem_cons.1 hp with rfl | hp
      · subst hok
        unfold encryptOne at h1
        split at h1
        · simp at h1
        · rename_i content bad ho
          have hb : bad = true := by
            unfold PackEnv.openRead at ho
            split at ho
            · have : s.fs.get (lib :: p) = some (.file c) := by
                rw [hk _ (by rw [nameOf_cons _ hne]; exact hm), hg]
              rw [this] at ho
              simp only [Option.some.injEq, Prod.mk.injEq] at ho
              rw [← ho.2, hr]
            · simp at ho
          dsimp only at h1
          split at h1
          · simp at h1
          · rw [Res.bind_eq_ok] at h1
            obtain ⟨⟨t, bytes, ok⟩, h2, h1⟩ := h1
            simp only [Res.ok.injEq, Prod.mk.injEq] at h1
            rw [h1.2] at h2
            have := (crEncrypt_success h2).1
            rw [hb] at this
            simp at this
      · exact ih h p hp hr c ⟨fs, hk.one h1, hm, hg, hne⟩
    · simp only [Res.ok.injEq, Prod.mk.injEq] at h
      simp at h

/-- If adding to the archive succeeds, every file could be added. -/
theorem zipEntries_adds {env : PackEnv} {enc : Bool} {fs : Staged} (l : Listing) (dir : List Bytes)
    (hok : (zipEntries env enc fs l dir).2 = true) :
    ∀ f ∈ (zipEntries env enc fs l dir).1, env.zipAdds f.1 = true := by
  induction l generalizing dir with
  | done => simp [zipEntries]
  | file n rest ih =>
    unfold zipEntries at hok ⊢
    split
    · rename_i h1
      rw [if_pos h1] at hok
      split
      · rename_i c hc
        rw [hc] at hok
        dsimp only at hok
        split
        · rename_i ha
          rw [if_pos ha] at hok
          intro f hf
          rcases List.mem_cons.1 hf with rfl | hf
          · exact ha
          · exact ih dir hok f hf
        · simp
      · simp
    · rename_i h1
      rw [if_neg h1] at hok
      exact ih dir hok
  | dir n sub rest ih1 ih2 =>
    unfold zipEntries at hok ⊢
    dsimp only at hok ⊢
    split
    · rename_i h1
      rw [if_pos h1] at hok
      intro f hf
      rcases List.mem_append.1 hf with hf | hf
      · exact ih1 _ h1 f hf
      · exact ih2 _ hok f hf
    · rename_i h1
      rw [if_neg h1] at hok
      simp at hok
  | locked n rest ih => simp [zipEntries]
  | other n rest ih =>
    unfold zipEntries at hok ⊢
    exact ih dir hok

/-- With a true listing, adding to the archive fails only if a file cannot be added. -/
theorem zipEntries_fails {env : PackEnv} {enc : Bool} {fs : Staged} (l : Listing) (dir : List Bytes)
    (hs : ∀ e ∈ entries l, (fs.get (dir ++ e.1)).map kindOf = some e.2)
    (hok : (zipEntries env enc fs l dir).2 = false) :
    ∃ p, p ≠ [] ∧ fs.get p ≠ none ∧ env.zipAdds p = false := by
  induction l generalizing dir with
  | done => simp [zipEntries] at hok
  | file n rest ih =>
    have hr : ∀ e ∈ entries rest, (fs.get (dir ++ e.1)).map kindOf = some e.2 :=
      fun e he => hs e (List.mem_cons_of_mem _ he)
    unfold zipEntries at hok
    split at hok
    · split at hok
      · rename_i c hg
        dsimp only at hok
        split at hok
        · exact ih dir hr hok
        · rename_i ha
          exact ⟨dir ++ [n], by simp, by rw [hg]; simp, by simpa using ha⟩
      · rename_i hc
        have := hs ([n], Kind.file) List.mem_cons_self
        dsimp only at this
        cases hg : fs.get (dir ++ [n]) with
        | none =>
          rw [hg] at this
          simp at this
        | some x =>
          cases x with
          | dir =>
            rw [hg] at this
            simp [kindOf] at this
          | file c => exact absurd hg (hc c)
    · exact ih dir hr hok
  | dir n sub rest ih1 ih2 =>
    have hr : ∀ e ∈ entries rest, (fs.get (dir ++ e.1)).map kindOf = some e.2 :=
      fun e he => hs e (List.mem_append_right _ he)
    have hsub : ∀ e ∈ entries sub, (fs.get ((dir ++ [n]) ++ e.1)).map kindOf = some e.2 := by
      intro e he
      have := hs (n :: e.1, e.2) (List.mem_append_left _ (List.mem_cons_of_mem _ (List.mem_map.2 ⟨e, he, rfl⟩)))
      simpa using this
    unfold zipEntries at hok
    dsimp only at hok
    split at hok
    · exact ih2 dir hr hok
    · rename_i h1
      exact ih1 _ hsub (by simpa using h1)
  | locked n rest ih =>
    have := hs ([n], Kind.locked) List.mem_cons_self
    dsimp only at this
    cases hg : fs.get (dir ++ [n]) with
    | none =>
      rw [hg] at this
      simp at this
    | some x =>
      rw [hg] at this
      cases x <;> simp [kindOf] at this
  | other n rest ih =>
    have hr : ∀ e ∈ entries rest, (fs.get (dir ++ e.1)).map kindOf = some e.2 :=
      fun e he => hs e (List.mem_cons_of_mem _ he)
    unfold zipEntries at hok
    exact ih dir hr hok

/-- The staged copy of a library: files are files of the library. -/
theorem staged_file {env : PackEnv} {lib : Bytes} {fs1 fs2 : Staged} {l : Listing} {content : List Bytes → Bytes}
    (h1 : copyFolderStructure env lib = some fs1) (h2 : createLibraryFolder env lib fs1 = some fs2)
    (hl : env.library = some l) (hc : Copyable env.librarySource l content) (q : List Bytes) (hq : q ≠ []) :
    (∃ c, fs2.get (lib :: q) = some (.file c)) ↔ (q, Kind.file) ∈ entries l ∧ Outside q := by
  obtain ⟨c1, c2, c3, c5⟩ := copyFolderStructure_spec h1 hl hc
  by_cases hlibq : q = [b!".library"]
  · subst hlibq
    constructor
    · rintro ⟨c, hg⟩
      unfold createLibraryFolder at h2
      split at h2
      · rw [Staged.get_mkdir h2, if_pos rfl] at hg
        simp at hg
      · simp at h2
    · rintro ⟨-, ho⟩
      exact absurd List.mem_cons_self ho
  · rw [createLibraryFolder_frame h2 _ (by simpa using hlibq)]
    constructor
    · rintro ⟨c, hg⟩
      have hmem : q ∈ (entries l).map (·.1) := by
        apply Decidable.byContradiction
        intro hn
        rw [c1 (lib :: q) (fun p' hp' he => hn (by simp only [List.cons.injEq, true_and] at he; rwa [he]))
          (by simp) (by simpa using hq)] at hg
        simp at hg
      have ho : Outside q := by
        apply Decidable.byContradiction
        intro hn
        rw [c5 q hmem hn] at hg
        simp at hg
      obtain ⟨⟨q', k⟩, he, hqq⟩ := List.mem_map.1 hmem
      simp only at hqq
      subst hqq
      rcases hc.kinds _ he with hk | hk
      · simp only at hk
        subst hk
        exact ⟨he, ho⟩
      · simp only at hk
        subst hk
        rw [c3 _ he ho] at hg
        simp at hg
    · rintro ⟨g1, g2⟩
      exact ⟨_, c2 q g1 g2⟩

theorem lastName_after (v : Bytes) : LastName v (afterLastSlash v) := by
  have h : v = (v.reverse.dropWhile (· ≠ 47)).reverse ++ afterLastSlash v := by
    unfold afterLastSlash
    rw [← List.reverse_append, List.takeWhile_append_dropWhile, List.reverse_reverse]
  refine ⟨_, h, ?_, ?_⟩
  · unfold afterLastSlash
    intro hm
    have := List.all_eq_true.1 (List.all_takeWhile (l := v.reverse) (p := (· ≠ 47))) _ (List.mem_reverse.1 hm)
    simp at this
  · rw [List.getLast?_reverse]
    cases hd : v.reverse.dropWhile (· ≠ 47) with
    | nil => exact Or.inl rfl
    | cons c cs =>
      have := List.head?_dropWhile_not (p := fun c : UInt8 => decide (c ≠ 47)) v.reverse
      rw [hd] at this
      right
      simpa using this

/-- Looking for the icon fails only if it is not there. -/
theorem prepareIcon_none {env : PackEnv} {d : ArgData} {lib tempDir : Bytes} {fs1 fs2 : Staged} {l : Listing}
    {content : List Bytes → Bytes} (h1 : copyFolderStructure env lib = some fs1)
    (h2 : createLibraryFolder env lib fs1 = some fs2) (hl : env.library = some l)
    (hc : Copyable env.librarySource l content) (hw : ∀ l, env.iconWalk fs2 = some l → Shows l [lib] fs2)
    (ht : TempName tempDir) (h4 : 4 ≤ (env.tmpVar.getD b!"/tmp").length)
    (h25 : (env.tmpVar.getD b!"/tmp").length ≤ 25) (h : prepareIconFile env d tempDir lib fs2 = .ok none) :
    ∃ v, getValueOf d b!"icon" = some v ∧ (env.iconWalk fs2 = none ∨
      ¬ (([afterLastSlash v], Kind.file) ∈ entries l ∧ Outside [afterLastSlash v])) := by
  unfold prepareIconFile at h
  split at h
  · simp at h
  · rename_i v hv
    refine ⟨v, hv, ?_⟩
    cases hi : env.iconWalk fs2 with
    | none => exact Or.inl rfl
    | some il =>
      right
      intro hmem
      obtain ⟨c, hg⟩ := (staged_file h1 h2 hl hc [afterLastSlash v] (by simp)).2 hmem
      obtain ⟨-, s2, s3⟩ := hw _ hi
      have hin : ([afterLastSlash v], Kind.file) ∈ entries il := by
        have := s3 _ (Staged.mem_of_get hg) ⟨[afterLastSlash v], rfl⟩ (by simp)
        obtain ⟨⟨q, k⟩, e1, e2⟩ := List.mem_map.1 this
        simp only [List.length_cons, List.length_nil, Nat.zero_add, List.drop_succ_cons, List.drop_zero] at e2
        subst e2
        have := s2 _ e1
        simp only [List.cons_append, List.nil_append, hg, Option.map_some, kindOf, Option.some.injEq] at this
        rw [this]
        exact e1
      have hf := (findFile_found (afterLastSlash v) il [lib] none).2 hin
      have hs := findFile_some (afterLastSlash v) il [lib] none hf
      unfold locateIconFile at h
      rw [hi] at h
      dsimp only at h
      generalize hr : findFile (afterLastSlash v) il [lib] none = r at *
      obtain ⟨r1, r2⟩ := r
      simp only at hf hs
      subst hf
      cases r1 with
      | none => exact hs rfl
      | some p =>
        dsimp only at h
        have hp : joinPath p ≠ [] := by
          rcases findFile_path (afterLastSlash v) il [lib] none p (by rw [hr]) with hp | ⟨q, rfl, hq, -⟩
          · simp at hp
          · have := entries_ne_nil il _ hq
            cases q with
            | nil => exact absurd rfl this
            | cons a q => simp [joinPath]
        rw [cleanUp_eq ht h4 h25 hp] at h
        simp at h

/-- Looking for the icon succeeds only if it is there. -/
theorem prepareIcon_some {env : PackEnv} {d : ArgData} {lib tempDir : Bytes} {fs1 fs2 : Staged} {l : Listing}
    {content : List Bytes → Bytes} (h1 : copyFolderStructure env lib = some fs1)
    (h2 : createLibraryFolder env lib fs1 = some fs2) (hl : env.library = some l)
    (hc : Copyable env.librarySource l content) (hw : ∀ l, env.iconWalk fs2 = some l → Shows l [lib] fs2)
    {icon : Option Bytes} (h : prepareIconFile env d tempDir lib fs2 = .ok (some icon)) {v : Bytes}
    (hv : getValueOf d b!"icon" = some v) :
    ([afterLastSlash v], Kind.file) ∈ entries l ∧ Outside [afterLastSlash v] := by
  unfold prepareIconFile at h
  rw [hv] at h
  dsimp only at h
  split at h
  · simp at h
  · rename_i p hp
    unfold locateIconFile at hp
    split at hp
    · simp at hp
    · rename_i il hi
      split at hp
      · rename_i p' hf
        have hin := (findFile_found (afterLastSlash v) il [lib] none).1 (by rw [hf])
        obtain ⟨-, s2, -⟩ := hw _ hi
        have := s2 _ hin
        apply (staged_file h1 h2 hl hc [afterLastSlash v] (by simp)).1
        simp only [List.cons_append, List.nil_append] at this
        cases hg : fs2.get [lib, afterLastSlash v] with
        | none =>
          rw [hg] at this
          simp at this
        | some n =>
          cases n with
          | dir =>
            rw [hg] at this
            simp [kindOf] at this
          | file c => exact ⟨c, rfl⟩
      · simp at hp

theorem usingEncryption_exe {env : PackEnv} {args : List Bytes} {d : ArgData}
    (h : packArguments env args = .ok (some d)) (hu : usingEncryption d = true) : env.exeDir = true := by
  obtain ⟨d0, -, -, -, -, h1, -⟩ := packArguments_ok h
  cases he : env.exeDir with
  | true => rfl
  | false =>
    refine absurd ⟨hu, ?_⟩ h1
    unfold countLVE
    simp [he]

/-- Making the archive works only if everything in it can be added. -/
theorem createZip_ok {env : PackEnv} {d : ArgData} {fs : Staged} (h : (createZipArchive env d fs).2 = true) :
    env.zipOpens = true ∧ ∃ l, env.zipWalk fs = some l ∧
      (zipEntries env (usingEncryption d) fs l []).2 = true := by
  unfold createZipArchive at h
  split at h
  · rename_i ho
    refine ⟨ho, ?_⟩
    cases hw : env.zipWalk fs with
    | none =>
      rw [hw] at h
      simp at h
    | some l =>
      rw [hw] at h
      exact ⟨l, rfl, h⟩
  · simp at h

theorem createZip_fails {env : PackEnv} {d : ArgData} {fs : Staged} (hw : ∀ l, env.zipWalk fs = some l → Shows l [] fs)
    (h : (createZipArchive env d fs).2 = false) :
    env.zipOpens = false ∨ env.zipWalk fs = none ∨ ∃ p, p ≠ [] ∧ fs.get p ≠ none ∧ env.zipAdds p = false := by
  unfold createZipArchive at h
  split at h
  · right
    cases hz : env.zipWalk fs with
    | none => exact Or.inl rfl
    | some l =>
      rw [hz] at h
      right
      exact zipEntries_fails l [] (fun e he => (hw l hz).2.1 e he) h
  · rename_i ho
    left
    simpa using ho

/-- A file that goes into the archive can be added to it. -/
theorem createZip_added {env : PackEnv} {d : ArgData} {fs : Staged} (hw : ∀ l, env.zipWalk fs = some l → Shows l [] fs)
    (h : (createZipArchive env d fs).2 = true) {p : List Bytes} (hp : p ≠ []) {c : Bytes}
    (hg : fs.get p = some (.file c)) (hm : usingEncryption d = true → ¬ ModelicaName (nameOf p)) :
    env.zipAdds p = true := by
  obtain ⟨-, l, hl, hok⟩ := createZip_ok h
  obtain ⟨c', -, h7⟩ := zipEntries_complete l [] hok p (shows_mem (hw l hl) hp hg) hm
  exact zipEntries_adds l [] hok _ h7

/-- Whatever is wrong, the run does not get past it. -/
theorem trouble_stops {env : PackEnv} {args : List Bytes} {d : ArgData}
    (hd : packArguments env args = .ok (some d)) {ps : List (Bytes × Bytes)} (hp : ArgPairs args ps)
    {lib tempDir : Bytes} (hlib : lib ≠ []) {l : Listing} (hl : env.library = none ∨ env.library = some l)
    {content : List Bytes → Bytes} (hc : Copyable env.librarySource l content) (ht : Truthful env lib)
    (hpk : PlainPackages l) (hcl : NoClash l) (hr : ∀ p, env.canRead (lib :: p) = true)
    {r : PackResult} (h : PackOutcome env d lib tempDir r) {k : Nat} (hk : Trouble env ps lib l k) :
    r.code ≠ 0 ∧ r.code ≤ k := by
  have henc := packArguments_encrypts hd hp
  have hicon : ∀ v, (b!"icon", v) ∈ ps → getValueOf d b!"icon" = some v := by
    intro v hv
    rw [packArguments_get hd hp (by decide) hv, if_neg (by decide), if_neg (by decide)]
  have lib_some : ∀ {fs1}, copyFolderStructure env lib = some fs1 → env.library = some l := by
    intro fs1 h1
    rcases hl with hl | hl
    · rw [(copyFolderStructure_none env lib hlib).2 (Or.inr (Or.inr hl))] at h1
      simp at h1
    · exact hl
  have no_icon : ∀ {fs1 fs2 icon v n}, copyFolderStructure env lib = some fs1 →
      createLibraryFolder env lib fs1 = some fs2 → prepareIconFile env d tempDir lib fs2 = .ok (some icon) →
      (b!"icon", v) ∈ ps → LastName v n → ¬ (([n], Kind.file) ∈ entries l ∧ Outside [n]) → False := by
    intro fs1 fs2 icon v n h1 h2 h3 hv hn hx
    rw [← lastName_eq hn] at hx
    exact hx (prepareIcon_some h1 h2 (lib_some h1) hc (fun l' hl' => ht.icon fs2 l' hl') h3 (hicon v hv))
  have no_vendor : ∀ {fs1 fs2 fs3 lves} {x : Bytes × Bytes}, copyFolderStructure env lib = some fs1 →
      createLibraryFolder env lib fs1 = some fs2 → copyLVE env d lib fs2 = some (fs3, lves) →
      AsksEncryption ps → x ∈ vendorExecutables → env.lve x.1 = true →
      (∀ c, env.lveCopied x.1 ≠ (some c, true)) → False := by
    intro fs1 fs2 fs3 lves x h1 h2 h3 ha hx hlx hbad
    rw [(copyLVE_none h1 h2 (usingEncryption_exe hd)).2 ⟨henc.2 ha, x, hx, hlx, hbad⟩] at h3
    simp at h3
  cases hk with
  | name hx =>
    have hn := (copyFolderStructure_none env lib hlib).2 (Or.inl hx)
    cases h with
    | copy => simp
    | folder h1 | icon h1 | vendor h1 | extra h1 | encrypt h1 => rw [hn] at h1; simp at h1
    | all hs => exact absurd hs.copy (by rw [hn]; simp)
  | stage hx =>
    have hn := (copyFolderStructure_none env lib hlib).2 (Or.inr (Or.inl hx))
    cases h with
    | copy => simp
    | folder h1 | icon h1 | vendor h1 | extra h1 | encrypt h1 => rw [hn] at h1; simp at h1
    | all hs => exact absurd hs.copy (by rw [hn]; simp)
  | source hx =>
    have hn := (copyFolderStructure_none env lib hlib).2 (Or.inr (Or.inr hx))
    cases h with
    | copy => simp
    | folder h1 | icon h1 | vendor h1 | extra h1 | encrypt h1 => rw [hn] at h1; simp at h1
    | all hs => exact absurd hs.copy (by rw [hn]; simp)
  | folder hx =>
    cases h with
    | copy => simp
    | folder => simp
    | icon h1 h2 | vendor h1 h2 | extra h1 h2 | encrypt h1 h2 =>
      rw [(createLibraryFolder_none h1).2 hx] at h2
      simp at h2
    | all hs => exact absurd hs.folder (by rw [(createLibraryFolder_none hs.copy).2 hx]; simp)
  | icon hv hn hx =>
    cases h with
    | copy => simp
    | folder => simp
    | icon => simp
    | vendor h1 h2 h3 | extra h1 h2 h3 | encrypt h1 h2 h3 => exact (no_icon h1 h2 h3 hv hn hx).elim
    | all hs => exact (no_icon hs.copy hs.folder hs.iconDone hv hn hx).elim
  | iconWalk hv hx =>
    have no : ∀ fs2 icon, prepareIconFile env d tempDir lib fs2 ≠ .ok (some icon) := by
      intro fs2 icon h3
      unfold prepareIconFile locateIconFile at h3
      rw [hicon _ hv, hx] at h3
      simp at h3
    cases h with
    | copy => simp
    | folder => simp
    | icon => simp
    | vendor _ _ h3 | extra _ _ h3 | encrypt _ _ h3 => exact absurd h3 (no _ _)
    | all hs => exact absurd hs.iconDone (no _ _)
  | vendor ha hx hlx hbad =>
    cases h with
    | copy => simp
    | folder => simp
    | icon => simp
    | vendor => simp
    | extra h1 h2 _ h3 | encrypt h1 h2 _ h3 => exact (no_vendor h1 h2 h3 ha hx hlx hbad).elim
    | all hs => exact (no_vendor hs.copy hs.folder hs.lveDone ha hx hlx hbad).elim
  | exe hx =>
    cases h with
    | copy => simp
    | folder => simp
    | icon => simp
    | vendor => simp
    | extra => simp
    | encrypt _ _ _ _ h4 =>
      rw [(copyExtra_none _ _ _).2 (Or.inl hx)] at h4
      simp at h4
    | all hs => exact absurd hs.extra (by rw [(copyExtra_none _ _ _).2 (Or.inl hx)]; simp)
  | extra hx =>
    cases h with
    | copy => simp
    | folder => simp
    | icon => simp
    | vendor => simp
    | extra => simp
    | encrypt _ _ _ _ h4 =>
      rw [(copyExtra_none _ _ _).2 (Or.inr hx)] at h4
      simp at h4
    | all hs => exact absurd hs.extra (by rw [(copyExtra_none _ _ _).2 (Or.inr hx)]; simp)
  | @encrypt p ha hsrc hx =>
    cases h with
    | copy => simp
    | folder => simp
    | icon => simp
    | vendor => simp
    | extra => simp
    | encrypt => simp
    | @all icon lves fs1 fs2 fs3 fs4 fs5 fs6 hs =>
      have hpkd := packed_of hs (lib_some hs.copy) hc
      rw [henc.2 ha] at hpkd
      obtain ⟨hm1, hm2, hm3⟩ := hsrc
      have hv := hpkd.visited (fun l' hl' => ht.encrypt fs5 l' hl') hpk hr p hm1 hm2 hm3
      obtain ⟨-, s, hseq, -⟩ := hpkd.done rfl
      exact (encSeq_read hseq p hv hx _ ⟨fs5, fun _ _ => rfl, hm3, hpkd.source p hm1 hm2,
        entries_ne_nil l _ hm1⟩).elim
  | encryptWalk ha hx =>
    cases h with
    | copy => simp
    | folder => simp
    | icon => simp
    | vendor => simp
    | extra => simp
    | encrypt => simp
    | @all icon lves fs1 fs2 fs3 fs4 fs5 fs6 hs =>
      have hpkd := packed_of hs (lib_some hs.copy) hc
      rw [henc.2 ha] at hpkd
      have := (hpkd.done rfl).1
      unfold allVisits at this
      rw [hx] at this
      simp at this
  | @write p ha hsrc hx =>
    cases h with
    | copy => simp
    | folder => simp
    | icon => simp
    | vendor => simp
    | extra => simp
    | encrypt => simp
    | @all icon lves fs1 fs2 fs3 fs4 fs5 fs6 hs =>
      have hpkd := packed_of hs (lib_some hs.copy) hc
      rw [henc.2 ha] at hpkd
      obtain ⟨hm1, hm2, hm3⟩ := hsrc
      have hv := hpkd.visited (fun l' hl' => ht.encrypt fs5 l' hl') hpk hr p hm1 hm2 hm3
      obtain ⟨-, s, hseq, -⟩ := hpkd.done rfl
      exact absurd (encSeq_write hseq p hv) (by rw [hx]; simp)
  | zipWalk hx =>
    cases h with
    | copy => simp
    | folder => simp
    | icon => simp
    | vendor => simp
    | extra => simp
    | encrypt => simp
    | @all icon lves fs1 fs2 fs3 fs4 fs5 fs6 hs =>
      dsimp only
      split
      · rename_i hz
        obtain ⟨-, l', hl', -⟩ := createZip_ok hz
        rw [hx] at hl'
        simp at hl'
      · simp
  | zip hx =>
    cases h with
    | copy => simp
    | folder => simp
    | icon => simp
    | vendor => simp
    | extra => simp
    | encrypt => simp
    | @all icon lves fs1 fs2 fs3 fs4 fs5 fs6 hs =>
      dsimp only
      split
      · rename_i hz
        rw [(createZip_ok hz).1] at hx
        simp at hx
      · simp
  | @add p hf ho hm hx =>
    cases h with
    | copy => simp
    | folder => simp
    | icon => simp
    | vendor => simp
    | extra => simp
    | encrypt => simp
    | @all icon lves fs1 fs2 fs3 fs4 fs5 fs6 hs =>
      dsimp only
      split
      · rename_i hz
        have hpkd := packed_of hs (lib_some hs.copy) hc
        have hg := hpkd.stays (fun l' hl' => (ht.encrypt fs5 l' hl').1) p hf ho
          (fun _ q hq hmq => hcl q p hq hmq hf) hc.kinds
        rw [createZip_added (fun l' hl' => ht.zip fs6 l' hl') hz (by simp) hg (fun hu hmod => hm ⟨henc.1 hu, by
          rwa [nameOf_cons _ (entries_ne_nil l _ hf)] at hmod⟩)] at hx
        simp at hx
      · simp
  | @addTwin p hsrc ha hx =>
    cases h with
    | copy => simp
    | folder => simp
    | icon => simp
    | vendor => simp
    | extra => simp
    | encrypt => simp
    | @all icon lves fs1 fs2 fs3 fs4 fs5 fs6 hs =>
      dsimp only
      split
      · rename_i hz
        have hpkd := packed_of hs (lib_some hs.copy) hc
        rw [henc.2 ha] at hpkd
        obtain ⟨hm1, hm2, hm3⟩ := hsrc
        have hv := hpkd.visited (fun l' hl' => ht.encrypt fs5 l' hl') hpk hr p hm1 hm2 hm3
        obtain ⟨-, s, hseq, hs6⟩ := hpkd.done rfl
        obtain ⟨outs, -, -, h4, -⟩ := encSeq_jobs fs5 hseq (fun _ _ => rfl) (allVisits_mem env lib fs5)
          (allVisits_nodup env lib fs5 fun l' hl' => (ht.encrypt fs5 l' hl').1)
        have key : ∀ {ps : List (List Bytes)} {os : List (Bytes × Bytes)} {R : List Bytes → Bytes × Bytes → Prop},
            List.Forall₂ R ps os → ∀ p ∈ ps, ∃ o, R p o := by
          intro ps os R hR
          induction hR with
          | nil => simp
          | cons h _ ih =>
            intro p hp
            rcases List.mem_cons.1 hp with rfl | hp
            · exact ⟨_, h⟩
            · exact ih p hp
        obtain ⟨o, -, hg⟩ := key h4 p hv
        rw [hs6] at hg
        have := createZip_added (fun l' hl' => ht.zip fs6 l' hl') hz (by simp) hg (fun _ hmod => by
          rw [nameOf_encryptedPath] at hmod
          exact not_modelica_append_c _ hmod)
        rw [twin_eq, this] at hx
        simp at hx
      · simp

/-! ## Encryption that fails -/

/-- Without locked directories all entries are looked at. -/
theorem visits_end (o : List Bytes → Bool) (l : Listing) (dir : List Bytes)
    (h : ∀ e ∈ entries l, e.2 ≠ .locked) : (visits o l dir).2 = true := by
  induction l generalizing dir with
  | done => rfl
  | file n rest ih =>
    have := ih dir fun e he => h e (by simp [entries, he])
    unfold visits
    split
    · exact this
    · split <;> exact this
  | dir n sub rest ih1 ih2 =>
    have h1 := ih1 (dir ++ [n]) fun e he => by
      have := h (n :: e.1, e.2) (by
        simp only [entries, List.cons_append, List.mem_cons, List.mem_append, List.mem_map]
        exact Or.inr (Or.inl ⟨e, he, rfl⟩))
      exact this
    have h2 := ih2 dir fun e he => h e (by simp [entries, he])
    unfold visits
    split
    · exact h2
    · simp only [h1, if_true]
      exact h2
  | locked n rest ih =>
    exact absurd rfl (h ([n], .locked) (by simp [entries]))
  | other n rest ih =>
    have := ih dir fun e he => h e (by simp [entries, he])
    unfold visits
    exact this

/-- If a sequence fails that could be encrypted, a file cannot be read or written. -/
theorem encSeq_fails {env : PackEnv} {e : CrEnv} {lib : Bytes} (fs : Staged) {ps : List (List Bytes)}
    {s s' : EncState} (h : encSeq env e lib ps s = .ok (s', false)) (hk : KeepsSources fs s.fs)
    (hps : ∀ p ∈ ps, p ≠ [] ∧ ModelicaName (nameOf p) ∧ ∃ c, fs.get (lib :: p) = some (.file c))
    {outs : List (Bytes × Bytes)} (ho : encryptAll e s.table (ps.map (jobOf env lib fs)) = .ok (some outs)) :
    ∃ p ∈ ps, env.readError (lib :: p) = true ∨ ∃ n, env.writeOk p n = false := by
  induction ps generalizing s outs with
  | nil => simp [encSeq] at h
  | cons p ps ih =>
    refine Classical.byContradiction fun hno => ?_
    have hread : env.readError (lib :: p) = false := by
      cases hr : env.readError (lib :: p) with
      | false => rfl
      | true => exact absurd ⟨p, List.mem_cons_self, Or.inl hr⟩ hno
    have hwrite : env.writeOk p = fun _ => true := by
      funext n
      cases hw : env.writeOk p n with
      | true => rfl
      | false => exact absurd ⟨p, List.mem_cons_self, Or.inr ⟨n, hw⟩⟩ hno
    obtain ⟨hne, hm, c, hc⟩ := hps p List.mem_cons_self
    have hjob : jobOf env lib fs p = ⟨p.dropLast, nameOf p, env.iv p, env.mask p, c⟩ := by
      unfold jobOf
      rw [hc]
    unfold encSeq at h
    rw [Res.bind_eq_ok] at h
    obtain ⟨⟨s1, ok1⟩, h1, h⟩ := h
    obtain ⟨content, bad, t, out, hop, hcr, hs1⟩ := encryptOne_ok h1
    have hcb : content = c ∧ bad = false := by
      unfold PackEnv.openRead at hop
      rw [hk (lib :: p) (by rw [nameOf_cons lib hne]; exact hm), hc] at hop
      split at hop
      · simp only [Option.some.injEq, Prod.mk.injEq] at hop
        exact ⟨hop.1.symm, by rw [← hop.2, hread]⟩
      · simp at hop
    obtain ⟨rfl, rfl⟩ := hcb
    rw [hwrite] at hcr
    rw [List.map_cons, encryptAll, jobOf_path env lib fs hne, hjob] at ho
    dsimp only at ho h
    rw [hcr, Res.bind_ok] at ho
    dsimp only at ho
    split at ho
    · rename_i hok
      subst hok
      rw [if_pos rfl] at h
      rw [Res.bind_eq_ok] at ho
      obtain ⟨r, hr, ho⟩ := ho
      cases r with
      | none => simp at ho
      | some outs' =>
        have ht : s1.table = t := by rw [hs1]
        obtain ⟨q, hq, hx⟩ := ih h (hk.one h1) (fun q hq => hps q (List.mem_cons_of_mem _ hq))
          (by rw [ht]; exact hr)
        exact hno ⟨q, List.mem_cons_of_mem _ hq, hx⟩
    · simp at ho

/-- Modelica names in the staging directory before the encryption are those of the library. -/
theorem PackPrep.entry {env : PackEnv} {d : ArgData} {tempDir lib : Bytes} {icon : Option Bytes}
    {lves : List Bytes} {fs1 fs2 fs3 fs4 fs5 : Staged}
    (h : PackPrep env d tempDir lib icon lves fs1 fs2 fs3 fs4 fs5) (hx : PlainExtras env) {l : Listing}
    {content : List Bytes → Bytes} (hl : env.library = some l) (hc : Copyable env.librarySource l content)
    (p : List Bytes) (hp : p ≠ []) (hm : ModelicaName (nameOf p)) (hg : fs5.get (lib :: p) ≠ none) :
    ∃ k, (p, k) ∈ entries l ∧ (k = .file → fs5.get (lib :: p) = some (.file (content p))) := by
  obtain ⟨c1, c2, c3, c4⟩ := copyFolderStructure_spec h.copy hl hc
  rw [h.modelica hx _ (by rw [nameOf_cons _ hp]; exact hm)] at hg ⊢
  have hmem : p ∈ (entries l).map (·.1) := by
    apply Decidable.byContradiction
    intro hn
    exact hg (c1 (lib :: p) (fun p' hp' he => hn (by simp only [List.cons.injEq, true_and] at he; rwa [he]))
      (by simp) (by simpa using hp))
  have ho : Outside p := by
    apply Decidable.byContradiction
    intro hn
    exact hg (c4 p hmem hn)
  obtain ⟨⟨p', k⟩, he, hpp⟩ := List.mem_map.1 hmem
  simp only at hpp
  subst hpp
  exact ⟨k, he, fun hk => by subst hk; exact c2 _ he ho⟩

/-- The files visited are the sources of the library. -/
theorem PackPrep.sources {env : PackEnv} {d : ArgData} {tempDir lib : Bytes} {icon : Option Bytes}
    {lves : List Bytes} {fs1 fs2 fs3 fs4 fs5 : Staged}
    (h : PackPrep env d tempDir lib icon lves fs1 fs2 fs3 fs4 fs5) (hx : PlainExtras env) {l : Listing}
    {content : List Bytes → Bytes} (hl : env.library = some l) (hc : Copyable env.librarySource l content)
    (hpk : PlainPackages l) (hw : ∀ l, env.encryptWalk fs5 = some l → ShowsOld l [lib] fs5)
    (p : List Bytes) (hp : p ∈ (allVisits env lib fs5).1) :
    p ≠ [] ∧ IsSource l p ∧ fs5.get (lib :: p) = some (.file (content p)) := by
  obtain ⟨hne, hm⟩ := allVisits_mem env lib fs5 p hp
  have hfile : ∃ c, fs5.get (lib :: p) = some (.file c) := by
    have pkg : ∀ ds, opens env lib fs5 ds = true →
        ∃ c, fs5.get (lib :: (ds ++ [b!"package.mo"])) = some (.file c) := by
      intro ds ho
      obtain ⟨k, h1, h2⟩ := h.entry hx hl hc (ds ++ [b!"package.mo"]) (by simp)
        (by rw [nameOf_append]; exact modelica_package) ((opens_iff ..).1 ho).2
      exact ⟨_, h2 (hpk _ h1 (by rw [nameOf_append]; decide)).2⟩
    have pkg' : ∀ ds, ∀ q ∈ pkgPath (opens env lib fs5) ds, ∃ c, fs5.get (lib :: q) = some (.file c) := by
      intro ds q hq
      unfold pkgPath at hq
      split at hq
      · rename_i ho
        simp only [List.mem_singleton] at hq
        subst hq
        exact pkg ds ho
      · simp at hq
    unfold allVisits at hp
    split at hp
    · rename_i wl hwl
      rcases List.mem_append.1 hp with hp | hp
      · exact pkg' [] p hp
      · obtain ⟨q, h1, h2, h3⟩ := visits_mem _ wl [] p hp
        simp only [List.nil_append] at h1
        subst h1
        rcases h3 with ⟨h3, h4, -⟩ | ⟨ds, -, h4, h5, -⟩
        · rcases (hw wl hwl).2.1 _ h3 with h5 | h5
          · rw [Option.map_eq_some_iff] at h5
            obtain ⟨n, h6, h7⟩ := h5
            cases n with
            | dir => simp [kindOf] at h7
            | file c => exact ⟨c, h6⟩
          · exact absurd hm h5.2
        · rw [h4]
          exact pkg ds (by simpa using h5)
    · exact pkg' [] p hp
  obtain ⟨c, hc'⟩ := hfile
  obtain ⟨g1, g2, g3⟩ := h.library hx hl hc p hne hm c hc'
  exact ⟨hne, ⟨g1, g2, hm⟩, g3 ▸ hc'⟩

/-- The order in which the files of a library are encrypted. -/
theorem PackPrep.packagesFirst {env : PackEnv} {d : ArgData} {tempDir lib : Bytes} {icon : Option Bytes}
    {lves : List Bytes} {fs1 fs2 fs3 fs4 fs5 : Staged}
    (h : PackPrep env d tempDir lib icon lves fs1 fs2 fs3 fs4 fs5) {l : Listing} (he : Encryptable env l)
    {content : List Bytes → Bytes} (hl : env.library = some l) (hc : Copyable env.librarySource l content)
    (hpk : PlainPackages l) (hg : GoodCrypto env)
    (hw : ∀ l, env.encryptWalk fs5 = some l → ShowsOld l [lib] fs5)
    (hr : ∀ p, env.canRead (lib :: p) = true) :
    PackagesFirst env.keyLen ((allVisits env lib fs5).1.map (jobOf env lib fs5)) := by
  have hsrc := h.sources he.extras hl hc hpk hw
  refine ⟨?_, ?_, ?_, ?_⟩
  · intro j hj
    obtain ⟨p, hp, rfl⟩ := List.mem_map.1 hj
    obtain ⟨hne, hs, -⟩ := hsrc p hp
    have hnm : nameOf p ∈ p := by
      rw [show p = p.dropLast ++ [nameOf p] from (dropLast_nameOf hne).symm, nameOf_append]
      simp
    refine ⟨he.names _ hs _ hnm, ?_, ?_⟩
    · intro hq
      exact (hpk _ hs.1 (by rw [eqNoCase_comm]; exact hq)).1
    · intro x hx
      have hxd : x ∈ p.dropLast := hx
      obtain ⟨u, v, huv⟩ := List.mem_iff_append.1 hxd
      have hp' : p = (u ++ [x]) ++ (v ++ [nameOf p]) := by
        conv => lhs; rw [← dropLast_nameOf hne, huv]
        simp
      have hdir := entries_above l p (List.mem_map.2 ⟨_, hs.1, rfl⟩) _ _ hp' (by simp) (by simp)
      refine ⟨he.names _ hs _ (List.dropLast_subset _ hxd), ?_⟩
      intro hq
      have := (hpk _ hdir (by rw [nameOf_append, eqNoCase_comm]; exact hq)).2
      simp at this
  · intro j hj
    obtain ⟨p, hp, rfl⟩ := List.mem_map.1 hj
    exact ⟨hg.iv p, hg.mask p⟩
  · rw [List.map_map]
    refine nodup_of_map (fun x : List Bytes × Bytes => x.1 ++ [x.2]) _ ?_
    rw [List.map_map]
    have : (allVisits env lib fs5).1.map ((fun x : List Bytes × Bytes => x.1 ++ [x.2]) ∘
        ((fun j : Job => (j.dirs, j.name)) ∘ jobOf env lib fs5)) = (allVisits env lib fs5).1 := by
      conv => rhs; rw [← List.map_id (allVisits env lib fs5).1]
      exact List.map_congr_left fun p hp => dropLast_nameOf (hsrc p hp).1
    rw [this]
    exact allVisits_nodup env lib fs5 fun l' hl' => (hw l' hl').1
  · intro before j after hj k hk hkp hkd hkj
    obtain ⟨b1, b2, hb, rfl, hb2⟩ := List.map_eq_append_iff.1 hj
    obtain ⟨p, b3, rfl, rfl, rfl⟩ := List.map_eq_cons_iff.1 hb2
    obtain ⟨q, hq, rfl⟩ := List.mem_map.1 hk
    have hp : p ∈ (allVisits env lib fs5).1 := by rw [hb]; simp
    obtain ⟨hne, hs, -⟩ := hsrc p hp
    obtain ⟨hqne, hqs, hqg⟩ := hsrc q hq
    have hqn : nameOf q = b!"package.mo" := hkp
    have hqq : q.dropLast ++ [b!"package.mo"] = q := by
      have := dropLast_nameOf hqne
      rwa [hqn] at this
    have hkd' : q.dropLast <+: p.dropLast := hkd
    obtain ⟨r, hr'⟩ := hkd'
    have := allVisits_ordered env lib fs5 b1 p b3 hb q.dropLast (r ++ [nameOf p]) (by simp)
      (by rw [← List.append_assoc, hr', dropLast_nameOf hne]) (by
        intro heq
        have hr0 : r = [] ∧ nameOf p = b!"package.mo" := by
          cases r with
          | nil => simpa using heq
          | cons x r => simp at heq
        refine hkj ?_
        rw [hr0.1, List.append_nil] at hr'
        rw [show q = p by rw [← dropLast_nameOf hqne, ← dropLast_nameOf hne, hr', hr0.2, hqn]])
      ((opens_iff ..).2 ⟨hr _, by
        rw [List.cons_append, hqq, hqg]
        simp⟩)
    rw [hqq] at this
    exact List.mem_map.2 ⟨_, this, rfl⟩

/-- Reasons for the encryption to fail. -/
theorem PackPrep.encryptFails {env : PackEnv} {d : ArgData} {tempDir lib : Bytes} {icon : Option Bytes}
    {lves : List Bytes} {fs1 fs2 fs3 fs4 fs5 : Staged}
    (h : PackPrep env d tempDir lib icon lves fs1 fs2 fs3 fs4 fs5) {l : Listing} (he : Encryptable env l)
    {content : List Bytes → Bytes} (hl : env.library = some l) (hc : Copyable env.librarySource l content)
    (hpk : PlainPackages l) (hg : GoodCrypto env)
    (hw : ∀ l, env.encryptWalk fs5 = some l → ShowsOld l [lib] fs5)
    (hr : ∀ p, env.canRead (lib :: p) = true) (hx : encryptFiles env d tempDir lib fs5 = .ok none)
    (hu : usingEncryption d = true) :
    env.encryptWalk fs5 = none ∨
      ∃ p, IsSource l p ∧ (env.readError (lib :: p) = true ∨ ∃ n, env.writeOk p n = false) := by
  unfold encryptFiles at hx
  rw [if_pos hu, Res.bind_eq_ok] at hx
  obtain ⟨⟨s, ok⟩, h1, hx⟩ := hx
  rw [encryptDirectory_eq, Res.bind_eq_ok] at h1
  obtain ⟨⟨s', ok'⟩, h2, h1⟩ := h1
  simp only [Res.ok.injEq, Prod.mk.injEq] at h1 hx
  obtain ⟨-, h1⟩ := h1
  have hok : ok = false := by
    cases ok with
    | false => rfl
    | true => simp at hx
  rw [hok] at h1
  cases hwalk : env.encryptWalk fs5 with
  | none => exact Or.inl rfl
  | some wl =>
    right
    have hend : (allVisits env lib fs5).2 = true := by
      unfold allVisits
      rw [hwalk]
      refine visits_end _ wl [] fun e hm => ?_
      rcases (hw wl hwalk).2.1 e hm with hk | hk
      · rw [Option.map_eq_some_iff] at hk
        obtain ⟨n, -, hk⟩ := hk
        rw [← hk]
        cases n <;> simp [kindOf]
      · rw [hk.1]
        simp
    rw [hend, Bool.and_true] at h1
    subst h1
    have hsrc := h.sources he.extras hl hc hpk hw
    have hge : GoodEnv (env.context tempDir lib) := ⟨hg.crypto, hg.key, hg.keyLen⟩
    obtain ⟨outs, ho, -⟩ := encryptAll_loose (env.context tempDir lib) hge
      (jobs := (allVisits env lib fs5).1.map (jobOf env lib fs5))
      (h.packagesFirst he hl hc hpk hg hw hr) (by
        intro j hj
        obtain ⟨p, hp, rfl⟩ := List.mem_map.1 hj
        exact he.short p (hsrc p hp).2.1) _ [] rfl [] (looseInv_nil _ _)
    obtain ⟨p, hp, hx⟩ := encSeq_fails fs5 h2 (fun _ _ => rfl)
      (fun p hp => ⟨(hsrc p hp).1, (hsrc p hp).2.1.2.2, _, (hsrc p hp).2.2⟩) ho
    exact ⟨p, (hsrc p hp).2.1, hx⟩

/-- A run that fails has a reason to. -/
theorem outcome_reason {env : PackEnv} {args : List Bytes} {d : ArgData}
    (hd : packArguments env args = .ok (some d)) {ps : List (Bytes × Bytes)} (hp : ArgPairs args ps)
    {lib tempDir : Bytes} (hlib : lib ≠ []) {l : Listing} (hl : env.library = none ∨ env.library = some l)
    {content : List Bytes → Bytes} (hc : Copyable env.librarySource l content) (ht : Truthful env lib)
    (htemp : TempName tempDir) (h4 : 4 ≤ (env.tmpVar.getD b!"/tmp").length)
    (h25 : (env.tmpVar.getD b!"/tmp").length ≤ 25) (hpk : PlainPackages l)
    (hr : ∀ p, env.canRead (lib :: p) = true) (hg : AsksEncryption ps → GoodCrypto env)
    {r : PackResult} (h : PackOutcome env d lib tempDir r)
    (hcode : r.code ≠ 0) : Trouble env ps lib l r.code ∨ StagingTrouble env ps lib l r.code := by
  have henc := packArguments_encrypts hd hp
  cases h with
  | copy h1 =>
    left
    rcases (copyFolderStructure_none env lib hlib).1 h1 with hx | hx | hx
    · exact .name hx
    · exact .stage hx
    · exact .source hx
  | folder h1 h2 => exact Or.inl (.folder ((createLibraryFolder_none h1).1 h2))
  | @icon fs1 fs2 h1 h2 h3 =>
    have hl' : env.library = some l := by
      rcases hl with hl | hl
      · rw [(copyFolderStructure_none env lib hlib).2 (Or.inr (Or.inr hl))] at h1
        simp at h1
      · exact hl
    obtain ⟨v, hv, hx⟩ := prepareIcon_none h1 h2 hl' hc (fun l' hl' => ht.icon fs2 l' hl') htemp h4 h25 h3
    have hvp : (b!"icon", v) ∈ ps := by
      rw [getValueOf_argOf hd hp (by decide) (by decide) (by decide)] at hv
      unfold argOf at hv
      rw [Option.map_eq_some_iff] at hv
      obtain ⟨⟨k, v'⟩, hf, rfl⟩ := hv
      have h1 := List.mem_of_find?_eq_some hf
      have h2 := List.find?_some hf
      simp only [decide_eq_true_eq] at h2
      rw [← h2]
      exact h1
    rcases hx with hx | hx
    · exact Or.inr (.icon hvp (createLibraryFolder_tree (copyFolderStructure_tree h1) h2) hx)
    · exact Or.inl (.icon hvp (lastName_after v) hx)
  | vendor h1 h2 _ h3 =>
    obtain ⟨hu, x, hx1, hx2, hx3⟩ := (copyLVE_none h1 h2 (usingEncryption_exe hd)).1 h3
    exact Or.inl (.vendor (henc.1 hu) hx1 hx2 hx3)
  | extra _ _ _ _ h5 =>
    rcases (copyExtra_none _ _ _).1 h5 with hx | hx
    · exact Or.inl (.exe hx)
    · exact Or.inl (.extra hx)
  | @encrypt fs1 fs2 icon fs3 lves fs4 fs5 h1 h2 h3 h4 h5 h5' h6 =>
    have hu : usingEncryption d = true := by
      cases hu : usingEncryption d with
      | true => rfl
      | false =>
        unfold encryptFiles at h6
        rw [if_neg (by simp [hu])] at h6
        simp at h6
    have ha := henc.1 hu
    by_cases hen : Encryptable env l
    · have hl' : env.library = some l := by
        rcases hl with hl | hl
        · rw [(copyFolderStructure_none env lib hlib).2 (Or.inr (Or.inr hl))] at h1
          simp at h1
        · exact hl
      have hprep : PackPrep env d tempDir lib icon lves fs1 fs2 fs3 fs4 fs5 := ⟨h1, h2, h3, h4, h5, h5'⟩
      rcases hprep.encryptFails hen hl' hc hpk (hg ha) (ht.encrypt fs5) hr h6 hu with hx | ⟨p, hs, hx | ⟨n, hx⟩⟩
      · exact Or.inr (.encryptWalk ha hprep.tree hx)
      · exact Or.inl (.encrypt ha hs hx)
      · exact Or.inr (.encryptWrite ha hs hx)
    · exact Or.inr (.encryptNames ha hen)
  | @all icon lves fs1 fs2 fs3 fs4 fs5 fs6 hs =>
    dsimp only at hcode ⊢
    split
    · rename_i hz
      rw [if_pos hz] at hcode
      exact absurd rfl hcode
    · rename_i hz
      rcases createZip_fails (fun l' hl' => ht.zip fs6 l' hl') (by simpa using hz) with hx | hx | ⟨p, hne, hget, hx⟩
      · exact Or.inl (.zip hx)
      · exact Or.inr (.zip hs.tree hx)
      · rcases hs.tree.only p (by
          cases hgp : fs6.get p with
          | none => exact absurd hgp hget
          | some n => exact Staged.mem_of_get hgp) with h0 | ⟨q, rfl⟩
        · exact absurd h0 hne
        · exact Or.inr (.add hx)

end Semla
