import Verif.Lemmas.PackEnc
import Verif.Lemmas.PackArgs
import Verif.Lemmas.Manifest
import Verif.Props.PackArgs

/-! # Lemmas: runs of the packaging tool -/

namespace Semla

open Spec

/-! ## Arguments -/

theorem getValueOf_setValue (d : ArgData) (k k' : Bytes) (f : Bytes → Bytes) :
    getValueOf (setValue d k f) k' = if k' = k then (getValueOf d k).map f else getValueOf d k' := by
  induction d with
  | nil => simp [setValue, getValueOf]
  | cons a d ih =>
    obtain ⟨x, v⟩ := a
    unfold setValue
    by_cases hx : x = k
    · subst hx
      rw [if_pos rfl]
      simp only [getValueOf, if_true]
      by_cases hk : k' = x
      · simp [hk]
      · have hk' : ¬ x = k' := fun h => hk h.symm
        simp [hk, hk']
    · rw [if_neg hx]
      simp only [getValueOf]
      rw [ih]
      by_cases hk : k' = k
      · subst hk
        simp [hx]
      · simp only [hk, if_false]

/-- What the validation leaves. -/
theorem packArguments_ok {env : PackEnv} {args : List Bytes} {d : ArgData}
    (h : packArguments env args = .ok (some d)) :
    ∃ d0, validateArguments args = .ok (some d0) ∧ validateMandatory d0 = true ∧
      d = setValue (setValue d0 b!"librarypath" trimPath) b!"encrypt" stringToLower ∧
      env.isDir ((getValueOf (setValue d0 b!"librarypath" trimPath) b!"librarypath").getD []) = true ∧
      ¬ (usingEncryption d = true ∧ countLVE env = 0) ∧
      ∀ k ∈ [b!"tools", b!"dependencies", b!"icon"], ∀ v, getValueOf d k = some v → env.fileExists v = true := by
  unfold packArguments at h
  rw [Res.bind_eq_ok] at h
  obtain ⟨r, h1, h⟩ := h
  cases r with
  | none => simp at h
  | some d0 =>
    dsimp only at h
    split at h
    · simp at h
    · rename_i hm
      split at h
      · simp at h
      · rename_i hd
        split at h
        · simp at h
        · rename_i he
          split at h
          · rename_i hf
            simp only [Res.ok.injEq, Option.some.injEq] at h
            subst h
            refine ⟨d0, h1, by simpa using hm, rfl, by simpa using hd, he, ?_⟩
            intro k hk v hv
            have := List.all_eq_true.1 hf k hk
            rw [hv] at this
            exact this
          · simp at h

/-- The values of the arguments after the validation. -/
theorem packArguments_get {env : PackEnv} {args : List Bytes} {d : ArgData}
    (h : packArguments env args = .ok (some d)) {ps : List (Bytes × Bytes)} (hp : ArgPairs args ps)
    {k v : Bytes} (hk : k ∈ knownArguments) (hv : (k, v) ∈ ps) :
    getValueOf d k = some (if k = b!"librarypath" then trimPath v else
      if k = b!"encrypt" then stringToLower v else v) := by
  obtain ⟨d0, h1, -, h2, -⟩ := packArguments_ok h
  have h3 := ((Props.c38_lookup args d0 h1 ps hp k hk).1 v).1 hv
  rw [h2, getValueOf_setValue, getValueOf_setValue, getValueOf_setValue]
  by_cases e1 : k = b!"encrypt"
  · subst e1
    have : b!"encrypt" ≠ b!"librarypath" := by decide
    simp [h3, this]
  · by_cases e2 : k = b!"librarypath"
    · subst e2
      simp [h3, e1]
    · simp [h3, e1, e2]

theorem packArguments_none {env : PackEnv} {args : List Bytes} {d : ArgData}
    (h : packArguments env args = .ok (some d)) {ps : List (Bytes × Bytes)} (hp : ArgPairs args ps)
    {k : Bytes} (hk : k ∈ knownArguments) (hv : ∀ v, (k, v) ∉ ps) : getValueOf d k = none := by
  obtain ⟨d0, h1, -, h2, -⟩ := packArguments_ok h
  have h3 := (Props.c38_lookup args d0 h1 ps hp k hk).2.1.2 hv
  rw [h2, getValueOf_setValue, getValueOf_setValue, getValueOf_setValue]
  by_cases e1 : k = b!"encrypt"
  · subst e1
    have : b!"encrypt" ≠ b!"librarypath" := by decide
    simp [h3, this]
  · by_cases e2 : k = b!"librarypath"
    · subst e2
      simp [h3, e1]
    · simp [h3, e1, e2]

theorem toLower_toLower (c : UInt8) : toLower (toLower c) = toLower c := by
  have h : ∀ n : Fin 256, toLower (toLower (UInt8.ofNat n.val)) = toLower (UInt8.ofNat n.val) := by
    decide +kernel
  have := h ⟨c.toNat, c.toNat_lt⟩
  simpa using this

theorem packArguments_encrypts {env : PackEnv} {args : List Bytes} {d : ArgData}
    (h : packArguments env args = .ok (some d)) {ps : List (Bytes × Bytes)} (hp : ArgPairs args ps) :
    usingEncryption d = true ↔ ∃ v, (b!"encrypt", v) ∈ ps ∧ eqNoCase v b!"true" = true := by
  have hk : b!"encrypt" ∈ knownArguments := by decide
  have hne : b!"encrypt" ≠ b!"librarypath" := by decide
  rw [usingEncryption_iff]
  unfold Encrypts
  constructor
  · rintro ⟨v, h1, h2⟩
    by_cases hex : ∃ w, (b!"encrypt", w) ∈ ps
    · obtain ⟨w, hw⟩ := hex
      have := packArguments_get h hp hk hw
      rw [if_neg hne, if_pos rfl, h1, Option.some.injEq] at this
      refine ⟨w, hw, ?_⟩
      subst this
      unfold eqNoCase stringToLower at h2
      rw [List.map_map] at h2
      unfold eqNoCase
      have e : (toLower ∘ toLower) = toLower := funext toLower_toLower
      rwa [e] at h2
    · rw [packArguments_none h hp hk fun v hv => hex ⟨v, hv⟩] at h1
      simp at h1
  · rintro ⟨w, hw, h2⟩
    have := packArguments_get h hp hk hw
    rw [if_neg hne, if_pos rfl] at this
    refine ⟨_, this, ?_⟩
    unfold eqNoCase stringToLower
    rw [List.map_map]
    unfold eqNoCase at h2
    have e : (toLower ∘ toLower) = toLower := funext toLower_toLower
    rwa [e]

theorem trimSlashes_append (s x : Bytes) (hs : ∀ c ∈ s, c = 47 ∨ c = 92) (hx : x ≠ [])
    (hh : x.head? ≠ some 47 ∧ x.head? ≠ some 92) : trimSlashes (s ++ x) = x := by
  induction s with
  | nil =>
    match x, hx, hh with
    | [c], _, _ => rfl
    | c :: c' :: cs, _, hh =>
      simp only [List.nil_append, trimSlashes]
      rw [if_neg]
      rintro (h | h)
      · exact hh.2 (by simp [h])
      · exact hh.1 (by simp [h])
  | cons c s ih =>
    have hc := hs c List.mem_cons_self
    have ih := ih fun c hc => hs c (List.mem_cons_of_mem _ hc)
    cases h : s ++ x with
    | nil =>
      have := (List.append_eq_nil_iff.1 h).2
      exact absurd this hx
    | cons y r =>
      rw [List.cons_append, h, trimSlashes, if_pos hc.symm, ← h]
      exact ih

/-- The name of the library. -/
theorem getLibraryName_of {path lib : Bytes} (h : LibraryName path lib) :
    getLibraryName (trimPath path) = .ok lib := by
  obtain ⟨a, s, rfl, hs, hne, h47, h92, ha⟩ := h
  have ht : trimPath (a ++ lib ++ s) = a ++ lib := by
    unfold trimPath
    rw [List.reverse_append, trimSlashes_append, List.reverse_reverse]
    · intro c hc
      exact hs c (List.mem_reverse.1 hc)
    · simp [hne]
    · have e : (a ++ lib).reverse.head? = lib.getLast? := by
        rw [List.head?_reverse, List.getLast?_append, List.getLast?_eq_some_getLast hne]
        rfl
      rw [e]
      refine ⟨fun h => h47 (List.mem_of_getLast? h), h92⟩
  rw [ht]
  unfold getLibraryName
  rw [if_neg]
  · congr 1
    unfold afterLastSlash
    rw [List.reverse_append]
    have h1 : ∀ c ∈ lib.reverse, decide (c ≠ 47) = true := by
      intro c hc
      simp only [decide_eq_true_eq]
      rintro rfl
      exact h47 (List.mem_reverse.1 hc)
    rw [List.takeWhile_append_of_pos h1]
    rcases ha with rfl | ha
    · simp
    · rw [← List.head?_reverse] at ha
      cases hr : a.reverse with
      | nil => simp
      | cons c r =>
        rw [hr] at ha
        simp only [List.head?_cons, Option.some.injEq] at ha
        simp [ha]
  · intro h
    have hl : 0 < lib.length := List.length_pos_iff.2 hne
    have := congrArg List.length h
    simp at this
    have ha0 : a = [] := List.length_eq_zero_iff.1 (by omega)
    rw [ha0, List.nil_append] at h
    exact h47 (by rw [h]; simp)

/-! ## The steps -/

/-- A run that gets to the archive. -/
structure PackSteps (env : PackEnv) (d : ArgData) (tempDir lib : Bytes) (icon : Option Bytes)
    (lves : List Bytes) (fs1 fs2 fs3 fs4 fs5 fs6 : Staged) : Prop where
  temp : env.tempDir = some tempDir
  name : getLibraryName ((getValueOf d b!"librarypath").getD []) = .ok lib
  copy : copyFolderStructure env lib = some fs1
  folder : createLibraryFolder env lib fs1 = some fs2
  iconDone : prepareIconFile env d tempDir lib fs2 = .ok (some icon)
  lveDone : copyLVE env d lib fs2 = some (fs3, lves)
  extra : copyExtraFiles env lib fs3 = some fs4
  manifest : writeManifest env d lib lves icon fs4 = .ok fs5
  encrypt : encryptFiles env d tempDir lib fs5 = .ok (some fs6)

/-- A run that gets to the encryption. -/
structure PackPrep (env : PackEnv) (d : ArgData) (tempDir lib : Bytes) (icon : Option Bytes)
    (lves : List Bytes) (fs1 fs2 fs3 fs4 fs5 : Staged) : Prop where
  copy : copyFolderStructure env lib = some fs1
  folder : createLibraryFolder env lib fs1 = some fs2
  iconDone : prepareIconFile env d tempDir lib fs2 = .ok (some icon)
  lveDone : copyLVE env d lib fs2 = some (fs3, lves)
  extra : copyExtraFiles env lib fs3 = some fs4
  manifest : writeManifest env d lib lves icon fs4 = .ok fs5

theorem PackSteps.prep {env : PackEnv} {d : ArgData} {tempDir lib : Bytes} {icon : Option Bytes}
    {lves : List Bytes} {fs1 fs2 fs3 fs4 fs5 fs6 : Staged}
    (h : PackSteps env d tempDir lib icon lves fs1 fs2 fs3 fs4 fs5 fs6) :
    PackPrep env d tempDir lib icon lves fs1 fs2 fs3 fs4 fs5 :=
  ⟨h.copy, h.folder, h.iconDone, h.lveDone, h.extra, h.manifest⟩

theorem packLibrary_steps {env : PackEnv} {d : ArgData} {r : PackResult} (h : packLibrary env d = .ok r) :
    (∃ tempDir lib icon lves fs1 fs2 fs3 fs4 fs5 fs6,
      PackSteps env d tempDir lib icon lves fs1 fs2 fs3 fs4 fs5 fs6 ∧
      r = ⟨if (createZipArchive env d fs6).2 then 0 else 9, (createZipArchive env d fs6).1⟩) ∨
    (r.archive = none ∧ r.code ∈ [2, 3, 4, 5, 6, 8]) := by
  unfold packLibrary at h
  split at h
  · simp at h
  · rename_i tempDir ht
    rw [Res.bind_eq_ok] at h
    obtain ⟨lib, hl, h⟩ := h
    dsimp only at h
    split at h
    · simp only [Res.ok.injEq] at h
      subst h
      exact Or.inr ⟨rfl, by simp⟩
    · rename_i fs1 h1
      split at h
      · simp only [Res.ok.injEq] at h
        subst h
        exact Or.inr ⟨rfl, by simp⟩
      · rename_i fs2 h2
        rw [Res.bind_eq_ok] at h
        obtain ⟨ic, hi, h⟩ := h
        cases ic with
        | none =>
          simp only [Res.ok.injEq] at h
          subst h
          exact Or.inr ⟨rfl, by simp⟩
        | some icon =>
          dsimp only at h
          split at h
          · simp only [Res.ok.injEq] at h
            subst h
            exact Or.inr ⟨rfl, by simp⟩
          · rename_i fs3 lves h3
            split at h
            · simp only [Res.ok.injEq] at h
              subst h
              exact Or.inr ⟨rfl, by simp⟩
            · rename_i fs4 h4
              rw [Res.bind_eq_ok] at h
              obtain ⟨fs5, h5, h⟩ := h
              rw [Res.bind_eq_ok] at h
              obtain ⟨r6, h6, h⟩ := h
              cases r6 with
              | none =>
                simp only [Res.ok.injEq] at h
                subst h
                exact Or.inr ⟨rfl, by simp⟩
              | some fs6 =>
                simp only [Res.ok.injEq] at h
                exact Or.inl ⟨tempDir, lib, icon, lves, fs1, fs2, fs3, fs4, fs5, fs6,
                  ⟨ht, hl, h1, h2, hi, h3, h4, h5, h6⟩, h.symm⟩

theorem packTool_steps {env : PackEnv} {args : List Bytes} {r : PackResult} (h : packTool env args = .ok r) :
    (∃ d tempDir lib icon lves fs1 fs2 fs3 fs4 fs5 fs6, packArguments env args = .ok (some d) ∧
      helpRequested args = false ∧
      PackSteps env d tempDir lib icon lves fs1 fs2 fs3 fs4 fs5 fs6 ∧
      r = ⟨if (createZipArchive env d fs6).2 then 0 else 9, (createZipArchive env d fs6).1⟩) ∨
    (r.archive = none ∧ r.code ∈ [1, 2, 3, 4, 5, 6, 8]) ∨ (helpRequested args = true ∧ r = ⟨0, none⟩) := by
  unfold packTool at h
  split at h
  · simp only [Res.ok.injEq] at h
    subst h
    exact Or.inr (Or.inl ⟨rfl, by simp⟩)
  · split at h
    · rename_i hh
      simp only [Res.ok.injEq] at h
      exact Or.inr (Or.inr ⟨hh, h.symm⟩)
    · rename_i hh
      rw [Res.bind_eq_ok] at h
      obtain ⟨o, hd, h⟩ := h
      cases o with
      | none =>
        simp only [Res.ok.injEq] at h
        subst h
        exact Or.inr (Or.inl ⟨rfl, by simp⟩)
      | some d =>
        dsimp only at h
        rcases packLibrary_steps h with ⟨tempDir, lib, icon, lves, fs1, fs2, fs3, fs4, fs5, fs6, h1, h2⟩ | ⟨h1, h2⟩
        · exact Or.inl ⟨d, tempDir, lib, icon, lves, fs1, fs2, fs3, fs4, fs5, fs6, hd, by simpa using hh, h1, h2⟩
        · refine Or.inr (Or.inl ⟨h1, ?_⟩)
          exact List.mem_cons_of_mem _ h2

/-! ## The archive -/

theorem zipEntries_mem {env : PackEnv} {enc : Bool} {fs : Staged} (l : Listing) (dir : List Bytes)
    (p : List Bytes) (c : Bytes) (h : (p, c) ∈ (zipEntries env enc fs l dir).1) :
    fs.get p = some (.file c) ∧ ∃ q, p = dir ++ q ∧ (q, Kind.file) ∈ entries l ∧
      (enc = true → ¬ ModelicaName (nameOf p)) := by
  induction l generalizing dir with
  | done => simp [zipEntries] at h
  | file n rest ih =>
    unfold zipEntries at h
    split at h
    · rename_i hc
      split at h
      · rename_i c' hget
        split at h
        · simp only [List.mem_cons, Prod.mk.injEq] at h
          rcases h with ⟨rfl, rfl⟩ | h
          · refine ⟨hget, [n], rfl, List.mem_cons_self, fun he hm => ?_⟩
            rw [nameOf_append, ← isModelicaFile_iff] at hm
            rcases hc with hc | hc
            · exact hc he
            · exact hc hm
          · obtain ⟨h1, q, h2, h3, h4⟩ := ih dir h
            exact ⟨h1, q, h2, List.mem_cons_of_mem _ h3, h4⟩
        · simp at h
      · simp at h
    · obtain ⟨h1, q, h2, h3, h4⟩ := ih dir h
      exact ⟨h1, q, h2, List.mem_cons_of_mem _ h3, h4⟩
  | dir n sub rest ih1 ih2 =>
    unfold zipEntries at h
    dsimp only at h
    have hs : (p, c) ∈ (zipEntries env enc fs sub (dir ++ [n])).1 →
        fs.get p = some (.file c) ∧ ∃ q, p = dir ++ q ∧ (q, Kind.file) ∈ entries (.dir n sub rest) ∧
        (enc = true → ¬ ModelicaName (nameOf p)) := by
      intro h
      obtain ⟨h1, q, h2, h3, h4⟩ := ih1 (dir ++ [n]) h
      exact ⟨h1, n :: q, by simp [h2], List.mem_append_left _ (List.mem_cons_of_mem _
        (List.mem_map.2 ⟨_, h3, rfl⟩)), h4⟩
    split at h
    · rcases List.mem_append.1 h with h | h
      · exact hs h
      · obtain ⟨h1, q, h2, h3, h4⟩ := ih2 dir h
        exact ⟨h1, q, h2, List.mem_append_right _ h3, h4⟩
    · exact hs h
  | locked n rest ih => simp [zipEntries] at h
  | other n rest ih =>
    unfold zipEntries at h
    obtain ⟨h1, q, h2, h3, h4⟩ := ih dir h
    exact ⟨h1, q, h2, List.mem_cons_of_mem _ h3, h4⟩

theorem zipEntries_complete {env : PackEnv} {enc : Bool} {fs : Staged} (l : Listing) (dir : List Bytes)
    (hok : (zipEntries env enc fs l dir).2 = true) (q : List Bytes) (hq : (q, Kind.file) ∈ entries l)
    (he : enc = true → ¬ ModelicaName (nameOf q)) :
    ∃ c, fs.get (dir ++ q) = some (.file c) ∧ (dir ++ q, c) ∈ (zipEntries env enc fs l dir).1 := by
  induction l generalizing dir q with
  | done => simp [entries] at hq
  | file n rest ih =>
    simp only [entries, List.mem_cons, Prod.mk.injEq, and_true] at hq
    unfold zipEntries at hok ⊢
    split at hok
    · rename_i hc
      rw [if_pos hc]
      split at hok
      · rename_i c hget
        split at hok
        · rename_i hadd
          simp only [hadd, if_true]
          rcases hq with rfl | hq
          · exact ⟨c, hget, List.mem_cons_self⟩
          · obtain ⟨c', h1, h2⟩ := ih dir hok q hq he
            exact ⟨c', h1, List.mem_cons_of_mem _ h2⟩
        · simp at hok
      · simp at hok
    · rename_i hc
      rw [if_neg hc]
      rcases hq with rfl | hq
      · exfalso
        apply hc
        cases enc with
        | false => simp
        | true =>
          right
          rw [isModelicaFile_iff]
          exact he rfl
      · exact ih dir hok q hq he
  | dir n sub rest ih1 ih2 =>
    simp only [entries, List.cons_append, List.mem_cons, Prod.mk.injEq, reduceCtorEq, and_false, false_or,
      List.mem_append, List.mem_map] at hq
    unfold zipEntries at hok ⊢
    dsimp only at hok ⊢
    split at hok
    · rename_i hs
      rw [if_pos hs]
      rcases hq with ⟨e, h1, h2, h3⟩ | hq
      · have hne : e.1 ≠ [] := entries_ne_nil sub e h1
        obtain ⟨c, h4, h5⟩ := ih1 (dir ++ [n]) hs e.1 (by rw [← h3]; exact h1)
          (by rw [← h2, nameOf_cons _ hne] at he; exact he)
        subst h2
        exact ⟨c, by simpa using h4, List.mem_append_left _ (by simpa using h5)⟩
      · obtain ⟨c, h4, h5⟩ := ih2 dir hok q hq he
        exact ⟨c, h4, List.mem_append_right _ h5⟩
    · simp at hok
  | locked n rest ih => simp [zipEntries] at hok
  | other n rest ih =>
    simp only [entries, List.mem_cons, Prod.mk.injEq, reduceCtorEq, and_false, false_or] at hq
    unfold zipEntries at hok ⊢
    exact ih dir hok q hq he

theorem zipEntries_nodup {env : PackEnv} {enc : Bool} {fs : Staged} (l : Listing) (dir : List Bytes)
    (hn : NoRepeats l) : ((zipEntries env enc fs l dir).1.map (·.1)).Nodup := by
  have mem : ∀ (l : Listing) (dir : List Bytes), ∀ p ∈ (zipEntries env enc fs l dir).1.map (·.1),
      ∃ q, p = dir ++ q ∧ q ∈ (entries l).map (·.1) := by
    intro l dir p hp
    obtain ⟨⟨p', c⟩, h, rfl⟩ := List.mem_map.1 hp
    obtain ⟨-, q, h1, h2, -⟩ := zipEntries_mem l dir p' c h
    exact ⟨q, h1, List.mem_map.2 ⟨_, h2, rfl⟩⟩
  induction l generalizing dir with
  | done => simp [zipEntries]
  | file n rest ih =>
    obtain ⟨h1, h2⟩ := noRepeats_file hn
    unfold zipEntries
    split
    · split
      · split
        · simp only [List.map_cons, List.nodup_cons]
          refine ⟨fun h => ?_, ih dir h2⟩
          obtain ⟨q, h3, h4⟩ := mem rest dir _ h
          rw [List.append_cancel_left_eq] at h3
          exact h1 (h3 ▸ h4)
        · simp
      · simp
    · exact ih dir h2
  | dir n sub rest ih1 ih2 =>
    obtain ⟨h1, h2, h3, -⟩ := noRepeats_dir hn
    unfold zipEntries
    dsimp only
    split
    · rw [List.map_append, List.nodup_append]
      refine ⟨ih1 _ h1, ih2 _ h2, ?_⟩
      intro p hp q hq e
      subst e
      obtain ⟨q1, h4, -⟩ := mem sub _ p hp
      obtain ⟨q2, h5, h6⟩ := mem rest _ p hq
      rw [h4, List.append_assoc, List.append_cancel_left_eq] at h5
      exact h3 (entries_head rest q2 h6 n q1 (by rw [← h5]; rfl))
    · exact ih1 _ h1
  | locked n rest ih => simp [zipEntries]
  | other n rest ih =>
    have h2 : NoRepeats rest := by
      unfold NoRepeats entries at hn
      rw [List.map_cons, List.nodup_cons] at hn
      exact hn.2
    unfold zipEntries
    exact ih dir h2

theorem createZip_some {env : PackEnv} {d : ArgData} {fs : Staged} {a : Archive}
    (h : (createZipArchive env d fs).1 = some a) :
    (∃ l, env.zipWalk fs = some l ∧ a = (zipEntries env (usingEncryption d) fs l []).1 ∧
      (createZipArchive env d fs).2 = (zipEntries env (usingEncryption d) fs l []).2) ∨
    (a = [] ∧ (createZipArchive env d fs).2 = false) := by
  unfold createZipArchive at h ⊢
  split at h
  · rename_i ho
    rw [if_pos ho]
    dsimp only at h ⊢
    split at h
    · simp only [Option.some.injEq] at h
      cases hw : env.zipWalk fs with
      | none =>
        rw [hw] at h
        exact Or.inr ⟨h.symm, rfl⟩
      | some l =>
        rw [hw] at h
        exact Or.inl ⟨l, rfl, h.symm, rfl⟩
    · simp at h
  · simp at h

/-! ## What happens to the copies -/

theorem createLibraryFolder_frame {env : PackEnv} {lib : Bytes} {fs fs' : Staged}
    (h : createLibraryFolder env lib fs = some fs') (q : List Bytes) (hq : q ≠ [lib, b!".library"]) :
    fs'.get q = fs.get q := by
  unfold createLibraryFolder at h
  split at h
  · rw [Staged.get_mkdir h, if_neg hq]
  · simp at h

theorem copyLves_frame {env : PackEnv} {lib : Bytes} (ns : List Bytes) {fs : Staged}
    {r : Staged × List Bytes} (h : copyLves env lib ns fs = some r) (q : List Bytes)
    (hq : ∀ x, q ≠ lib :: b!".library" :: x) : r.1.get q = fs.get q := by
  induction ns generalizing fs r with
  | nil =>
    simp only [copyLves, Option.some.injEq] at h
    rw [← h]
  | cons n ns ih =>
    unfold copyLves at h
    split at h
    · split at h
      · split at h
        · simp at h
        · rename_i fs' hw
          rw [Option.map_eq_some_iff] at h
          obtain ⟨r', h1, h2⟩ := h
          rw [← h2]
          dsimp only
          rw [ih h1, Staged.get_write hw, if_neg (hq [n])]
      · simp at h
    · exact ih h

theorem copyLVE_frame {env : PackEnv} {d : ArgData} {lib : Bytes} {fs fs' : Staged} {lves : List Bytes}
    (h : copyLVE env d lib fs = some (fs', lves)) (q : List Bytes)
    (hq : ∀ x, q ≠ lib :: b!".library" :: x) : fs'.get q = fs.get q := by
  unfold copyLVE at h
  split at h
  · split at h
    · exact copyLves_frame _ h q hq
    · simp at h
  · simp only [Option.some.injEq, Prod.mk.injEq] at h
    rw [← h.1]

theorem copyExtra_frame {env : PackEnv} {lib : Bytes} {fs fs' : Staged}
    (h : copyExtraFiles env lib fs = some fs') (q : List Bytes)
    (hq : ∀ x, q ≠ lib :: b!".library" :: x) : fs'.get q = fs.get q := by
  unfold copyExtraFiles at h
  split at h
  · split at h
    · simp only [Option.some.injEq] at h
      rw [← h]
    · unfold copyDirectory at h
      rw [Option.map_eq_some_iff] at h
      obtain ⟨l, -, h⟩ := h
      rw [← h]
      exact copyEntries_frame _ _ _ _ _ _ fun p _ => hq p
  · simp at h

theorem writeManifest_frame {env : PackEnv} {d : ArgData} {lib : Bytes} {lves : List Bytes}
    {icon : Option Bytes} {fs fs' : Staged}
    (h : writeManifest env d lib lves icon fs = .ok fs') (q : List Bytes)
    (hq : ∀ x, q ≠ lib :: b!".library" :: x) : fs'.get q = fs.get q := by
  unfold writeManifest at h
  dsimp only at h
  split at h
  · simp at h
  · rename_i fs1 hw
    rw [Res.bind_eq_ok] at h
    obtain ⟨doc, -, h⟩ := h
    simp only [Res.ok.injEq] at h
    rw [← h, Staged.get_set, if_neg (hq _)]
    split at hw
    · rw [Staged.get_write hw, if_neg (hq _)]
    · simp at hw

/-- Until the encryption, the copy of the library is left alone. -/
theorem PackSteps.frame {env : PackEnv} {d : ArgData} {tempDir lib : Bytes} {icon : Option Bytes}
    {lves : List Bytes} {fs1 fs2 fs3 fs4 fs5 fs6 : Staged}
    (h : PackSteps env d tempDir lib icon lves fs1 fs2 fs3 fs4 fs5 fs6) (q : List Bytes)
    (hq : ∀ x, q ≠ lib :: b!".library" :: x) : fs5.get q = fs1.get q := by
  rw [writeManifest_frame h.manifest q hq, copyExtra_frame h.extra q hq, copyLVE_frame h.lveDone q hq,
    createLibraryFolder_frame h.folder q (hq [])]

/-- What is in the copy of the library. -/
theorem copyFolderStructure_spec {env : PackEnv} {lib : Bytes} {fs : Staged} {l : Listing}
    {content : List Bytes → Bytes} (h : copyFolderStructure env lib = some fs) (hl : env.library = some l)
    (hc : Copyable env.librarySource l content) :
    (∀ q, (∀ p ∈ (entries l).map (·.1), q ≠ lib :: p) → q ≠ [] → q ≠ [lib] → fs.get q = none) ∧
    (∀ p, (p, Kind.file) ∈ entries l → Outside p → fs.get (lib :: p) = some (.file (content p))) ∧
    (∀ p, (p, Kind.dir) ∈ entries l → Outside p → fs.get (lib :: p) = some .dir) ∧
    (∀ p ∈ (entries l).map (·.1), ¬ Outside p → fs.get (lib :: p) = none) := by
  unfold copyFolderStructure at h
  split at h
  · simp at h
  · split at h
    · simp at h
    · rename_i fs0 h0
      unfold copyDirectory at h
      rw [hl] at h
      simp only [Option.map_some, Option.some.injEq] at h
      have hg := Staged.get_mkdir h0
      have he : ∀ q, Staged.empty.get q = if q = [] then some .dir else none := by
        intro q
        cases q <;> rfl
      obtain ⟨h1, h2, h3, h4⟩ := copyEntries_spec env.librarySource content l [] [lib] fs0 hc.nodup hc.kinds
        (fun p hp ho => hc.copied p hp ho) (fun p hp ho => hc.made p hp ho)
        (by rw [hg, if_pos rfl]) (fun p hp => by
          have hne : p ≠ [] := by
            obtain ⟨e, he, rfl⟩ := List.mem_map.1 hp
            exact entries_ne_nil l e he
          rw [hg, if_neg (by simpa using hne), he, if_neg (by simp)])
      rw [h] at h1 h2 h3 h4
      refine ⟨?_, h2, h3, h4⟩
      intro q hq hq1 hq2
      rw [h1 q hq, hg, if_neg hq2, he, if_neg hq1]

end Semla
