import Verif.Lemmas.PackWinRun
import Verif.Lemmas.PackAll

/-! # Lemmas: whole runs of the packaging tool on Windows -/

namespace Semla

open Spec

/-! ## Arguments -/

/-- The change to a value. -/
def slashValue (k v : Bytes) : Bytes := if k = b!"librarypath" ∨ k = b!"icon" then slashes v else v

/-- Arguments with `/` for `\`. -/
def slashPairs (ps : List (Bytes × Bytes)) : List (Bytes × Bytes) := ps.map fun e => (e.1, slashValue e.1 e.2)

theorem slashPairs_names (ps : List (Bytes × Bytes)) : (slashPairs ps).map (·.1) = ps.map (·.1) := by
  simp [slashPairs]

theorem argPairs_slash {args : List Bytes} {ps : List (Bytes × Bytes)} (h : ArgPairs args ps) :
    ArgPairs (slashArgs args) (slashPairs ps) := by
  induction h with
  | nil => exact .nil
  | @cons c k v args ps known value rest ih =>
    unfold slashArgs
    simp only [List.drop_succ_cons, List.drop_zero, withSlashes_eq]
    refine .cons (v := slashValue k v) known ?_ ih
    unfold slashValue
    split
    · cases v with
      | nil => exact absurd rfl value
      | cons a v => simp [slashes]
    · exact value

theorem slashes_eq_plain {v x : Bytes} (hx : (47 : UInt8) ∉ x) (h : slashes v = x) : v = x := by
  rw [← h]
  refine (slashes_of_not fun hm => hx ?_).symm
  rw [← h]
  exact List.mem_map.2 ⟨92, hm, rfl⟩

theorem slashArgs_ne {args : List Bytes} (h : args ≠ []) : slashArgs args ≠ [] := by
  match args with
  | [] => exact absurd rfl h
  | [a] => simp [slashArgs]
  | a :: b :: r => simp [slashArgs]

theorem helpRequested_slash : ∀ (args : List Bytes), helpRequested args = false →
    helpRequested (slashArgs args) = false
  | [], h => h
  | [_], h => h
  | k :: v :: rest, h => by
    have hv : ∀ x, (47 : UInt8) ∉ x → v ≠ x →
        (if k.drop 1 = b!"librarypath" ∨ k.drop 1 = b!"icon" then slashes v else v) ≠ x := by
      intro x hx hne
      split
      · exact fun he => hne (slashes_eq_plain hx he)
      · exact hne
    unfold helpRequested at h ⊢
    simp only [slashArgs, List.any_cons, Bool.or_eq_false_iff, beq_eq_false_iff_ne, withSlashes_eq] at h ⊢
    obtain ⟨h1, ⟨h2, h3⟩, h4⟩ := h
    exact ⟨h1, ⟨hv _ (by decide) h2, hv _ (by decide) h3⟩, helpRequested_slash rest h4⟩

theorem getValueOf_slash (ps : List (Bytes × Bytes)) (n : Nat) {k : Bytes} (hk : k ≠ []) :
    getValueOf (slashPairs ps ++ List.replicate n ([], [])) k =
      (getValueOf (ps ++ List.replicate n ([], [])) k).map (slashValue k) := by
  induction ps with
  | nil =>
    simp only [slashPairs, List.map_nil, List.nil_append, getValueOf_free n k hk, Option.map_none]
  | cons e ps ih =>
    obtain ⟨a, b⟩ := e
    simp only [slashPairs, List.map_cons, List.cons_append, getValueOf]
    by_cases ha : a = k
    · simp [ha]
    · simp only [ha, if_false]
      exact ih

theorem trimSlashes_slashes (s : Bytes) : trimSlashes (slashes s) = slashes (trimSlashes s) := by
  induction s with
  | nil => rfl
  | cons c s ih =>
    cases s with
    | nil => rfl
    | cons c' s =>
      simp only [slashes, List.map_cons] at ih ⊢
      unfold trimSlashes
      by_cases h : c = 92 ∨ c = 47
      · have h' : (if c = 92 then (47 : UInt8) else c) = 92 ∨ (if c = 92 then (47 : UInt8) else c) = 47 := by
          rcases h with h | h
          · simp [h]
          · subst h
            simp
        rw [if_pos h, if_pos h', ih]
      · have h' : (if c = 92 then (47 : UInt8) else c) = c := if_neg fun e => h (Or.inl e)
        rw [if_neg h, h', if_neg h, List.map_cons, List.map_cons, h']

theorem trimPath_slashes (s : Bytes) : trimPath (slashes s) = slashes (trimPath s) := by
  unfold trimPath
  have : (slashes s).reverse = slashes s.reverse := by simp [slashes]
  rw [this, trimSlashes_slashes]
  simp [slashes]

theorem argPairs_unique {args : List Bytes} {ps qs : List (Bytes × Bytes)} (hp : ArgPairs args ps)
    (hq : ArgPairs args qs) : ps = qs := by
  induction hp generalizing qs with
  | nil => cases hq; rfl
  | cons _ _ _ ih =>
    cases hq with
    | cons _ _ hq => rw [ih hq]

theorem packArguments_win {w : PackWinEnv} {lin : PackEnv} (hs : SamePlace w lin) {args : List Bytes}
    {ps : List (Bytes × Bytes)} (hp : ArgPairs args ps) {d : ArgData}
    (h : packArguments w.env args = .ok (some d)) :
    ∃ d', packArguments lin (slashArgs args) = .ok (some d') ∧ Corr d d' := by
  obtain ⟨d0, h1, h2, h3, h4, h5, h6⟩ := packArguments_ok h
  obtain ⟨qs, g1, g2, g3⟩ := validateLoop_ok args [] d0 (by simp [DistinctNames]) (by simp) h1
  obtain rfl := argPairs_unique hp g1
  simp only [List.nil_append] at g2 g3
  have hd' : DistinctNames ([] ++ slashPairs ps) := by
    unfold DistinctNames
    rw [List.nil_append, slashPairs_names]
    exact g2
  have hv : validateArguments (slashArgs args) = .ok (some (argSlots (slashPairs ps))) := by
    have := validateLoop_pairs (argPairs_slash hp) [] hd' (by simp)
    rwa [List.nil_append] at this
  have c0 : ∀ k, k ≠ [] → getValueOf (argSlots (slashPairs ps)) k = (getValueOf d0 k).map (slashValue k) := by
    intro k hk
    rw [g3]
    unfold argSlots
    have : (slashPairs ps).length = ps.length := by simp [slashPairs]
    rw [this]
    exact getValueOf_slash ps _ hk
  have hcorr : Corr d (setValue (setValue (argSlots (slashPairs ps)) b!"librarypath" trimPath) b!"encrypt"
      stringToLower) := by
    intro k hk
    rw [h3]
    simp only [getValueOf_setValue]
    by_cases e1 : k = b!"encrypt"
    · subst e1
      rw [if_pos rfl, if_pos rfl, if_neg (by decide), if_neg (by decide), c0 _ (by decide)]
      cases getValueOf d0 b!"encrypt" with
      | none => rfl
      | some v => simp [slashValue]
    · rw [if_neg e1, if_neg e1]
      by_cases e2 : k = b!"librarypath"
      · subst e2
        rw [if_pos rfl, if_pos rfl, c0 _ (by decide)]
        cases getValueOf d0 b!"librarypath" with
        | none => rfl
        | some v => simp [slashValue, trimPath_slashes]
      · rw [if_neg e2, if_neg e2, c0 k hk]
        rfl
  refine ⟨_, ?_, hcorr⟩
  unfold packArguments
  rw [hv]
  simp only [Res.bind_ok]
  have hm : validateMandatory (argSlots (slashPairs ps)) = true := by
    rw [← h2]
    unfold validateMandatory mandatoryArguments
    simp only [List.all_cons, List.all_nil, containsKey_isSome]
    rw [c0 _ (by decide), c0 _ (by decide), c0 _ (by decide)]
    simp
  have hdir : lin.isDir ((getValueOf (setValue (argSlots (slashPairs ps)) b!"librarypath" trimPath)
      b!"librarypath").getD []) = true := by
    rw [getValueOf_setValue, if_pos rfl, c0 _ (by decide)]
    rw [getValueOf_setValue, if_pos rfl] at h4
    cases hg : getValueOf d0 b!"librarypath" with
    | none =>
      rw [hg] at h4
      have := hs.isDir _ h4
      simpa [withSlashes] using this
    | some v =>
      rw [hg] at h4
      have := hs.isDir _ h4
      rw [withSlashes_eq] at this
      simpa [slashValue, trimPath_slashes] using this
  have hlve : countLVE lin = countLVE w.env := by
    unfold countLVE
    rw [hs.exeDir, hs.lve]
  rw [if_neg (by simp [hm]), if_neg (by simp [hdir])]
  rw [if_neg (by rw [hcorr.encrypts, hlve]; exact h5), if_pos]
  rw [List.all_eq_true]
  intro k hk
  have hk0 : k ≠ [] := by
    rintro rfl
    simp at hk
  rw [hcorr k hk0]
  cases hg : getValueOf d k with
  | none => rfl
  | some v =>
    have := hs.fileExists v (h6 k hk v hg)
    rw [withSlashes_eq] at this
    simp only [Option.map_some]
    split
    · exact this.2
    · exact this.1

/-! ## Whole runs -/

theorem packTool_win {w : PackWinEnv} {lin : PackEnv} (hs : SamePlace w lin) {args : List Bytes}
    {ps : List (Bytes × Bytes)} (hp : ArgPairs args ps) {path lib : Bytes} (hpath : (b!"librarypath", path) ∈ ps)
    (hlib : LibraryName (withSlashes path) lib) {P : List Bytes → Prop} (hP : CaseApart w lib P)
    (hi : IconOnTop w P ps) (hn : NoPackageDirs w) (hstat : AllStat w) {a : Archive}
    (h : packToolWin w args = .ok ⟨0, some a⟩) :
    ∃ a', packTool lin (slashArgs args) = .ok ⟨0, some a'⟩ ∧ a = a'.map (winFile lib) ∧
      ∃ d' tempDir icon lves fs1 fs2 fs3 fs4 fs5 fs6 zl,
        PackSteps lin d' tempDir lib icon lves fs1 fs2 fs3 fs4 fs5 fs6 ∧ lin.zipWalk fs6 = some zl ∧
        ∀ p, (p, Kind.dir) ∈ entries zl → ∃ f ∈ a', p <+: f.1 := by
  unfold packToolWin at h
  split at h
  · simp at h
  rename_i hne
  split at h
  · simp at h
  rename_i hh
  rw [Res.bind_eq_ok] at h
  obtain ⟨r, h1, h⟩ := h
  cases r with
  | none => simp at h
  | some d =>
    dsimp only at h
    obtain ⟨d', k1, hc⟩ := packArguments_win hs hp h1
    have hval := packArguments_get h1 hp (by decide) hpath
    rw [if_pos rfl] at hval
    have hval' : getValueOf d' b!"librarypath" = some (trimPath (slashes path)) := by
      rw [hc _ (by decide), hval]
      simp [trimPath_slashes]
    have hname := getLibraryName_of hlib
    rw [withSlashes_eq] at hname
    have hlibname : afterLastSep (trimPath path) = lib := by
      have e := hname
      unfold getLibraryName at e
      split at e
      · simp at e
      · rw [trimPath_slashes, afterLastSlash_slashes] at e
        simpa using e
    have hicon : ∀ v, getValueOf d b!"icon" = some v → (b!"icon", v) ∈ ps := by
      intro v hv
      obtain ⟨d0, g1, -, g2, -⟩ := packArguments_ok h1
      refine ((Props.c38_lookup args d0 g1 ps hp b!"icon" (by decide)).1 v).2 ?_
      rw [g2, getValueOf_setValue, if_neg (by decide), getValueOf_setValue, if_neg (by decide)] at hv
      exact hv
    obtain ⟨t', ht1, ht2⟩ := hs.temp
    unfold packLibraryWin at h
    cases htemp : w.env.tempDir with
    | none => simp [htemp] at h
    | some tempDir =>
      simp only [htemp, hval, Option.getD_some, hlibname] at h
      rw [Res.bind_eq_ok] at h
      obtain ⟨r1, m1, h⟩ := h
      cases r1 with
      | none => simp at h
      | some fs1 =>
        obtain ⟨hl0, n1, hk1⟩ := copyFolder_win hs hP hstat m1
        have hd1 : PlainDirs fs1 := copyFolder_dirs (fun l hl => hn l (Or.inl (hs.library ▸ hl))) n1
        dsimp only at h
        cases m2 : createLibraryFolderWin w lib fs1 with
        | none => simp [m2] at h
        | some fs2 =>
          obtain ⟨n2, hk2⟩ := createFolder_win hs hP hk1 m2
          have hd2 := createFolder_dirs hd1 n2
          simp only [m2] at h
          rw [Res.bind_eq_ok] at h
          obtain ⟨r3, m3, h⟩ := h
          cases r3 with
          | none => simp at h
          | some icon =>
            have hplain : ∀ c ∈ lib, isSep c = false := by
              rw [← hlibname]
              exact afterLastSep_plain _
            have n3 := prepareIcon_win hs hi hc hicon htemp ht2 hplain hl0 hk2 m3
            dsimp only at h
            cases m4 : copyLVEWin w.env d lib fs2 with
            | none => simp [m4] at h
            | some r4 =>
              obtain ⟨n4, hk4, hd4⟩ := copyLVE_win hs hP hc.encrypts hk2 hd2 m4
              obtain ⟨fs4, lves⟩ := r4
              simp only [m4] at h
              rw [Res.bind_eq_ok] at h
              obtain ⟨r5, m5, h⟩ := h
              cases r5 with
              | none => simp at h
              | some fs5 =>
                obtain ⟨n5, hk5, hd5⟩ := copyExtra_win hs hP hstat hn hk4 hd4 m5
                dsimp only at h
                rw [Res.bind_eq_ok] at h
                obtain ⟨fs6, m6, h⟩ := h
                obtain ⟨fs6', n6, s6, hk6, hd6⟩ := manifest_win hs hP hc hk5 hd5 m6
                rw [Res.bind_eq_ok] at h
                obtain ⟨r7, m7, h⟩ := h
                cases r7 with
                | none => simp at h
                | some fs7 =>
                  obtain ⟨fs7', n7, s7, hk7⟩ := encryptFiles_win (tL := t') hs hP hc.encrypts s6 hk6 hd6 m7
                  dsimp only at h
                  rw [Res.bind_eq_ok] at h
                  obtain ⟨⟨o, ok⟩, m8, h⟩ := h
                  simp only [Res.ok.injEq, PackResult.mk.injEq] at h
                  obtain ⟨hok, rfl⟩ := h
                  cases ok with
                  | false => simp at hok
                  | true =>
                    obtain ⟨a', n8, h8, zl, h9, h10⟩ := createZip_win hs hP hc.encrypts s7 hk7 m8
                    rw [Option.some.injEq] at h8
                    refine ⟨a', ?_, h8, d', t', icon, lves, fs1, fs2, fs4, fs5, fs6', fs7', zl,
                      ⟨ht1, by rw [hval', Option.getD_some, hname], n1, n2, n3, n4, n5, n6, n7⟩, h9, h10⟩
                    unfold packTool
                    rw [if_neg (slashArgs_ne hne), if_neg (by
                      rw [helpRequested_slash args (by simpa using hh)]
                      simp), k1]
                    simp only [Res.bind_ok]
                    unfold packLibrary
                    simp only [ht1, hval', Option.getD_some, hname, Res.bind_ok, n1, n2, n3, n4, n5, n6, n7, n8,
                      if_true]

end Semla
