import Verif.Model.EncryptFile
import Verif.Lemmas.CrHist

/-! # Helper lemmas: adding a file to an encrypted library -/

set_option linter.unusedSimpArgs false

namespace Semla

open Semla.Spec

theorem keyOf_unique {e : CrEnv} {jobs : List Job}
    (hN : (jobs.map fun j => (j.dirs, j.name)).Nodup) {j : Job} {k k' : Bytes}
    (h : KeyOf e jobs j k) (h' : KeyOf e jobs j k') : k = k' := by
  unfold KeyOf at h h'
  split at h
  · rename_i hp
    rw [if_pos hp] at h'
    split at h
    · rename_i hr
      rw [if_pos hr] at h'
      rw [h, h']
    · rename_i hr
      rw [if_neg hr] at h'
      obtain ⟨m, hm, rfl⟩ := h
      obtain ⟨m', hm', rfl⟩ := h'
      rw [maskInForce_unique hN hm hm']
  · rename_i hp
    rw [if_neg hp] at h'
    obtain ⟨m, hm, rfl⟩ := h
    obtain ⟨m', hm', rfl⟩ := h'
    rw [maskInForce_unique hN hm hm']

theorem libRead_iff {e : CrEnv} {jobs : List Job} (hP : Complete e.keyLen jobs) :
    LibraryAt e jobs ↔ LibRead e jobs := by
  constructor
  · intro h j hj
    obtain ⟨content, key, h1, h2, h3⟩ := h j hj
    have := keyOf_unique hP.nodup h2 (keyOf_fileKeyOf hP hj)
    subst this
    exact ⟨content, h1, h3⟩
  · intro h j hj
    obtain ⟨content, h1, h2⟩ := h j hj
    exact ⟨content, _, h1, keyOf_fileKeyOf hP hj, h2⟩

theorem mem_withFile {jobs : List Job} {j k : Job} :
    k ∈ withFile jobs j ↔ (k ∈ jobs ∧ ¬ (k.dirs = j.dirs ∧ k.name = j.name)) ∨ k = j := by
  simp only [withFile, List.mem_append, List.mem_filter, decide_eq_true_eq, List.mem_singleton]

/-- Package files of the library are kept. -/
theorem addable_keep {jobs : List Job} {j : Job} (ha : Addable jobs j) {k : Job} (hk : k ∈ jobs)
    (hp : k.isPackage) : k ∈ withFile jobs j := by
  rw [mem_withFile]
  refine Or.inl ⟨hk, ?_⟩
  rintro ⟨h1, h2⟩
  unfold Addable at ha
  split at ha
  · exact ha.1 k hk hp h1
  · rename_i hn
    apply hn
    unfold Job.isPackage at *
    rw [← h2]; exact hp

theorem withFile_complete {keyLen : Nat} {jobs : List Job} (hP : Complete keyLen jobs) {j : Job}
    (ha : Addable jobs j)
    (hn : IsName j.name ∧ (eqNoCase b!"package.mo" j.name → j.name = b!"package.mo") ∧
      ∀ d ∈ j.dirs, IsName d ∧ ¬ eqNoCase b!"package.mo" d ∧ ¬ eqNoCase b!"package.moc" d)
    (hd : j.iv.length = 16 ∧ j.mask.length = keyLen) : Complete keyLen (withFile jobs j) where
  names k hk := by
    rcases mem_withFile.1 hk with h | h
    · exact hP.names k h.1
    · rw [h]; exact hn
  draws k hk := by
    rcases mem_withFile.1 hk with h | h
    · exact hP.draws k h.1
    · rw [h]; exact hd
  nodup := by
    unfold withFile
    rw [List.map_append, List.nodup_append]
    refine ⟨?_, by simp, ?_⟩
    · exact (hP.nodup).sublist (List.filter_sublist.map _)
    · intro a ha b hb
      obtain ⟨k, hk, rfl⟩ := List.mem_map.1 ha
      have hk2 := (List.mem_filter.1 hk).2
      simp only [List.map_cons, List.map_nil, List.mem_singleton] at hb
      subst hb
      intro heq
      simp only [Prod.mk.injEq] at heq
      simp [heq.1, heq.2] at hk2
  closed := by
    intro k hk ds hpre
    have old : ∀ k0 ∈ jobs, ds <+: k0.dirs → ∃ k ∈ withFile jobs j, k.dirs = ds ∧ k.isPackage := by
      intro k0 hk0 hpre
      obtain ⟨k1, h1, h2, h3⟩ := hP.closed k0 hk0 ds hpre
      exact ⟨k1, addable_keep ha h1 h3, h2, h3⟩
    rcases mem_withFile.1 hk with h | h
    · exact old k h.1 hpre
    · subst h
      unfold Addable at ha
      split at ha
      · rename_i hp
        by_cases hds : ds = k.dirs
        · exact ⟨k, hk, hds.symm, hp⟩
        · have hne : k.dirs ≠ [] := by
            intro h0; rw [h0] at hpre; exact hds (by rw [h0]; exact List.prefix_nil.1 hpre)
          obtain ⟨k0, h1, h2, h3⟩ := ha.2 hne
          apply old k0 h1
          rw [h3]
          rw [← List.dropLast_append_getLast hne] at hpre hds
          exact (List.prefix_concat_iff.1 hpre).resolve_left hds
      · obtain ⟨k0, h1, h2, h3⟩ := ha
        exact old k0 h1 (by rw [h3]; exact hpre)

theorem maskOf_withFile {keyLen : Nat} {jobs : List Job} (hP : Complete keyLen jobs) {j : Job}
    (hC : Complete keyLen (withFile jobs j)) (ha : Addable jobs j) {k : Job} (hk : k ∈ jobs)
    {ds : List Bytes} (hpre : ds <+: k.dirs) : maskOf (withFile jobs j) ds = maskOf jobs ds := by
  obtain ⟨k1, h1, h2, h3⟩ := hP.closed k hk ds hpre
  rw [← h2, complete_unique hP h1 h3, complete_unique hC (addable_keep ha h1 h3) h3]

/-- One run of the encryptor with a context filled from the library. -/
theorem encrypt_into_lib (e : CrEnv) (he : GoodEnv e) {jobs : List Job} (hP : Complete e.keyLen jobs)
    (hlib : LibRead e jobs) (hsz : SizesOk e jobs)
    (hne : ∀ j ∈ jobs, j.isPackage → j.plain ≠ []) (j : Job) (ha : Addable jobs j)
    (hn : IsName j.name ∧ (eqNoCase b!"package.mo" j.name → j.name = b!"package.mo") ∧
      ∀ d ∈ j.dirs, IsName d ∧ ¬ eqNoCase b!"package.mo" d ∧ ¬ eqNoCase b!"package.moc" d)
    (hd : j.iv.length = 16 ∧ j.mask.length = e.keyLen) (junk : Bytes)
    (hl : e.basedir.length + 1 + (relPath (j.dirs ++ [b!"package.moc"])).length < 4096)
    (rand : Bytes → Bytes) (hrand : rand (dirName j.dirs) = j.mask) :
    ∃ t t' key flag out, demaskKey e (demaskFuel (j.path ++ b!"c")) [] (j.path ++ b!"c") junk =
        .ok (t, key, flag) ∧
      crEncrypt e t j.path j.iv rand j.plain false (fun _ => true) = .ok (t', out, true) ∧
      EncOf e (withFile jobs j) j out := by
  obtain ⟨hname, hcase, hdirs⟩ := hn
  have hC := withFile_complete hP ha ⟨hname, hcase, hdirs⟩ hd
  have hdn : ∀ d ∈ j.dirs, IsName d := fun d h => (hdirs d h).1
  have hle := relPath_dirs_le j.dirs
  have hml : j.mask.length ≤ 32 := by rw [hd.2]; exact he.keyLen
  have hplen := relPath_length_ge j.dirs j.name hdn
  by_cases hp : j.isPackage
  · have ha' := ha
    unfold Addable at ha'
    rw [if_pos hp] at ha'
    rw [package_path hp]
    obtain ⟨h1, h2, h3, h4⟩ := path_facts j.dirs b!"package.moc" hdn isName_packagec (by omega)
    -- what filling the cache does
    have key : ∃ t key flag, demaskKey e (demaskFuel (relPath (j.dirs ++ [b!"package.moc"]))) []
        (relPath (j.dirs ++ [b!"package.moc"])) junk = .ok (t, key, flag) ∧ DecInv jobs t ∧
        (j.dirs ≠ [] → ∃ k ∈ jobs, k.isPackage ∧ k.dirs = j.dirs.dropLast ∧
          MaskTable.find t (dirName j.dirs.dropLast) = some k.mask) := by
      have hf : demaskFuel (relPath (j.dirs ++ [b!"package.moc"])) =
          (demaskFuel (relPath (j.dirs ++ [b!"package.moc"])) - 1) + 1 := by unfold demaskFuel; omega
      rw [hf, demaskKey]
      simp only [h2, eqNoCase_self, if_true]
      by_cases hr : j.dirs = []
      · rw [h1, if_pos hr, if_pos rfl]
        exact ⟨[], junk, 1, rfl, decInv_nil jobs, fun h => absurd hr h⟩
      · have hpos : (relPath j.dirs).length ≠ 0 := by simpa using relPath_ne_nil j.dirs hr hdn
        rw [h4, h1, if_neg hr, if_neg hpos]
        obtain ⟨k, hk, hkp, hkd⟩ := ha'.2 hr
        have hdx : j.dirs.dropLast ++ [j.dirs.getLast hr] = j.dirs := List.dropLast_append_getLast hr
        have hx := hdirs (j.dirs.getLast hr) (List.getLast_mem hr)
        obtain ⟨t, h5, h6, h7⟩ := (demask_lib e he hP hlib hsz hne j.dirs.dropLast).2 k hk hkd hkp
          (j.dirs.getLast hr) hx.1 hx.2.2 (demaskFuel (relPath (j.dirs ++ [b!"package.moc"])) - 1) (by
            unfold demaskFuel
            have := relPath_length_ge j.dirs b!"package.moc" hdn
            simp; omega) [] (decInv_nil jobs) junk
        rw [hdx] at h5
        rw [h5]
        exact ⟨t, _, _, rfl, h6, fun _ => ⟨k, hk, hkp, hkd, h7⟩⟩
    obtain ⟨t, key, flag, h5, h6, h7⟩ := key
    have hfresh : t.find (dirName j.dirs) = none := by
      cases hf : t.find (dirName j.dirs) with
      | none => rfl
      | some m =>
        have := h6 j.dirs hdn m hf
        obtain ⟨k, hk, hkp, hkd, -⟩ := maskOf_some this
        exact absurd hkd (ha'.1 k hk hkp)
    have hpath : j.path = relPath (j.dirs ++ [b!"package.mo"]) := by unfold Job.path; rw [hp]
    have hmk : ∃ t', maskKey e rand (j.path.length + 2) t j.path e.key =
        .ok ⟨t', fileKeyOf e (maskOf (withFile jobs j)) j.dirs true, 1, j.mask⟩ := by
      by_cases hr : j.dirs = []
      · have h8 : j.path = b!"package.mo" := by rw [hpath, hr]; rfl
        rw [h8, maskKey_package_root e rand _ t e.key (by rw [← hr]; exact hfresh)]
        rw [hr] at hrand
        rw [show dirName [] = b!"/" from rfl] at hrand
        exact ⟨_, by simp [fileKeyOf, hr, hrand]; rfl⟩
      · obtain ⟨k, hk, hkp, hkd, hfk⟩ := h7 hr
        obtain ⟨ds', x, hdx⟩ : ∃ ds' x, j.dirs = ds' ++ [x] :=
          ⟨_, _, (List.dropLast_append_getLast hr).symm⟩
        have hdl : j.dirs.dropLast = ds' := by rw [hdx]; simp
        have hx := hdirs x (by rw [hdx]; simp)
        have hdr : dirName j.dirs = relPath j.dirs := by simp [dirName, hr]
        rw [hdr] at hrand
        have h8 := maskKey_package_sub e rand j.path.length t ds' x k.mask e.key
          (fun d h => hdn d (by rw [hdx]; simp [h])) hx.1 hx.2.1 (by rw [← hdx]; omega)
          (by rw [← hdl]; exact hfk) (by rw [← hdx]; exact hfresh)
        rw [← hdx, ← hpath, hrand] at h8
        rw [h8]
        have hm : maskOf (withFile jobs j) ds' = some k.mask := by
          rw [← hdl, ← hkd]
          exact complete_unique hC (addable_keep ha hk hkp) hkp
        exact ⟨_, by simp [fileKeyOf, hr, hdl, hm]; rfl⟩
    obtain ⟨t', h8⟩ := hmk
    obtain ⟨ws, h9, h10⟩ := encBody_spec e he (fileKeyOf e (maskOf (withFile jobs j)) j.dirs true)
      j.iv j.plain hd.1 1 j.mask hml
    refine ⟨t, t', key, flag, j.iv ++ ws.flatten, h5, ?_, ?_⟩
    · simp [crEncrypt, h8, h9, runWrites_all]
    · simpa [EncOf, hp] using h10
  · have hnp : ¬ eqNoCase b!"package.mo" j.name := fun h => hp (hcase h)
    have ha' := ha
    unfold Addable at ha'
    rw [if_neg hp] at ha'
    obtain ⟨k, hk, hkp, hkd⟩ := ha'
    have hn2 : IsName (j.name ++ b!"c") := by
      refine ⟨by simp, fun c hc => ?_⟩
      rcases List.mem_append.1 hc with h | h
      · exact hname.2 c h
      · simp at h; subst h; decide
    have hnp2 : ¬ eqNoCase b!"package.moc" (j.name ++ b!"c") := by
      intro h
      apply hnp
      simp only [eqNoCase, beq_iff_eq, List.map_append] at h ⊢
      exact List.append_cancel_right (as := b!"package.mo".map toLower) (bs := b!"c".map toLower) h
    have hpath : j.path ++ b!"c" = relPath (j.dirs ++ [j.name ++ b!"c"]) := by
      unfold Job.path
      by_cases hd : j.dirs = []
      · rw [hd]; rfl
      · rw [relPath_snoc _ _ hd, relPath_snoc _ _ hd]; simp
    obtain ⟨t, h5, h6, h7⟩ := (demask_lib e he hP hlib hsz hne j.dirs).2 k hk hkd hkp
      (j.name ++ b!"c") hn2 hnp2 (demaskFuel (relPath (j.dirs ++ [j.name ++ b!"c"]))) (by
        unfold demaskFuel
        have := relPath_length_ge j.dirs (j.name ++ b!"c") hdn
        omega) [] (decInv_nil jobs) junk
    have h8 := maskKey_dir e rand (j.path.length + 1) t j.dirs j.name k.mask e.key hdn hname hnp
      (by omega) h7
    rw [show relPath (j.dirs ++ [j.name]) = j.path from rfl] at h8
    obtain ⟨ws, h9, h10⟩ := encBody_spec e he (e.mask e.key k.mask) j.iv j.plain hd.1 0 [] (by simp)
    have hm : maskOf (withFile jobs j) j.dirs = some k.mask := by
      rw [← hkd]
      exact complete_unique hC (addable_keep ha hk hkp) hkp
    refine ⟨t, t, _, _, j.iv ++ ws.flatten, by rw [hpath]; exact h5, ?_, ?_⟩
    · simp [crEncrypt, h8, h9, runWrites_all]
    · simpa [EncOf, hp, fileKeyOf, hm] using h10

end Semla
