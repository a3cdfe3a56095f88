import Verif.Lemmas.CrPath
import Mathlib.Data.List.Basic

/-! # Helper lemmas: key masks over a whole library -/

set_option linter.unusedSimpArgs false

namespace Semla

open Semla.Spec

/-- The mask drawn for a directory. -/
def maskOf (jobs : List Job) (ds : List Bytes) : Option Bytes :=
  (jobs.find? fun j => j.isPackage ∧ j.dirs = ds).map (·.mask)

theorem maskOf_some {jobs : List Job} {ds : List Bytes} {m : Bytes} (h : maskOf jobs ds = some m) :
    ∃ j ∈ jobs, j.isPackage ∧ j.dirs = ds ∧ j.mask = m := by
  unfold maskOf at h
  rw [Option.map_eq_some_iff] at h
  obtain ⟨j, h1, h2⟩ := h
  have := List.find?_some h1
  exact ⟨j, List.mem_of_find?_eq_some h1, by simpa using (of_decide_eq_true this).1, (of_decide_eq_true this).2, h2⟩

theorem maskOf_of_mem {jobs : List Job} {ds : List Bytes} {j : Job} (hj : j ∈ jobs)
    (hp : j.isPackage) (hd : j.dirs = ds) : ∃ m, maskOf jobs ds = some m := by
  unfold maskOf
  cases hf : jobs.find? (fun j => j.isPackage ∧ j.dirs = ds) with
  | some k => exact ⟨k.mask, by simp⟩
  | none =>
    have := List.find?_eq_none.1 hf j hj
    simp [hp, hd] at this

theorem maskOf_append (a b : List Job) (ds : List Bytes) :
    maskOf (a ++ b) ds = (maskOf a ds).or (maskOf b ds) := by
  unfold maskOf
  rw [List.find?_append]
  cases List.find? (fun j => decide (j.isPackage ∧ j.dirs = ds)) a <;> simp

theorem MaskTable.find_append (a b : MaskTable) (d : Bytes) :
    MaskTable.find (a ++ b) d = (a.find d).or (b.find d) := by
  unfold MaskTable.find
  rw [List.find?_append]
  cases List.find? (fun e => e.1 == d) a <;> simp

theorem MaskTable.find_single (d m d' : Bytes) :
    MaskTable.find [(d, m)] d' = if d = d' then some m else none := by
  unfold MaskTable.find
  by_cases h : d = d'
  · simp [h]
  · simp [h]

theorem MaskTable.find_nil (d : Bytes) : MaskTable.find [] d = none := rfl

/-- Key of the file under the directory masks `M`. -/
def fileKeyOf (e : CrEnv) (M : List Bytes → Option Bytes) (ds : List Bytes) (pkg : Bool) : Bytes :=
  if pkg then
    if ds = [] then e.key else e.mask e.key ((M ds.dropLast).getD [])
  else e.mask e.key ((M ds).getD [])

theorem eqNoCase_self (a : Bytes) : eqNoCase a a = true := by simp [eqNoCase]

/-! ## Encryption -/

/-- The table after the jobs `done`. -/
def EncInv (done : List Job) (t : MaskTable) : Prop :=
  (∀ ds, (∀ d ∈ ds, IsName d) → t.find (dirName ds) = maskOf done ds) ∧ (done ≠ [] → t ≠ [])

theorem maskKey_dir (e : CrEnv) (rand : Bytes → Bytes) (fuel : Nat) (t : MaskTable)
    (ds : List Bytes) (n m key : Bytes) (hd : ∀ d ∈ ds, IsName d) (hn : IsName n)
    (hp : ¬ eqNoCase b!"package.mo" n) (hl : (relPath ds).length + 1 ≤ 4096)
    (hm : t.find (dirName ds) = some m) :
    maskKey e rand (fuel + 1) t (relPath (ds ++ [n])) key = .ok ⟨t, e.mask key m, 0, []⟩ := by
  obtain ⟨-, h2, h3, -⟩ := path_facts ds n hd hn hl
  simp only [maskKey, h2, h3, hm, hp]
  simp

theorem isName_package : IsName b!"package.mo" := by
  refine ⟨by simp, ?_⟩
  decide

theorem isName_packagec : IsName b!"package.moc" := by
  refine ⟨by simp, ?_⟩
  decide

theorem maskKey_package_root (e : CrEnv) (rand : Bytes → Bytes) (fuel : Nat) (t : MaskTable)
    (key : Bytes) (hm : t.find (dirName []) = none) :
    maskKey e rand (fuel + 1) t b!"package.mo" key =
      .ok ⟨addItem t.isEmpty t b!"/" (rand b!"/"), key, 1, rand b!"/"⟩ := by
  obtain ⟨-, h2, h3, -⟩ := path_facts [] b!"package.mo" (by simp) isName_package (by simp [relPath])
  simp only [List.nil_append, relPath] at h2 h3
  have h4 : dirName [] = b!"/" := rfl
  rw [h4] at hm h3
  simp only [maskKey, h2, h3, eqNoCase_self, if_true, hm]
  simp

theorem maskKey_package_sub (e : CrEnv) (rand : Bytes → Bytes) (fuel : Nat) (t : MaskTable)
    (ds : List Bytes) (x m key : Bytes) (hd : ∀ d ∈ ds, IsName d) (hx : IsName x)
    (hp : ¬ eqNoCase b!"package.mo" x) (hl : (relPath (ds ++ [x])).length + 1 ≤ 4096)
    (hm : t.find (dirName ds) = some m) (hm2 : t.find (dirName (ds ++ [x])) = none) :
    maskKey e rand (fuel + 2) t (relPath (ds ++ [x] ++ [b!"package.mo"])) key =
      .ok ⟨addItem t.isEmpty t (relPath (ds ++ [x])) (rand (relPath (ds ++ [x]))), e.mask key m, 1,
        rand (relPath (ds ++ [x]))⟩ := by
  have hdx : ∀ d ∈ ds ++ [x], IsName d := by
    intro d h; rcases List.mem_append.1 h with h | h
    · exact hd d h
    · simp at h; subst h; exact hx
  obtain ⟨-, h2, h3, -⟩ := path_facts (ds ++ [x]) b!"package.mo" hdx isName_package hl
  have hl' : (relPath ds).length + 1 ≤ 4096 := by
    by_cases hds : ds = []
    · subst hds; simp [relPath]
    · rw [relPath_snoc ds x hds] at hl; simp at hl; omega
  have hrec := maskKey_dir e rand fuel t ds x m key hd hx hp hl' hm
  have h4 : dirName (ds ++ [x]) = relPath (ds ++ [x]) := by simp [dirName]
  have hh := relPath_head (ds ++ [x]) (by simp) hdx
  rw [h4] at h3 hm2
  rw [maskKey]
  simp only [h2, h3, eqNoCase_self, if_true, hm2]
  rw [if_neg hh, hrec]
  simp

theorem packaged_prefix_split {keyLen : Nat} {jobs : List Job} (hP : Packaged keyLen jobs)
    {done : List Job} {j : Job} {rest : List Job} (hs : jobs = done ++ j :: rest)
    {ds : List Bytes} (hpre : ds <+: j.dirs) (hne : ¬ (j.isPackage ∧ ds = j.dirs)) :
    ∃ m, maskOf done ds = some m := by
  obtain ⟨k, hk, h1, h2⟩ := hP.first done j rest hs ds hpre hne
  exact maskOf_of_mem hk h2 h1

theorem packaged_fresh {keyLen : Nat} {jobs : List Job} (hP : Packaged keyLen jobs)
    {done : List Job} {j : Job} {rest : List Job} (hs : jobs = done ++ j :: rest)
    (hp : j.isPackage) : maskOf done j.dirs = none := by
  cases h : maskOf done j.dirs with
  | none => rfl
  | some m =>
    obtain ⟨k, hk, h1, h2, -⟩ := maskOf_some h
    have hn := hP.nodup
    rw [hs, List.map_append, List.map_cons, List.nodup_append] at hn
    have := hn.2.2 (k.dirs, k.name) (List.mem_map_of_mem hk) (j.dirs, j.name) (by simp)
    simp [Job.isPackage] at hp h1
    simp [h2, hp, h1] at this

theorem encStep (e : CrEnv) (he : GoodEnv e) {jobs : List Job} (hP : Packaged e.keyLen jobs)
    {done : List Job} {j : Job} {rest : List Job} (hs : jobs = done ++ j :: rest)
    {t : MaskTable} (ht : EncInv done t) (hl : (relPath j.dirs).length + 1 ≤ 4096) :
    ∃ t' out, crEncrypt e t j.path j.iv (fun _ => j.mask) j.plain false (fun _ => true) =
        .ok (t', out, true) ∧ EncInv (done ++ [j]) t' ∧
      Encrypted e.C (fileKeyOf e (maskOf done) j.dirs j.isPackage)
        ((fileKeyOf e (maskOf done) j.dirs j.isPackage).take e.keyLen) j.iv
        (j.plain ++ if j.isPackage then j.mask else []) out := by
  have hj : j ∈ jobs := by rw [hs]; simp
  obtain ⟨hname, hcase, hdirs⟩ := hP.names j hj
  obtain ⟨hiv, hmask⟩ := hP.draws j hj
  have hdn : ∀ d ∈ j.dirs, IsName d := fun d h => (hdirs d h).1
  have hml : j.mask.length ≤ 32 := by rw [hmask]; exact he.keyLen
  -- what the key masking gives
  have key : ∃ t' flag, maskKey e (fun _ => j.mask) (j.path.length + 2) t j.path e.key =
      .ok ⟨t', fileKeyOf e (maskOf done) j.dirs j.isPackage, flag, if j.isPackage then j.mask else []⟩ ∧
      (flag = if j.isPackage then 1 else 0) ∧ EncInv (done ++ [j]) t' := by
    have inv : ∀ t' : MaskTable, (∀ ds, (∀ d ∈ ds, IsName d) → t'.find (dirName ds) =
        (maskOf done ds).or (if j.isPackage ∧ j.dirs = ds then some j.mask else none)) → t' ≠ [] →
        EncInv (done ++ [j]) t' := by
      intro t' h1 h2
      refine ⟨fun ds hds => ?_, fun _ => h2⟩
      rw [h1 ds hds, maskOf_append]
      congr 1
      unfold maskOf
      by_cases hjd : j.isPackage ∧ j.dirs = ds
      · simp [hjd]
      · simp [List.find?, hjd]
    by_cases hp : j.isPackage
    · have hfresh := packaged_fresh hP hs hp
      have hfind : t.find (dirName j.dirs) = none := by rw [ht.1 _ hdn, hfresh]
      have hpath : j.path = relPath (j.dirs ++ [b!"package.mo"]) := by
        unfold Job.path; rw [hp]
      -- the table after adding the item
      have tab : EncInv (done ++ [j]) (addItem t.isEmpty t (dirName j.dirs) j.mask) := by
        apply inv
        · intro ds hds
          have hsingle : MaskTable.find [(dirName j.dirs, j.mask)] (dirName ds) =
              if j.isPackage ∧ j.dirs = ds then some j.mask else none := by
            rw [MaskTable.find_single]
            by_cases hd : j.dirs = ds
            · simp [hd, hp]
            · have : dirName j.dirs ≠ dirName ds := fun h => hd (dirName_inj hdn hds h)
              simp [hd, this]
          unfold addItem
          cases t with
          | nil =>
            have h0 : maskOf done ds = none := by
              rw [← ht.1 ds hds]; rfl
            simp [hsingle, h0]
          | cons x xs =>
            simp only [List.isEmpty_cons, Bool.false_eq_true, if_false]
            rw [MaskTable.find_append, hsingle, ht.1 ds hds]
        · unfold addItem; split <;> simp
      by_cases hroot : j.dirs = []
      · refine ⟨_, 1, ?_, by simp [hp], tab⟩
        have h1 : j.path = b!"package.mo" := by rw [hpath, hroot]; rfl
        have h2 := maskKey_package_root e (fun _ => j.mask) (j.path.length + 1) t e.key
          (by rw [← hroot]; exact hfind)
        rw [← h1] at h2
        rw [h2]
        simp [fileKeyOf, hp, hroot, dirName]
      · obtain ⟨ds, x, hdx⟩ : ∃ ds x, j.dirs = ds ++ [x] :=
          ⟨_, _, (List.dropLast_append_getLast hroot).symm⟩
        obtain ⟨m, hm⟩ := packaged_prefix_split hP hs (ds := ds) (by rw [hdx]; simp)
          (by rw [hdx]; simp)
        have hds : ∀ d ∈ ds, IsName d := fun d h => hdn d (by rw [hdx]; simp [h])
        have hx := hdirs x (by rw [hdx]; simp)
        have h2 := maskKey_package_sub e (fun _ => j.mask) j.path.length t ds x m e.key hds hx.1
          hx.2.1 (by rw [← hdx]; exact hl) (by rw [ht.1 ds hds, hm]) (by rw [← hdx]; exact hfind)
        rw [← hdx, ← hpath] at h2
        refine ⟨_, 1, ?_, by simp [hp], tab⟩
        rw [h2]
        have h3 : dirName j.dirs = relPath j.dirs := by simp [dirName, hroot]
        have h4 : j.dirs.dropLast = ds := by rw [hdx]; simp
        simp [fileKeyOf, hp, hroot, h3, h4, hm]
    · have hnp : ¬ eqNoCase b!"package.mo" j.name := fun h => hp (hcase h)
      obtain ⟨m, hm⟩ := packaged_prefix_split hP hs (ds := j.dirs) (List.prefix_refl _) (by simp [hp])
      have h1 := maskKey_dir e (fun _ => j.mask) (j.path.length + 1) t j.dirs j.name m e.key hdn hname
        hnp hl (by rw [ht.1 _ hdn, hm])
      refine ⟨t, 0, ?_, by simp [hp], ?_⟩
      · rw [show relPath (j.dirs ++ [j.name]) = j.path from rfl] at h1
        rw [h1]; simp [fileKeyOf, hp, hm]
      · apply inv
        · intro ds hds; rw [ht.1 ds hds]; simp [hp]
        · apply ht.2
          intro hd; rw [hd] at hm; simp [maskOf] at hm
  obtain ⟨t', flag, h1, h2, h3⟩ := key
  obtain ⟨ws, h4, h5⟩ := encBody_spec e he (fileKeyOf e (maskOf done) j.dirs j.isPackage) j.iv j.plain
    hiv flag (if j.isPackage then j.mask else []) (by split <;> simp [hml])
  refine ⟨t', j.iv ++ ws.flatten, ?_, h3, ?_⟩
  · have h6 : ¬ flag < 0 := by rw [h2]; split <;> omega
    simp [crEncrypt, h1, h4, h6, runWrites_all]
  · have : (if flag ≠ 0 then (if j.isPackage then j.mask else []) else []) =
        if j.isPackage then j.mask else [] := by
      rw [h2]; by_cases hp : j.isPackage <;> simp [hp]
    rw [this] at h5; exact h5

theorem maskOf_mono {a b : List Job} {ds : List Bytes} {m : Bytes} (h : maskOf a ds = some m) :
    maskOf (a ++ b) ds = some m := by rw [maskOf_append, h]; rfl

/-- `content` is what the encryptor makes of `j` in the library `jobs`. -/
def EncOf (e : CrEnv) (jobs : List Job) (j : Job) (content : Bytes) : Prop :=
  Encrypted e.C (fileKeyOf e (maskOf jobs) j.dirs j.isPackage)
    ((fileKeyOf e (maskOf jobs) j.dirs j.isPackage).take e.keyLen) j.iv
    (j.plain ++ if j.isPackage then j.mask else []) content

theorem fileKeyOf_done {e : CrEnv} {jobs : List Job} (hP : Packaged e.keyLen jobs)
    {done : List Job} {j : Job} {rest : List Job} (hs : jobs = done ++ j :: rest) :
    fileKeyOf e (maskOf done) j.dirs j.isPackage = fileKeyOf e (maskOf jobs) j.dirs j.isPackage := by
  unfold fileKeyOf
  by_cases hp : j.isPackage
  · by_cases hr : j.dirs = []
    · simp [hp, hr]
    · obtain ⟨m, hm⟩ := packaged_prefix_split hP hs (ds := j.dirs.dropLast) (List.dropLast_prefix _)
        (by
          rintro ⟨-, h⟩
          have := congrArg List.length h
          have : 0 < j.dirs.length := List.length_pos_iff.2 hr
          simp at *; omega)
      have h2 : maskOf jobs j.dirs.dropLast = some m := by rw [hs]; exact maskOf_mono hm
      simp [hp, hr, hm, h2]
  · obtain ⟨m, hm⟩ := packaged_prefix_split hP hs (ds := j.dirs) (List.prefix_refl _) (by simp [hp])
    have h2 : maskOf jobs j.dirs = some m := by rw [hs]; exact maskOf_mono hm
    simp [hp, hm, h2]

theorem encryptAll_spec (e : CrEnv) (he : GoodEnv e) {jobs : List Job} (hP : Packaged e.keyLen jobs)
    (hl : ∀ j ∈ jobs, (relPath j.dirs).length + 1 ≤ 4096) (rest done : List Job)
    (hs : jobs = done ++ rest) (t : MaskTable) (ht : EncInv done t) :
    ∃ outs, encryptAll e t rest = .ok (some outs) ∧
      List.Forall₂ (fun j o => o.1 = j.path ++ b!"c" ∧ EncOf e jobs j o.2) rest outs := by
  induction rest generalizing done t with
  | nil => exact ⟨[], rfl, .nil⟩
  | cons j rest ih =>
    obtain ⟨t', out, h1, h2, h3⟩ := encStep e he hP hs ht (hl j (by rw [hs]; simp))
    obtain ⟨outs, h4, h5⟩ := ih (done ++ [j]) (by rw [hs]; simp) t' h2
    refine ⟨(j.path ++ b!"c", out) :: outs, ?_, .cons ⟨rfl, ?_⟩ h5⟩
    · simp [encryptAll, h1, h4]
    · rw [fileKeyOf_done hP hs] at h3; exact h3

theorem encInv_nil : EncInv [] [] := ⟨fun _ _ => rfl, by simp⟩

/-! ## Decryption -/

/-- Every entry of the cache is a mask of the library. -/
def DecInv (jobs : List Job) (t : MaskTable) : Prop :=
  ∀ ds, (∀ d ∈ ds, IsName d) → ∀ m, t.find (dirName ds) = some m → maskOf jobs ds = some m

/-- The encrypted files of the library can be read below the base directory. -/
def LibRead (e : CrEnv) (jobs : List Job) : Prop :=
  ∀ j ∈ jobs, ∃ content, e.read (e.basedir ++ b!"/" ++ (j.path ++ b!"c")) = some content ∧
    EncOf e jobs j content

theorem mask_of_concat (e : CrEnv) (key plain m : Bytes) (hm : m.length = e.keyLen) :
    e.mask key (((plain ++ m).drop plain.length).take e.keyLen) = e.mask key m := by
  rw [List.drop_left, ← hm, List.take_length]

theorem relPath_packagec_length (ds : List Bytes) :
    (relPath (ds ++ [b!"package.moc"])).length = if ds = [] then 11 else (relPath ds).length + 12 := by
  by_cases h : ds = []
  · subst h; rfl
  · rw [relPath_snoc ds _ h, if_neg h]; simp

theorem storeKeymask_package (t : MaskTable) (ds : List Bytes) (m : Bytes) (hd : ∀ d ∈ ds, IsName d)
    (hl : (relPath (ds ++ [b!"package.moc"])).length < 4096) :
    storeKeymask t (relPath (ds ++ [b!"package.moc"])) m =
      .ok (match t.find (dirName ds) with | some _ => t | none => t ++ [(dirName ds, m)]) := by
  have hlen := relPath_packagec_length ds
  unfold storeKeymask
  by_cases h : ds = []
  · subst h
    have h1 : relPath ([] ++ [b!"package.moc"]) = b!"package.moc" := rfl
    have h2 : dirName [] = b!"/" := rfl
    rw [h1, h2]
    simp [longFileNameMax]
    cases t.find b!"/" <;> rfl
  · rw [if_neg h] at hlen
    have hne : 0 < (relPath ds).length := List.length_pos_iff.2 (relPath_ne_nil ds h hd)
    rw [if_neg (by omega)]
    have h12 : (relPath (ds ++ [b!"package.moc"])).length - 12 = (relPath ds).length := by omega
    have h3 : ¬ ((relPath (ds ++ [b!"package.moc"])).length = 11 ∨ (relPath ds).length = 0) := by omega
    have h4 : (relPath (ds ++ [b!"package.moc"])).take (relPath ds).length = relPath ds := by
      rw [relPath_snoc ds _ h, List.append_assoc, List.take_left]
    simp only [h12]
    rw [if_neg (by simp [longFileNameMax]; omega)]
    simp only [h3, if_false, h4]
    have h5 : dirName ds = relPath ds := by simp [dirName, h]
    rw [h5]
    cases t.find (relPath ds) <;> rfl

theorem decInv_store {jobs : List Job} {t : MaskTable} (ht : DecInv jobs t) {ds : List Bytes}
    (hd : ∀ d ∈ ds, IsName d) {m : Bytes} (hm : maskOf jobs ds = some m) :
    DecInv jobs (match t.find (dirName ds) with | some _ => t | none => t ++ [(dirName ds, m)]) := by
  cases h : t.find (dirName ds) with
  | some _ => exact ht
  | none =>
    intro ds' hd' m' hm'
    simp only at hm'
    rw [MaskTable.find_append, MaskTable.find_single] at hm'
    cases h2 : t.find (dirName ds') with
    | some x => rw [h2] at hm'; simp at hm'; subst hm'; exact ht ds' hd' _ h2
    | none =>
      rw [h2] at hm'
      by_cases h3 : dirName ds = dirName ds'
      · have := dirName_inj hd hd' h3
        simp [h3] at hm'; subst hm'; subst this; exact hm
      · simp [h3] at hm'

theorem job_unique {jobs : List Job} (hN : (jobs.map fun j => (j.dirs, j.name)).Nodup)
    {j k : Job} (hj : j ∈ jobs) (hk : k ∈ jobs) (hd : j.dirs = k.dirs) (hn : j.name = k.name) :
    j = k := by
  obtain ⟨a, b, hs⟩ := List.append_of_mem hj
  have hn' := hN
  rw [hs, List.map_append, List.map_cons, List.nodup_append] at hn'
  rw [hs] at hk
  rcases List.mem_append.1 hk with h | h
  · exact absurd (by simp [hd, hn])
      (hn'.2.2 (k.dirs, k.name) (List.mem_map_of_mem h) (j.dirs, j.name) (by simp))
  · rcases List.mem_cons.1 h with h | h
    · exact h.symm
    · exact absurd (by rw [hd, hn]; exact List.mem_map_of_mem (f := fun j : Job => (j.dirs, j.name)) h)
        (List.nodup_cons.1 hn'.2.1).1

theorem complete_unique {keyLen : Nat} {jobs : List Job} (hP : Complete keyLen jobs) {j : Job}
    (hj : j ∈ jobs) (hp : j.isPackage) : maskOf jobs j.dirs = some j.mask := by
  obtain ⟨m, hm⟩ := maskOf_of_mem hj hp rfl
  obtain ⟨k, hk, hkp, hkd, hkm⟩ := maskOf_some hm
  have := job_unique hP.nodup hk hj hkd (by rw [hkp, hp])
  rw [hm, ← hkm, this]

theorem packaged_prefix {keyLen : Nat} {jobs : List Job} (hP : Packaged keyLen jobs) {j : Job}
    (hj : j ∈ jobs) {ds : List Bytes} (hpre : ds <+: j.dirs) :
    ∃ k ∈ jobs, k.dirs = ds ∧ k.isPackage := by
  obtain ⟨a, b, hs⟩ := List.append_of_mem hj
  by_cases h : j.isPackage ∧ ds = j.dirs
  · exact ⟨j, hj, h.2.symm, h.1⟩
  · obtain ⟨k, hk, h1, h2⟩ := hP.first a j b hs ds hpre h
    exact ⟨k, by rw [hs]; simp [hk], h1, h2⟩

/-- Forgetting the order. -/
theorem Spec.Packaged.complete {keyLen : Nat} {jobs : List Job} (hP : Packaged keyLen jobs) :
    Complete keyLen jobs :=
  ⟨hP.names, hP.draws, hP.nodup, fun _ hj _ hpre => packaged_prefix hP hj hpre⟩

theorem package_path {k : Job} (h : k.isPackage) : k.path ++ b!"c" = relPath (k.dirs ++ [b!"package.moc"]) := by
  unfold Job.path
  rw [h]
  by_cases hd : k.dirs = []
  · rw [hd]; rfl
  · rw [relPath_snoc _ _ hd, relPath_snoc _ _ hd]; simp

theorem encOf_length {e : CrEnv} (he : GoodEnv e) {jobs : List Job} (hP : Complete e.keyLen jobs)
    {j : Job} (hj : j ∈ jobs) (hsz : j.plain.length + 96 < 2 ^ 31) {content : Bytes}
    (h : EncOf e jobs j content) : content.length < 2 ^ 31 := by
  have hd := hP.draws j hj
  have := encrypted_length he.crypto hd.1 h
  have hk := he.keyLen
  rw [this, List.length_append]
  split <;> simp <;> omega

/-- What key masking does for a file (not a package file) in directory `ds`. -/
def DemaskDir (e : CrEnv) (jobs : List Job) (ds : List Bytes) : Prop :=
  ∀ k ∈ jobs, k.dirs = ds → k.isPackage → ∀ n, IsName n → ¬ eqNoCase b!"package.moc" n →
    ∀ fuel, 2 * ds.length + 2 ≤ fuel → ∀ t, DecInv jobs t → ∀ key,
    ∃ t', demaskKey e fuel t (relPath (ds ++ [n])) key = .ok (t', e.mask key k.mask, 0) ∧
      DecInv jobs t' ∧ MaskTable.find t' (dirName ds) = some k.mask

/-- What it does for the package file of directory `ds`. -/
def DemaskPkg (e : CrEnv) (jobs : List Job) (ds : List Bytes) : Prop :=
  ∀ k ∈ jobs, k.dirs = ds → k.isPackage →
    ∀ fuel, 2 * ds.length + 1 ≤ fuel → ∀ t, DecInv jobs t →
    ∃ t', demaskKey e fuel t (relPath (ds ++ [b!"package.moc"])) e.key =
      .ok (t', fileKeyOf e (maskOf jobs) ds true, 1) ∧ DecInv jobs t'

theorem relPath_dirs_le (ds : List Bytes) :
    (relPath ds).length + 11 ≤ (relPath (ds ++ [b!"package.moc"])).length := by
  rw [relPath_packagec_length]
  split
  · rename_i h; subst h; simp [relPath]
  · omega

theorem demaskPkg_of (e : CrEnv) {jobs : List Job} (hP : Complete e.keyLen jobs)
    (hsz : SizesOk e jobs) (ds : List Bytes)
    (ih : ds ≠ [] → DemaskDir e jobs ds.dropLast) : DemaskPkg e jobs ds := by
  intro k hk hkd hkp fuel hf t ht
  obtain ⟨f, rfl⟩ : ∃ f, fuel = f + 1 := ⟨fuel - 1, by omega⟩
  have hdirs := (hP.names k hk).2.2
  rw [hkd] at hdirs
  have hdn : ∀ d ∈ ds, IsName d := fun d h => (hdirs d h).1
  have hlen := (hsz k hk).1
  rw [hkd] at hlen
  have hle := relPath_dirs_le ds
  obtain ⟨h1, h2, h3, h4⟩ := path_facts ds b!"package.moc" hdn isName_packagec (by omega)
  unfold demaskKey
  simp only [h2, eqNoCase_self, if_true]
  by_cases hr : ds = []
  · rw [h1, if_pos hr, if_pos rfl]
    exact ⟨t, by simp [fileKeyOf, hr], ht⟩
  · have hpos : (relPath ds).length ≠ 0 := by simpa using relPath_ne_nil ds hr hdn
    rw [h4, h1, if_neg hr, if_neg hpos]
    obtain ⟨ds', x, hdx⟩ : ∃ ds' x, ds = ds' ++ [x] := ⟨_, _, (List.dropLast_append_getLast hr).symm⟩
    have hdl : ds.dropLast = ds' := by rw [hdx]; simp
    obtain ⟨k', hk', hkd', hkp'⟩ := hP.closed _ hk ds' (by rw [hkd, hdx]; simp)
    have hx := hdirs x (by rw [hdx]; simp)
    have hl2 : ds.length = ds'.length + 1 := by rw [hdx]; simp
    obtain ⟨t', h5, h6, -⟩ := ih hr k' hk' (by rw [hdl]; exact hkd') hkp' x hx.1 hx.2.2 f
      (by rw [hdl]; omega) t ht e.key
    rw [hdl, ← hdx] at h5
    rw [h5]
    refine ⟨t', ?_, h6⟩
    have hm := complete_unique hP hk' hkp'
    rw [hkd'] at hm
    simp [fileKeyOf, hr, hdl, hm]

theorem demaskDir_of (e : CrEnv) (he : GoodEnv e) {jobs : List Job} (hP : Complete e.keyLen jobs)
    (hlib : LibRead e jobs) (hsz : SizesOk e jobs)
    (hne : ∀ j ∈ jobs, j.isPackage → j.plain ≠ []) (ds : List Bytes)
    (hpkg : DemaskPkg e jobs ds) : DemaskDir e jobs ds := by
  intro k hk hkd hkp n hn hnp fuel hf t ht key
  obtain ⟨f, rfl⟩ : ∃ f, fuel = f + 1 := ⟨fuel - 1, by omega⟩
  have hdn : ∀ d ∈ ds, IsName d := fun d h => ((hP.names k hk).2.2 d (by rw [hkd]; exact h)).1
  have hlen := (hsz k hk).1
  rw [hkd] at hlen
  have hle := relPath_dirs_le ds
  have hle2 := relPath_packagec_length ds
  obtain ⟨h1, h2, h3, h4⟩ := path_facts ds n hdn hn (by omega)
  have hm := complete_unique hP hk hkp
  rw [hkd] at hm
  unfold demaskKey
  simp only [h2, h3, hnp]
  simp only [Bool.false_eq_true, if_false]
  cases hfind : t.find (dirName ds) with
  | some m =>
    have := ht ds hdn m hfind
    rw [hm] at this
    simp only [Option.some.injEq] at this
    exact ⟨t, by simp [this], ht, by rw [hfind, this]⟩
  | none =>
    have hb : ¬ longFileNameMax < lastSlash (relPath (ds ++ [n])) + 13 := by
      rw [h1]
      simp only [longFileNameMax]
      split
      · omega
      · rename_i h; rw [if_neg h] at hle2; omega
    have hq : (if lastSlash (relPath (ds ++ [n])) = 0 then b!"package.moc"
        else (relPath (ds ++ [n])).take (lastSlash (relPath (ds ++ [n]))) ++ b!"/package.moc") =
        relPath (ds ++ [b!"package.moc"]) := by
      rw [h4, h1]
      by_cases hr : ds = []
      · simp [hr, relPath]
      · have hpos : (relPath ds).length ≠ 0 := by simpa using relPath_ne_nil ds hr hdn
        rw [if_neg hr, if_neg hpos, relPath_snoc _ _ hr]; simp
    simp only [hb, if_false, hq]
    have hsn : snprintf longFileNameMax (e.basedir ++ b!"/" ++ relPath (ds ++ [b!"package.moc"])) =
        e.basedir ++ b!"/" ++ relPath (ds ++ [b!"package.moc"]) := by
      unfold snprintf
      rw [List.take_of_length_le]
      simp only [List.length_append, longFileNameMax, List.length_cons, List.length_nil] at *
      omega
    obtain ⟨content, hread, henc⟩ := hlib k hk
    rw [package_path hkp, hkd] at hread
    rw [hsn, hread]
    obtain ⟨t1, h5, h6⟩ := hpkg k hk hkd hkp f (by omega) t ht
    simp only [h5, Res.bind_ok]
    have hcl := encOf_length he hP hk (hsz k hk).2 henc
    have hdr := hP.draws k hk
    unfold EncOf at henc
    simp only [hkp, decide_true, if_true, hkd] at henc
    rw [decryptTail_encrypted e he t1 _ _ k.iv (k.plain ++ k.mask) content hdr.1 1 henc hcl]
    have hpl : 0 < k.plain.length := List.length_pos_iff.2 (hne k hk hkp)
    have hl1 : ¬ (k.plain ++ k.mask).length < e.keyLen := by simp [hdr.2]
    have hl2 : (k.plain ++ k.mask).length - e.keyLen = k.plain.length := by simp [hdr.2]
    rw [if_pos (by decide), if_neg hl1, hl2, storeKeymask_package t1 ds _ hdn (by omega)]
    refine ⟨_, ?_, decInv_store h6 hdn hm, ?_⟩
    · simp only [Res.bind_ok]
      rw [if_pos (by omega), Int.toNat_natCast, mask_of_concat e key _ _ hdr.2, List.drop_left]
    · cases h7 : t1.find (dirName ds) with
      | some m =>
        have := h6 ds hdn m h7
        rw [hm] at this
        simp only [Option.some.injEq] at this
        simp only [h7, this]
      | none =>
        simp only
        rw [MaskTable.find_append, h7, MaskTable.find_single, if_pos rfl]; rfl

/-- Key masking works for every directory of the library. -/
theorem demask_lib (e : CrEnv) (he : GoodEnv e) {jobs : List Job} (hP : Complete e.keyLen jobs)
    (hlib : LibRead e jobs) (hsz : SizesOk e jobs)
    (hne : ∀ j ∈ jobs, j.isPackage → j.plain ≠ []) (ds : List Bytes) :
    DemaskPkg e jobs ds ∧ DemaskDir e jobs ds := by
  induction h : ds.length using Nat.strongRecOn generalizing ds with
  | _ n ih =>
    have h1 : DemaskPkg e jobs ds := demaskPkg_of e hP hsz ds fun hr =>
      (ih ds.dropLast.length (by
        have : 0 < ds.length := List.length_pos_iff.2 hr
        simp; omega) _ rfl).2
    exact ⟨h1, demaskDir_of e he hP hlib hsz hne ds h1⟩

theorem relPath_length_ge (ds : List Bytes) (n : Bytes) (hd : ∀ d ∈ ds, IsName d) :
    2 * ds.length ≤ (relPath (ds ++ [n])).length := by
  induction ds with
  | nil => simp
  | cons d ds ih =>
    have h1 := ih fun d h => hd d (by simp [h])
    have h2 : 0 < d.length := List.length_pos_iff.2 (hd d (by simp)).1
    cases ds with
    | nil => simp [relPath] at *; omega
    | cons x xs => simp only [List.cons_append, relPath, List.length_append, List.length_cons] at *; simp; omega

/-- One decryption request for a file of the library. -/
theorem decrypt_lib (e : CrEnv) (he : GoodEnv e) {jobs : List Job} (hP : Complete e.keyLen jobs)
    (hlib : LibRead e jobs) (hsz : SizesOk e jobs)
    (hne : ∀ j ∈ jobs, j.isPackage → j.plain ≠ []) (j : Job) (hj : j ∈ jobs) (t : MaskTable)
    (ht : DecInv jobs t) (content : Bytes) (hc : EncOf e jobs j content) :
    ∃ t' out, crDecrypt e t (j.path ++ b!"c") content = .ok (t', (j.plain.length : Int), out) ∧
      out.take j.plain.length = j.plain ∧ DecInv jobs t' := by
  have hcl := encOf_length he hP hj (hsz j hj).2 hc
  have hdr := hP.draws j hj
  obtain ⟨hname, hcase, hdirs⟩ := hP.names j hj
  have hdn : ∀ d ∈ j.dirs, IsName d := fun d h => (hdirs d h).1
  have hlen := (hsz j hj).1
  obtain ⟨hpk, hdk⟩ := demask_lib e he hP hlib hsz hne j.dirs
  unfold EncOf at hc
  unfold crDecrypt
  by_cases hp : j.isPackage
  · rw [package_path hp]
    obtain ⟨t1, h5, h6⟩ := hpk j hj rfl hp (demaskFuel (relPath (j.dirs ++ [b!"package.moc"])))
      (by unfold demaskFuel; have := relPath_length_ge j.dirs b!"package.moc" hdn; omega) t ht
    simp only [hp, decide_true, if_true] at hc
    rw [h5]
    simp only [Res.bind_ok]
    rw [decryptTail_encrypted e he t1 _ _ j.iv (j.plain ++ j.mask) content hdr.1 1 hc hcl]
    have hl1 : ¬ (j.plain ++ j.mask).length < e.keyLen := by simp [hdr.2]
    have hl2 : (j.plain ++ j.mask).length - e.keyLen = j.plain.length := by simp [hdr.2]
    rw [if_pos (by decide), if_neg hl1, hl2, storeKeymask_package t1 j.dirs _ hdn (by omega),
      List.drop_left]
    exact ⟨_, _, rfl, by simp, decInv_store h6 hdn (complete_unique hP hj hp)⟩
  · obtain ⟨k, hk, hkd, hkp⟩ := hP.closed j hj _ (List.prefix_refl j.dirs)
    have hn2 : IsName (j.name ++ b!"c") := by
      refine ⟨by simp, fun c hc => ?_⟩
      rcases List.mem_append.1 hc with h | h
      · exact hname.2 c h
      · simp at h; subst h; decide
    have hnp2 : ¬ eqNoCase b!"package.moc" (j.name ++ b!"c") := by
      intro h
      apply hp
      apply hcase
      simp only [eqNoCase, beq_iff_eq, List.map_append] at h ⊢
      have h' : (b!"package.mo".map toLower) ++ (b!"c".map toLower) = j.name.map toLower ++ b!"c".map toLower := h
      exact List.append_cancel_right h'
    have hpath : j.path ++ b!"c" = relPath (j.dirs ++ [j.name ++ b!"c"]) := by
      unfold Job.path
      by_cases hd : j.dirs = []
      · rw [hd]; rfl
      · rw [relPath_snoc _ _ hd, relPath_snoc _ _ hd]; simp
    rw [hpath]
    obtain ⟨t1, h5, h6, -⟩ := hdk k hk hkd hkp (j.name ++ b!"c") hn2 hnp2
      (demaskFuel (relPath (j.dirs ++ [j.name ++ b!"c"])))
      (by unfold demaskFuel; have := relPath_length_ge j.dirs (j.name ++ b!"c") hdn; omega) t ht e.key
    rw [h5]
    simp only [Res.bind_ok]
    have hm := complete_unique hP hk hkp
    rw [hkd] at hm
    simp only [hp, decide_false, Bool.false_eq_true, if_false, List.append_nil, fileKeyOf, hm,
      Option.getD_some] at hc
    rw [decryptTail_encrypted e he t1 _ _ j.iv j.plain content hdr.1 0 hc hcl]
    exact ⟨t1, j.plain, by simp, by simp, h6⟩

theorem decryptAll_lib (e : CrEnv) (he : GoodEnv e) {jobs : List Job} (hP : Complete e.keyLen jobs)
    (hlib : LibRead e jobs) (hsz : SizesOk e jobs)
    (hne : ∀ j ∈ jobs, j.isPackage → j.plain ≠ []) (reqs : List Job) (hr : ∀ j ∈ reqs, j ∈ jobs)
    (t : MaskTable) (ht : DecInv jobs t) :
    ∃ t', decryptAll e t (reqs.map fun j => j.path ++ b!"c") =
      .ok (t', reqs.map fun j => some j.plain) ∧ DecInv jobs t' := by
  induction reqs generalizing t with
  | nil => exact ⟨t, rfl, ht⟩
  | cons j reqs ih =>
    obtain ⟨content, h1, h2⟩ := hlib j (hr j (by simp))
    obtain ⟨t', out, h3, h4, h5⟩ := decrypt_lib e he hP hlib hsz hne j (hr j (by simp)) t ht content h2
    obtain ⟨t2, h6, h7⟩ := ih (fun j h => hr j (by simp [h])) t' h5
    refine ⟨t2, ?_, h7⟩
    simp only [List.map_cons, decryptAll, h1, h3, Res.bind_ok, h6]
    simp [h4]

theorem decInv_nil (jobs : List Job) : DecInv jobs [] := by
  intro ds _ m h; simp [MaskTable.find] at h

end Semla
