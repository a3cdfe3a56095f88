import Verif.Lemmas.CrSafe

/-! # Helper lemmas: encryption of libraries where some directories lack a package file -/

set_option linter.unusedSimpArgs false

namespace Semla

open Semla.Spec

/-- Mask in force, computed (argument: reversed directory list). -/
def nearR (keyLen : Nat) (M : List Bytes → Option Bytes) : List Bytes → Bytes
  | [] => (M []).getD (List.replicate keyLen 0)
  | x :: r => (M (r.reverse ++ [x])).getD (nearR keyLen M r)

def near (keyLen : Nat) (jobs : List Job) (ds : List Bytes) : Bytes :=
  nearR keyLen (maskOf jobs) ds.reverse

theorem near_nil (keyLen : Nat) (jobs : List Job) :
    near keyLen jobs [] = (maskOf jobs []).getD (List.replicate keyLen 0) := rfl

theorem near_snoc (keyLen : Nat) (jobs : List Job) (ds : List Bytes) (x : Bytes) :
    near keyLen jobs (ds ++ [x]) = (maskOf jobs (ds ++ [x])).getD (near keyLen jobs ds) := by
  simp [near, nearR]

theorem near_some {keyLen : Nat} {jobs : List Job} {ds : List Bytes} {m : Bytes}
    (h : maskOf jobs ds = some m) : near keyLen jobs ds = m := by
  by_cases hd : ds = []
  · subst hd; rw [near_nil, h]; rfl
  · rw [(List.dropLast_append_getLast hd).symm] at h ⊢
    rw [near_snoc, h]; rfl

theorem maskOf_none_not_mem {jobs : List Job} {ds : List Bytes} (h : maskOf jobs ds = none) :
    ∀ k ∈ jobs, k.isPackage → k.dirs ≠ ds := by
  intro k hk hp hd
  obtain ⟨m, hm⟩ := maskOf_of_mem hk hp hd
  rw [h] at hm; simp at hm

theorem prefix_snoc {a ds : List Bytes} {x : Bytes} (h : a <+: ds ++ [x]) (hne : a ≠ ds ++ [x]) :
    a <+: ds := by
  rcases List.prefix_concat_iff.1 h with h | h
  · exact absurd h hne
  · exact h

theorem near_inForce (keyLen : Nat) (jobs : List Job) (ds : List Bytes) :
    MaskInForce keyLen jobs ds (near keyLen jobs ds) := by
  have key : ∀ ds m, maskOf jobs ds = some m → MaskInForce keyLen jobs ds m := by
    intro ds m h
    obtain ⟨k, hk, h1, h2, h3⟩ := maskOf_some h
    exact Or.inl ⟨k, hk, h1, h2 ▸ List.prefix_refl _, h3, fun k' _ _ hp => by
      have := hp.length_le; rw [h2]; exact this⟩
  induction h : ds.length generalizing ds with
  | zero =>
    have : ds = [] := List.length_eq_zero_iff.1 h
    subst this
    rw [near_nil]
    cases hm : maskOf jobs [] with
    | some m => exact key _ _ hm
    | none =>
      refine Or.inr ⟨fun k hk hp hpre => ?_, rfl⟩
      exact maskOf_none_not_mem hm k hk hp (List.prefix_nil.1 hpre)
  | succ n ih =>
    have hd : ds ≠ [] := by intro h'; subst h'; simp at h
    obtain ⟨ds', x, rfl⟩ : ∃ ds' x, ds = ds' ++ [x] := ⟨_, _, (List.dropLast_append_getLast hd).symm⟩
    rw [near_snoc]
    cases hm : maskOf jobs (ds' ++ [x]) with
    | some m => exact key _ _ hm
    | none =>
      simp only [Option.getD_none]
      have hno := maskOf_none_not_mem hm
      rcases ih ds' (by simp at h; exact h) with ⟨k, hk, h1, h2, h3, h4⟩ | ⟨h1, h2⟩
      · exact Or.inl ⟨k, hk, h1, h2.trans (by simp), h3, fun k' hk' hp' hpre =>
          h4 k' hk' hp' (prefix_snoc hpre (hno k' hk' hp'))⟩
      · exact Or.inr ⟨fun k hk hp hpre => h1 k hk hp (prefix_snoc hpre (hno k hk hp)), h2⟩

theorem near_length {keyLen : Nat} {jobs : List Job} (hd : ∀ j ∈ jobs, j.mask.length = keyLen)
    (ds : List Bytes) : (near keyLen jobs ds).length = keyLen := by
  rcases near_inForce keyLen jobs ds with ⟨k, hk, _, _, h3, _⟩ | ⟨_, h2⟩
  · rw [← h3]; exact hd k hk
  · rw [h2]; simp

/-! ## The table -/

/-- Cached masks are the masks in force; package files encrypted so far are cached. -/
structure LooseInv (keyLen : Nat) (jobs done : List Job) (t : MaskTable) : Prop where
  value : ∀ ds, (∀ d ∈ ds, IsName d) → ∀ m, t.find (dirName ds) = some m →
    m = near keyLen jobs ds ∧ ∃ j ∈ done, ds <+: j.dirs
  kept : ∀ k ∈ done, k.isPackage → ∃ m, t.find (dirName k.dirs) = some m

theorem LooseInv.add {keyLen : Nat} {jobs done : List Job} {t0 t : MaskTable}
    (h : LooseInv keyLen jobs done t) (h0 : t0 = [] → ∀ k ∈ done, ¬ k.isPackage)
    {ds : List Bytes} (hds : ∀ d ∈ ds, IsName d) (hpre : ∃ j ∈ done, ds <+: j.dirs) :
    LooseInv keyLen jobs done (addItem t0.isEmpty t (dirName ds) (near keyLen jobs ds)) := by
  constructor
  · intro ds' hds' m hm
    unfold addItem at hm
    have hone : ∀ m, MaskTable.find [(dirName ds, near keyLen jobs ds)] (dirName ds') = some m →
        m = near keyLen jobs ds' ∧ ∃ j ∈ done, ds' <+: j.dirs := by
      intro m' hm'
      rw [MaskTable.find_single] at hm'
      split at hm'
      · rename_i he
        have := dirName_inj hds hds' he
        subst this
        simp at hm'
        exact ⟨hm'.symm, hpre⟩
      · simp at hm'
    split at hm
    · exact hone m hm
    · rw [MaskTable.find_append] at hm
      cases hf : t.find (dirName ds') with
      | some x => rw [hf] at hm; simp at hm; subst hm; exact h.value ds' hds' _ hf
      | none => rw [hf] at hm; exact hone m (by simpa using hm)
  · intro k hk hp
    unfold addItem
    split
    · rename_i he
      exact absurd hp (h0 (List.isEmpty_iff.1 he) k hk)
    · rw [MaskTable.find_append]
      obtain ⟨m, hm⟩ := h.kept k hk hp
      exact ⟨m, by rw [hm]; rfl⟩

theorem mask_zeros (e : CrEnv) (m : Bytes) (hm : m.length = e.keyLen) :
    e.mask (List.replicate e.keyLen 0) m = m := by
  unfold CrEnv.mask
  rw [List.take_of_length_le (by simp), List.drop_of_length_le (by simp), List.append_nil,
    xorBytes_comm, xorBytes_zero _ _ (by omega)]

/-- Key masking of a file that is not a package file, in directory `ds`. -/
theorem maskKey_loose (e : CrEnv) (rand : Bytes → Bytes) {jobs done : List Job}
    (hm : ∀ j ∈ jobs, j.mask.length = e.keyLen) (j0 : Job) (hj0 : j0 ∈ done)
    (ds : List Bytes) (hpre : ds <+: j0.dirs) (hd : ∀ d ∈ ds, IsName d)
    (hdp : ∀ d ∈ ds, ¬ eqNoCase b!"package.mo" d)
    (hpk : ∀ k ∈ jobs, k.isPackage → k.dirs <+: ds → k ∈ done)
    (hl : (relPath ds).length + 1 ≤ 4096) (n : Bytes) (hn : IsName n)
    (hnp : ¬ eqNoCase b!"package.mo" n) (fuel : Nat) (hf : ds.length < fuel) (t : MaskTable)
    (ht : LooseInv e.keyLen jobs done t) (key : Bytes) :
    ∃ t', maskKey e rand fuel t (relPath (ds ++ [n])) key =
        .ok ⟨t', e.mask key (near e.keyLen jobs ds), 0, []⟩ ∧ LooseInv e.keyLen jobs done t' ∧ t' ≠ [] := by
  induction fuel generalizing ds n t key with
  | zero => omega
  | succ fuel ih =>
    obtain ⟨-, h2, h3, -⟩ := path_facts ds n hd hn hl
    have hempty : t = [] → ∀ k ∈ done, ¬ k.isPackage := by
      intro h0 k hk hp
      obtain ⟨m, h⟩ := ht.kept k hk hp
      rw [h0] at h; simp [MaskTable.find] at h
    simp only [maskKey, h2, h3, hnp]
    simp only [Bool.false_eq_true, if_false]
    cases hfind : t.find (dirName ds) with
    | some m =>
      have := (ht.value ds hd m hfind).1
      refine ⟨t, by simp [this], ht, ?_⟩
      intro h0; rw [h0] at hfind; simp [MaskTable.find] at hfind
    | none =>
      have hnone : maskOf jobs ds = none := by
        cases hmo : maskOf jobs ds with
        | none => rfl
        | some m =>
          obtain ⟨k, hk, hkp, hkd, _⟩ := maskOf_some hmo
          obtain ⟨m', hm'⟩ := ht.kept k (hpk k hk hkp (hkd ▸ List.prefix_refl _)) hkp
          rw [hkd, hfind] at hm'; simp at hm'
      by_cases hr : ds = []
      · subst hr
        have hhead : (dirName []).head? = some 47 := rfl
        simp only [hhead, if_true, Res.bind_ok]
        have hz : near e.keyLen jobs [] = List.replicate e.keyLen 0 := by rw [near_nil, hnone]; rfl
        refine ⟨addItem t.isEmpty t (dirName []) (near e.keyLen jobs []), ?_,
          ht.add hempty hd ⟨j0, hj0, hpre⟩, ?_⟩
        · rw [hz]; simp
        · unfold addItem; split <;> simp
      · obtain ⟨ds', x, hdx⟩ : ∃ ds' x, ds = ds' ++ [x] :=
          ⟨_, _, (List.dropLast_append_getLast hr).symm⟩
        have hdn : dirName ds = relPath ds := by simp [dirName, hr]
        have hhead : ¬ (dirName ds).head? = some 47 := by rw [hdn]; exact relPath_head ds hr hd
        have hp' : ds' <+: ds := by rw [hdx]; simp
        have hl' : (relPath ds').length + 1 ≤ 4096 := by
          by_cases hds : ds' = []
          · subst hds; simp [relPath]
          · rw [hdx, relPath_snoc ds' x hds] at hl; simp at hl; omega
        obtain ⟨t', h5, h6, h7⟩ := ih ds' (hp'.trans hpre) (fun d h => hd d (by rw [hdx]; simp [h]))
          (fun d h => hdp d (by rw [hdx]; simp [h])) (fun k hk hkp hkd => hpk k hk hkp (hkd.trans hp'))
          hl' x (hd x (by rw [hdx]; simp)) (hdp x (by rw [hdx]; simp))
          (by rw [hdx] at hf; simp at hf; omega) t ht (List.replicate e.keyLen 0)
        rw [mask_zeros e _ (near_length hm ds'), ← hdx] at h5
        have hnr : near e.keyLen jobs ds = near e.keyLen jobs ds' := by
          rw [hdx, near_snoc, ← hdx, hnone]; rfl
        refine ⟨addItem t.isEmpty t' (dirName ds) (near e.keyLen jobs ds), ?_,
          h6.add hempty hd ⟨j0, hj0, hpre⟩, ?_⟩
        · simp only [hhead, if_false]
          rw [hdn, h5, hnr]
          simp
        · unfold addItem; split <;> simp

/-- Invariant kept when a job that does not change the masks in force is appended. -/
theorem LooseInv.mono {keyLen : Nat} {jobs done : List Job} {t : MaskTable}
    (h : LooseInv keyLen jobs done t) (j : Job)
    (hk : j.isPackage → ∃ m, t.find (dirName j.dirs) = some m) :
    LooseInv keyLen jobs (done ++ [j]) t := by
  constructor
  · intro ds hds m hm
    obtain ⟨h1, j', h2, h3⟩ := h.value ds hds m hm
    exact ⟨h1, j', by simp [h2], h3⟩
  · intro k hk' hp
    rcases List.mem_append.1 hk' with h1 | h1
    · exact h.kept k h1 hp
    · simp at h1; subst h1; exact hk hp

theorem packagesFirst_unique {keyLen : Nat} {jobs : List Job} (hP : PackagesFirst keyLen jobs)
    {j k : Job} (hj : j ∈ jobs) (hk : k ∈ jobs) (hd : j.dirs = k.dirs) (hn : j.name = k.name) :
    j = k := job_unique hP.nodup hj hk hd hn

/-- A library with a package file in every directory satisfies the weaker condition. -/
theorem Spec.Packaged.packagesFirst {keyLen : Nat} {jobs : List Job} (hP : Packaged keyLen jobs) :
    PackagesFirst keyLen jobs where
  names j hj := ⟨(hP.names j hj).1, (hP.names j hj).2.1, fun d hd =>
    ⟨((hP.names j hj).2.2 d hd).1, ((hP.names j hj).2.2 d hd).2.1⟩⟩
  draws := hP.draws
  nodup := hP.nodup
  first := by
    intro before j after hs k hk hkp hpre hne
    obtain ⟨k', hk', hd, hp⟩ := hP.first before j after hs k.dirs hpre (by
      rintro ⟨h1, h2⟩
      exact hne (job_unique hP.nodup hk (by rw [hs]; simp) h2 (by rw [hkp, h1])))
    have := job_unique hP.nodup (j := k') (k := k) (by rw [hs]; simp [hk']) hk hd (by rw [hkp, hp])
    exact this ▸ hk'

/-- One call of the encryptor in a library encrypted in a proper order. -/
theorem encStep_loose (e : CrEnv) (he : GoodEnv e) {jobs : List Job}
    (hP : PackagesFirst e.keyLen jobs) {done : List Job} {j : Job} {rest : List Job}
    (hs : jobs = done ++ j :: rest) {t : MaskTable} (ht : LooseInv e.keyLen jobs done t)
    (hl : (relPath j.dirs).length + 1 ≤ 4096) :
    ∃ t' out key, crEncrypt e t j.path j.iv (fun _ => j.mask) j.plain false (fun _ => true) =
        .ok (t', out, true) ∧ LooseInv e.keyLen jobs (done ++ [j]) t' ∧
      KeyOf e jobs j key ∧
      Encrypted e.C key (key.take e.keyLen) j.iv
        (j.plain ++ if j.isPackage then j.mask else []) out := by
  have hj : j ∈ jobs := by rw [hs]; simp
  obtain ⟨hname, hcase, hdirs⟩ := hP.names j hj
  obtain ⟨hiv, hmask⟩ := hP.draws j hj
  have hml : j.mask.length ≤ 32 := by rw [hmask]; exact he.keyLen
  have hdn : ∀ d ∈ j.dirs, IsName d := fun d h => (hdirs d h).1
  have hdp : ∀ d ∈ j.dirs, ¬ eqNoCase b!"package.mo" d := fun d h => (hdirs d h).2
  have hmasks : ∀ j ∈ jobs, j.mask.length = e.keyLen := fun j h => (hP.draws j h).2
  have hnd : j ∉ done := by
    have hn := hP.nodup
    rw [hs, List.map_append, List.map_cons, List.nodup_append] at hn
    intro h
    exact hn.2.2 (j.dirs, j.name) (List.mem_map_of_mem h) (j.dirs, j.name) (by simp) rfl
  have hbefore : ∀ k ∈ jobs, k.isPackage → k.dirs <+: j.dirs → k ≠ j → k ∈ done :=
    fun k hk hp hpre hne => hP.first done j rest hs k hk hp hpre hne
  have hplen : j.dirs.length ≤ j.path.length := by
    have := relPath_length_ge j.dirs j.name hdn
    unfold Job.path; omega
  have hempty : t = [] → ∀ k ∈ done, ¬ k.isPackage := by
    intro h0 k hk hp
    obtain ⟨m, h⟩ := ht.kept k hk hp
    rw [h0] at h; simp [MaskTable.find] at h
  have key : ∃ t' key flag, maskKey e (fun _ => j.mask) (j.path.length + 2) t j.path e.key =
      .ok ⟨t', key, flag, if j.isPackage then j.mask else []⟩ ∧ KeyOf e jobs j key ∧
      (flag = if j.isPackage then 1 else 0) ∧ LooseInv e.keyLen jobs (done ++ [j]) t' := by
    by_cases hp : j.isPackage
    · have hpath : j.path = relPath (j.dirs ++ [b!"package.mo"]) := by unfold Job.path; rw [hp]
      obtain ⟨-, h2, h3, -⟩ := path_facts j.dirs b!"package.mo" hdn isName_package hl
      rw [← hpath] at h2 h3
      have hown : maskOf jobs j.dirs = some j.mask := by
        obtain ⟨m, hm⟩ := maskOf_of_mem hj hp rfl
        obtain ⟨k, hk, hkp, hkd, hkm⟩ := maskOf_some hm
        have := packagesFirst_unique hP hk hj hkd (by rw [hkp, hp])
        rw [hm, ← hkm, this]
      have hnear := near_some (keyLen := e.keyLen) hown
      have hfind : t.find (dirName j.dirs) = none := by
        cases hf : t.find (dirName j.dirs) with
        | none => rfl
        | some m =>
          obtain ⟨-, j', hj', hpre⟩ := ht.value j.dirs hdn m hf
          obtain ⟨a, b, hab⟩ := List.append_of_mem hj'
          have hs2 : jobs = a ++ j' :: (b ++ j :: rest) := by rw [hs, hab]; simp
          have hjj : j ≠ j' := fun h => hnd (h ▸ hj')
          have hin : j ∈ a := hP.first a j' _ hs2 j hj hp hpre hjj
          exact absurd (by rw [hab]; simp [hin]) hnd
      have tab : ∀ t', LooseInv e.keyLen jobs done t' →
          LooseInv e.keyLen jobs (done ++ [j]) (addItem t.isEmpty t' (dirName j.dirs) j.mask) := by
        intro t' ht'
        rw [← hnear]
        have h1 : LooseInv e.keyLen jobs (done ++ [j]) (addItem t.isEmpty t' (dirName j.dirs)
            (near e.keyLen jobs j.dirs)) := by
          constructor
          · intro ds' hds' m hm
            have hone : ∀ m, MaskTable.find [(dirName j.dirs, near e.keyLen jobs j.dirs)] (dirName ds')
                = some m → m = near e.keyLen jobs ds' ∧ ∃ j' ∈ done ++ [j], ds' <+: j'.dirs := by
              intro m' hm'
              rw [MaskTable.find_single] at hm'
              split at hm'
              · rename_i heq
                have := dirName_inj hdn hds' heq
                subst this
                simp at hm'
                exact ⟨hm'.symm, j, by simp, List.prefix_refl _⟩
              · simp at hm'
            unfold addItem at hm
            split at hm
            · exact hone m hm
            · rw [MaskTable.find_append] at hm
              cases hf : t'.find (dirName ds') with
              | some x =>
                rw [hf] at hm; simp at hm; subst hm
                obtain ⟨h1, j', h2, h3⟩ := ht'.value ds' hds' _ hf
                exact ⟨h1, j', by simp [h2], h3⟩
              | none => rw [hf] at hm; exact hone m (by simpa using hm)
          · intro k hk hkp
            unfold addItem
            rcases List.mem_append.1 hk with h1 | h1
            · split
              · rename_i h0
                exact absurd hkp (hempty (List.isEmpty_iff.1 h0) k h1)
              · rw [MaskTable.find_append]
                obtain ⟨m, hm⟩ := ht'.kept k h1 hkp
                exact ⟨m, by rw [hm]; rfl⟩
            · simp at h1; subst h1
              split
              · exact ⟨_, by rw [MaskTable.find_single, if_pos rfl]⟩
              · rw [MaskTable.find_append, MaskTable.find_single, if_pos rfl]
                cases t'.find (dirName k.dirs) with
                | some x => exact ⟨x, rfl⟩
                | none => exact ⟨_, rfl⟩
        exact h1
      rw [maskKey]
      simp only [h2, h3, eqNoCase_self, if_true, hfind]
      by_cases hr : j.dirs = []
      · have hhead : (dirName j.dirs).head? = some 47 := by rw [hr]; rfl
        simp only [hhead, if_true, Res.bind_ok]
        refine ⟨_, e.key, 1, by simp [hp], ?_, by simp [hp], tab t ht⟩
        simp [KeyOf, hp, hr]
      · obtain ⟨ds', x, hdx⟩ : ∃ ds' x, j.dirs = ds' ++ [x] :=
          ⟨_, _, (List.dropLast_append_getLast hr).symm⟩
        have hdn2 : dirName j.dirs = relPath j.dirs := by simp [dirName, hr]
        have hhead : ¬ (dirName j.dirs).head? = some 47 := by
          rw [hdn2]; exact relPath_head _ hr hdn
        have hp' : ds' <+: j.dirs := by rw [hdx]; simp
        have hl' : (relPath ds').length + 1 ≤ 4096 := by
          by_cases hds : ds' = []
          · subst hds; simp [relPath]
          · rw [hdx, relPath_snoc ds' x hds] at hl; simp at hl; omega
        -- the recursion is for the parent directory, on behalf of `j`
        obtain ⟨t', h5, h6, h7⟩ := maskKey_loose (jobs := jobs) (done := done ++ [⟨ds', [], [], [], []⟩])
          e (fun _ => j.mask) hmasks ⟨ds', [], [], [], []⟩ (by simp) ds' (List.prefix_refl _)
          (fun d h => hdn d (by rw [hdx]; simp [h])) (fun d h => hdp d (by rw [hdx]; simp [h]))
          (fun k hk hkp hkd => by
            have : k ≠ j := by
              intro h; subst h
              have := hkd.length_le
              rw [hdx] at this; simp at this
            simp [hbefore k hk hkp (hkd.trans hp') this])
          hl' x (hdn x (by rw [hdx]; simp)) (hdp x (by rw [hdx]; simp)) (j.path.length + 1)
          (by rw [hdx] at hplen; simp at hplen; omega) t
          (ht.mono _ (by simp [Job.isPackage])) e.key
        rw [← hdx] at h5
        simp only [hhead, if_false]
        rw [hdn2, h5]
        have h8 : LooseInv e.keyLen jobs (done ++ [j])
            (addItem t.isEmpty t' (dirName j.dirs) j.mask) := by
          constructor
          · intro ds'' hds'' m hm
            -- cached directories are prefixes of `done` or of the parent
            have hconv : (∃ j' ∈ done ++ [(⟨ds', [], [], [], []⟩ : Job)], ds'' <+: j'.dirs) →
                ∃ j' ∈ done ++ [j], ds'' <+: j'.dirs := by
              rintro ⟨j', hj', hpre⟩
              rcases List.mem_append.1 hj' with h | h
              · exact ⟨j', by simp [h], hpre⟩
              · simp at h; subst h
                exact ⟨j, by simp, hpre.trans hp'⟩
            have hone : ∀ m, MaskTable.find [(dirName j.dirs, j.mask)] (dirName ds'')
                = some m → m = near e.keyLen jobs ds'' ∧ ∃ j' ∈ done ++ [j], ds'' <+: j'.dirs := by
              intro m' hm'
              rw [MaskTable.find_single] at hm'
              split at hm'
              · rename_i heq
                have := dirName_inj hdn hds'' heq
                subst this
                simp at hm'
                exact ⟨by rw [hnear, hm'], j, by simp, List.prefix_refl _⟩
              · simp at hm'
            unfold addItem at hm
            split at hm
            · exact hone m hm
            · rw [MaskTable.find_append] at hm
              cases hf : t'.find (dirName ds'') with
              | some x =>
                rw [hf] at hm; simp at hm; subst hm
                obtain ⟨h1, h2⟩ := h6.value ds'' hds'' _ hf
                exact ⟨h1, hconv h2⟩
              | none => rw [hf] at hm; exact hone m (by simpa using hm)
          · intro k hk hkp
            unfold addItem
            rcases List.mem_append.1 hk with h1 | h1
            · split
              · rename_i h0
                exact absurd hkp (hempty (List.isEmpty_iff.1 h0) k h1)
              · rw [MaskTable.find_append]
                obtain ⟨m, hm⟩ := h6.kept k (by simp [h1]) hkp
                exact ⟨m, by rw [hm]; rfl⟩
            · simp at h1; subst h1
              split
              · exact ⟨_, by rw [MaskTable.find_single, if_pos rfl]⟩
              · rw [MaskTable.find_append, MaskTable.find_single, if_pos rfl]
                cases t'.find (dirName k.dirs) with
                | some x => exact ⟨x, rfl⟩
                | none => exact ⟨_, rfl⟩
        rw [hdn2] at h8
        refine ⟨_, e.mask e.key (near e.keyLen jobs ds'), 1, by simp [hp], ?_, by simp [hp], h8⟩
        have hdl : j.dirs.dropLast = ds' := by rw [hdx]; simp
        simp only [KeyOf, hp, hr, if_true, if_false, hdl]
        exact ⟨_, near_inForce _ _ _, rfl⟩
    · have hnp : ¬ eqNoCase b!"package.mo" j.name := fun h => hp (hcase h)
      obtain ⟨t', h5, h6, -⟩ := maskKey_loose (jobs := jobs) (done := done ++ [j]) e (fun _ => j.mask)
        hmasks j (by simp) j.dirs (List.prefix_refl _) hdn hdp
        (fun k hk hkp hkd => by
          have : k ≠ j := fun h => hp (h ▸ hkp)
          simp [hbefore k hk hkp hkd this])
        hl j.name hname hnp (j.path.length + 2) (by omega) t
        (ht.mono j (fun h => absurd h hp)) e.key
      refine ⟨t', e.mask e.key (near e.keyLen jobs j.dirs), 0, ?_, ?_, by simp [hp], h6⟩
      · rw [show relPath (j.dirs ++ [j.name]) = j.path from rfl] at h5
        rw [h5]; simp [hp]
      · simp only [KeyOf, hp, if_false]
        exact ⟨_, near_inForce _ _ _, rfl⟩
  obtain ⟨t', k, flag, h1, hk, h2, h3⟩ := key
  obtain ⟨ws, h4, h5⟩ := encBody_spec e he k j.iv j.plain
    hiv flag (if j.isPackage then j.mask else []) (by split <;> simp [hml])
  refine ⟨t', j.iv ++ ws.flatten, k, ?_, h3, hk, ?_⟩
  · have h6 : ¬ flag < 0 := by rw [h2]; split <;> omega
    simp [crEncrypt, h1, h4, h6, runWrites_all]
  · have : (if flag ≠ 0 then (if j.isPackage then j.mask else []) else []) =
        if j.isPackage then j.mask else [] := by
      rw [h2]; by_cases hp : j.isPackage <;> simp [hp]
    rw [this] at h5; exact h5

theorem encryptAll_loose (e : CrEnv) (he : GoodEnv e) {jobs : List Job}
    (hP : PackagesFirst e.keyLen jobs)
    (hl : ∀ j ∈ jobs, (relPath j.dirs).length + 1 ≤ 4096) (rest done : List Job)
    (hs : jobs = done ++ rest) (t : MaskTable) (ht : LooseInv e.keyLen jobs done t) :
    ∃ outs, encryptAll e t rest = .ok (some outs) ∧
      List.Forall₂ (fun j o => o.1 = j.path ++ b!"c" ∧ ∃ key, KeyOf e jobs j key ∧
        Encrypted e.C key (key.take e.keyLen) j.iv
          (j.plain ++ if j.isPackage then j.mask else []) o.2) rest outs := by
  induction rest generalizing done t with
  | nil => exact ⟨[], rfl, .nil⟩
  | cons j rest ih =>
    obtain ⟨t', out, key, h1, h2, h3, h4⟩ := encStep_loose e he hP hs ht (hl j (by rw [hs]; simp))
    obtain ⟨outs, h5, h6⟩ := ih (done ++ [j]) (by rw [hs]; simp) t' h2
    exact ⟨(j.path ++ b!"c", out) :: outs, by simp [encryptAll, h1, h5], .cons ⟨rfl, key, h3, h4⟩ h6⟩

theorem looseInv_nil (keyLen : Nat) (jobs : List Job) : LooseInv keyLen jobs [] [] :=
  ⟨fun ds _ m h => by simp [MaskTable.find] at h, by simp⟩

end Semla
