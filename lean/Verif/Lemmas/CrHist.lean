import Verif.Lemmas.CrNear

/-! # Helper lemmas: histories of encryption calls; single requests against a library -/

set_option linter.unusedSimpArgs false

namespace Semla

open Semla.Spec

theorem addItem_find_new (b : Bool) (t : MaskTable) (d m : Bytes) :
    ∃ m', (addItem b t d m).find d = some m' := by
  unfold addItem
  split
  · exact ⟨m, by rw [MaskTable.find_single, if_pos rfl]⟩
  · rw [MaskTable.find_append, MaskTable.find_single, if_pos rfl]
    cases t.find d with
    | some x => exact ⟨x, rfl⟩
    | none => exact ⟨m, rfl⟩

theorem find_ne_nil {t : MaskTable} {d m : Bytes} (h : t.find d = some m) : t ≠ [] := by
  intro h0; rw [h0] at h; simp [MaskTable.find] at h

/-- Entries of a table in use are never lost, and a successful call leaves one for its directory. -/
theorem maskKey_keeps (e : CrEnv) (rand : Bytes → Bytes) (fuel : Nat) (t : MaskTable) (p key : Bytes)
    (m : MaskOut) (h : maskKey e rand fuel t p key = .ok m) :
    (∀ d x, t.find d = some x → m.table.find d = some x) ∧
    (0 ≤ m.ret → ∃ x, m.table.find (dirKey p) = some x) := by
  induction fuel generalizing t p key m with
  | zero => simp [maskKey] at h
  | succ fuel ih =>
    have keep : ∀ t' : MaskTable, (∀ d x, t.find d = some x → t'.find d = some x) → ∀ d' m' d x,
        t.find d = some x → (addItem t.isEmpty t' d' m').find d = some x := by
      intro t' ht' d' m' d x hx
      unfold addItem
      rw [if_neg (by simpa using find_ne_nil hx), MaskTable.find_append, ht' d x hx]; rfl
    simp only [maskKey] at h
    split at h
    · split at h
      · simp only [Res.ok.injEq] at h
        subst h
        exact ⟨fun d x hx => hx, by simp⟩
      · obtain ⟨r, hr1, h⟩ : ∃ r : MaskOut, (∀ d x, t.find d = some x → r.table.find d = some x) ∧
            (if r.ret ≠ 0 then Res.ok ⟨r.table, r.key, -1, []⟩
              else .ok ⟨addItem t.isEmpty r.table (dirKey p) (rand (dirKey p)), r.key, 1, rand (dirKey p)⟩) = .ok m := by
          split at h
          · exact ⟨⟨t, key, 0, []⟩, fun d x hx => hx, h⟩
          · rw [Res.bind_eq_ok] at h
            obtain ⟨r, hr, h⟩ := h
            exact ⟨r, (ih _ _ _ _ hr).1, h⟩
        split at h
        · simp only [Res.ok.injEq] at h; subst h
          exact ⟨hr1, by simp⟩
        · simp only [Res.ok.injEq] at h; subst h
          exact ⟨keep r.table hr1 _ _, fun _ => addItem_find_new _ _ _ _⟩
    · split at h
      · rename_i x hx
        simp only [Res.ok.injEq] at h
        subst h
        exact ⟨fun d x hx => hx, fun _ => ⟨x, hx⟩⟩
      · obtain ⟨r, hr1, h⟩ : ∃ r : MaskOut, (∀ d x, t.find d = some x → r.table.find d = some x) ∧
            (if r.ret ≠ 0 then Res.ok ⟨r.table, key, -1, []⟩
              else .ok ⟨addItem t.isEmpty r.table (dirKey p) r.key, e.mask key r.key, 0, []⟩) = .ok m := by
          split at h
          · exact ⟨⟨t, List.replicate e.keyLen 0, 0, []⟩, fun d x hx => hx, h⟩
          · rw [Res.bind_eq_ok] at h
            obtain ⟨r, hr, h⟩ := h
            exact ⟨r, (ih _ _ _ _ hr).1, h⟩
        split at h
        · simp only [Res.ok.injEq] at h; subst h
          exact ⟨hr1, by simp⟩
        · simp only [Res.ok.injEq] at h; subst h
          exact ⟨keep r.table hr1 _ _, fun _ => addItem_find_new _ _ _ _⟩

theorem crEncrypt_keeps {e : CrEnv} {t t' : MaskTable} {p iv inp out : Bytes} {rand : Bytes → Bytes}
    {bad ok : Bool} {wOk : Nat → Bool}
    (h : crEncrypt e t p iv rand inp bad wOk = .ok (t', out, ok)) :
    (∀ d x, t.find d = some x → t'.find d = some x) ∧
    (ok = true → ∃ x, t'.find (dirKey p) = some x) := by
  unfold crEncrypt at h
  split at h
  · simp only [Res.ok.injEq, Prod.mk.injEq] at h
    obtain ⟨rfl, -, rfl⟩ := h
    exact ⟨fun d x hx => hx, by simp⟩
  · rw [Res.bind_eq_ok] at h
    obtain ⟨m, hm, h⟩ := h
    obtain ⟨h1, h2⟩ := maskKey_keeps _ _ _ _ _ _ _ hm
    split at h
    · simp only [Res.ok.injEq, Prod.mk.injEq] at h
      obtain ⟨rfl, -, rfl⟩ := h
      exact ⟨h1, by simp⟩
    · rename_i hret
      rw [Res.bind_eq_ok] at h
      obtain ⟨w, _, h⟩ := h
      simp only [Res.ok.injEq, Prod.mk.injEq] at h
      obtain ⟨rfl, -, -⟩ := h
      exact ⟨h1, fun _ => h2 (by omega)⟩

theorem encHistory_keeps {e : CrEnv} {t t' : MaskTable} (h : EncHistory e t t') :
    ∀ d x, t.find d = some x → t'.find d = some x := by
  induction h with
  | nil => exact fun d x hx => hx
  | call h _ ih => exact fun d x hx => ih d x ((crEncrypt_keeps h).1 d x hx)

/-- The key computed for a request against the library. -/
theorem demask_job (e : CrEnv) (he : GoodEnv e) {jobs : List Job} (hP : Complete e.keyLen jobs)
    (hlib : LibRead e jobs) (hsz : SizesOk e jobs)
    (hne : ∀ j ∈ jobs, j.isPackage → j.plain ≠ []) (j : Job) (hj : j ∈ jobs) (t : MaskTable)
    (ht : DecInv jobs t) :
    ∃ t1, demaskKey e (demaskFuel (j.path ++ b!"c")) t (j.path ++ b!"c") e.key =
      .ok (t1, fileKeyOf e (maskOf jobs) j.dirs j.isPackage, if j.isPackage then 1 else 0) ∧
      DecInv jobs t1 := by
  obtain ⟨hname, hcase, hdirs⟩ := hP.names j hj
  have hdn : ∀ d ∈ j.dirs, IsName d := fun d h => (hdirs d h).1
  obtain ⟨hpk, hdk⟩ := demask_lib e he hP hlib hsz hne j.dirs
  by_cases hp : j.isPackage
  · rw [package_path hp]
    obtain ⟨t1, h5, h6⟩ := hpk j hj rfl hp (demaskFuel (relPath (j.dirs ++ [b!"package.moc"])))
      (by unfold demaskFuel; have := relPath_length_ge j.dirs b!"package.moc" hdn; omega) t ht
    exact ⟨t1, by simpa [hp] using h5, h6⟩
  · obtain ⟨k, hk, hkd, hkp⟩ := hP.closed j hj _ (List.prefix_refl j.dirs)
    have hn2 : IsName (j.name ++ b!"c") := by
      refine ⟨by simp, fun c hc => ?_⟩
      rcases List.mem_append.1 hc with h | h
      · exact hname.2 c h
      · simp at h; subst h; decide
    have hnp2 : ¬ eqNoCase b!"package.moc" (j.name ++ b!"c") := by
      intro h
      apply hp
      apply hcase
      simp only [eqNoCase, beq_iff_eq, List.map_append] at h ⊢
      have h' : (b!"package.mo".map toLower) ++ (b!"c".map toLower) = j.name.map toLower ++ b!"c".map toLower := h
      exact List.append_cancel_right h'
    have hpath : j.path ++ b!"c" = relPath (j.dirs ++ [j.name ++ b!"c"]) := by
      unfold Job.path
      by_cases hd : j.dirs = []
      · rw [hd]; rfl
      · rw [relPath_snoc _ _ hd, relPath_snoc _ _ hd]; simp
    rw [hpath]
    obtain ⟨t1, h5, h6, -⟩ := hdk k hk hkd hkp (j.name ++ b!"c") hn2 hnp2
      (demaskFuel (relPath (j.dirs ++ [j.name ++ b!"c"])))
      (by unfold demaskFuel; have := relPath_length_ge j.dirs (j.name ++ b!"c") hdn; omega) t ht e.key
    have hm := complete_unique hP hk hkp
    rw [hkd] at hm
    exact ⟨t1, by simpa [hp, fileKeyOf, hm] using h5, h6⟩

theorem forall₂_mem {α β : Type} {R : α → β → Prop} {as : List α} {bs : List β}
    (h : List.Forall₂ R as bs) (a : α) (ha : a ∈ as) : ∃ b ∈ bs, R a b := by
  induction h with
  | nil => simp at ha
  | cons hr _ ih =>
    rcases List.mem_cons.1 ha with h | h
    · subst h; exact ⟨_, by simp, hr⟩
    · obtain ⟨b, hb, hR⟩ := ih h
      exact ⟨b, by simp [hb], hR⟩

theorem maskInForce_of_maskOf {keyLen : Nat} {jobs : List Job} {ds : List Bytes} {m : Bytes}
    (h : maskOf jobs ds = some m) : MaskInForce keyLen jobs ds m := by
  have := near_inForce keyLen jobs ds
  rwa [near_some h] at this

/-- The helper `fileKeyOf` is the key of the specification. -/
theorem keyOf_fileKeyOf {e : CrEnv} {jobs : List Job} (hP : Complete e.keyLen jobs) {j : Job}
    (hj : j ∈ jobs) : KeyOf e jobs j (fileKeyOf e (maskOf jobs) j.dirs j.isPackage) := by
  unfold KeyOf fileKeyOf
  by_cases hp : j.isPackage
  · by_cases hr : j.dirs = []
    · simp [hp, hr]
    · obtain ⟨k, hk, hkd, hkp⟩ := hP.closed j hj _ (List.dropLast_prefix j.dirs)
      obtain ⟨m, hm⟩ := maskOf_of_mem hk hkp hkd
      simp only [hp, hr, if_true, if_false, decide_true, hm, Option.getD_some]
      exact ⟨m, maskInForce_of_maskOf hm, rfl⟩
  · obtain ⟨k, hk, hkd, hkp⟩ := hP.closed j hj _ (List.prefix_refl j.dirs)
    obtain ⟨m, hm⟩ := maskOf_of_mem hk hkp hkd
    simp only [hp, if_false, decide_false, Bool.false_eq_true, hm, Option.getD_some]
    exact ⟨m, maskInForce_of_maskOf hm, rfl⟩

theorem feed_encrypted {C : Crypto} (hC : C.Good) (key macKey iv : Bytes) (hiv : iv.length = 16)
    (d out : Bytes) (ctx : EncCtx) (h : StreamInv C key iv d ctx out) (chunks : List Bytes) :
    Encrypted C key macKey iv (d ++ chunks.flatten)
      (iv ++ (out ++ feed C key ctx chunks) ++ C.mac macKey (iv ++ (d ++ chunks.flatten))) := by
  induction chunks generalizing d out ctx with
  | nil => simpa [feed] using streamInv_final macKey h
  | cons c cs ih =>
    have := ih _ _ _ (streamInv_update hC hiv h c).1
    simpa [feed] using this

theorem maskInForce_unique {keyLen : Nat} {jobs : List Job}
    (hN : (jobs.map fun j => (j.dirs, j.name)).Nodup) {ds : List Bytes} {m m' : Bytes} (h : MaskInForce keyLen jobs ds m)
    (h' : MaskInForce keyLen jobs ds m') : m = m' := by
  rcases h with ⟨k, hk, h1, h2, h3, h4⟩ | ⟨h1, h2⟩
  · rcases h' with ⟨k', hk', h1', h2', h3', h4'⟩ | ⟨h1', h2'⟩
    · have hl := Nat.le_antisymm (h4' k hk h1 h2) (h4 k' hk' h1' h2')
      have hd : k.dirs = k'.dirs := by
        rw [List.prefix_iff_eq_take.1 h2, List.prefix_iff_eq_take.1 h2', hl]
      have := job_unique hN hk hk' hd (by rw [h1, h1'])
      rw [← h3, ← h3', this]
    · exact absurd h2 (h1' k hk h1)
  · rcases h' with ⟨k', hk', h1', h2', h3', h4'⟩ | ⟨h1', h2'⟩
    · exact absurd h2' (h1 k' hk' h1')
    · rw [h2, h2']

theorem maskInForce_length {keyLen : Nat} {jobs : List Job} (hP : PackagesFirst keyLen jobs)
    {ds : List Bytes} {m : Bytes} (h : MaskInForce keyLen jobs ds m) : m.length = keyLen := by
  rcases h with ⟨k, hk, h1, h2, h3, h4⟩ | ⟨h1, h2⟩
  · rw [← h3]; exact (hP.draws k hk).2
  · rw [h2]; simp

theorem mask_inj (e : CrEnv) (he : GoodEnv e) {m m' : Bytes} (hm : m.length = e.keyLen)
    (hm' : m'.length = e.keyLen) (h : e.mask e.key m = e.mask e.key m') : m = m' := by
  have hl : (e.key.take e.keyLen).length = e.keyLen := by simp [he.key, he.keyLen]
  unfold CrEnv.mask at h
  have := List.append_cancel_right h
  exact xorBytes_right_inj _ m m' (by omega) (by omega) this

end Semla
