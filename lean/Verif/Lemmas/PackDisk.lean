import Verif.Spec.PackDisk
import Verif.Lemmas.FullDisk
import Verif.Lemmas.PackEnc

/-!
# Lemmas on packaging with a temporary directory on a disk that fills up
-/

set_option linter.unusedSimpArgs false

namespace Semla

open Spec

theorem crEncryptStaged_true {d : OutDisk} {b : Nat} (hb : ∀ i, d.kept i ≤ b) {e : CrEnv} {t t' : MaskTable}
    {p iv : Bytes} {rand : Bytes → Bytes} {inp : Bytes} {bad : Bool} {out : Bytes}
    (h : crEncryptStaged d e t p iv rand inp bad = .ok (t', out, true)) :
    crEncrypt e t p iv rand inp bad (fun _ => true) = .ok (t', out, true) ∧ out.length ≤ d.room + b := by
  unfold crEncryptStaged at h
  split at h
  · simp at h
  · rename_i h0
    rw [Res.bind_eq_ok] at h
    obtain ⟨m, hm, h⟩ := h
    split at h
    · simp at h
    · rename_i hr
      rw [Res.bind_eq_ok] at h
      obtain ⟨⟨ws, complete⟩, hw, h⟩ := h
      simp only [Res.ok.injEq, Prod.mk.injEq, Bool.and_eq_true] at h
      obtain ⟨h0', h1, h2, h3⟩ := h
      have hiv : iv.length ≤ d.room + b := by
        have : d.takes 0 iv.length = true := by simpa using h0
        have := takes_iff.1 this
        have := hb 0
        omega
      obtain ⟨h4, h5⟩ := diskWrites_true hb (o := (diskWrites d 1 iv.length ws).1) hiv (by rw [← h2])
      refine ⟨?_, ?_⟩
      · unfold crEncrypt
        simp only [not_true_eq_false, if_false, hm, Res.bind_ok, hr, hw,
          runWrites_all (fun _ => true) (fun _ => rfl)]
        rw [← h1, h4, h3, h0']
        rfl
      · rw [← h1, List.length_append]; exact h5

/-- With enough room the disk does not matter. -/
theorem crEncryptStaged_room (e : CrEnv) (t : MaskTable) (p iv : Bytes) (rand : Bytes → Bytes) (inp : Bytes) (bad : Bool) :
    ∃ n, ∀ d : OutDisk, n ≤ d.room →
      crEncryptStaged d e t p iv rand inp bad = crEncrypt e t p iv rand inp bad (fun _ => true) ∧
      ∀ r, crEncrypt e t p iv rand inp bad (fun _ => true) = .ok r → r.2.1.length ≤ n := by
  unfold crEncryptStaged crEncrypt
  simp only [not_true_eq_false, if_false]
  have h0 : ∀ d : OutDisk, iv.length ≤ d.room → ¬ ¬ d.takes 0 iv.length = true :=
    fun d hi hn => hn (takes_iff.2 (by omega))
  cases hm : maskKey e rand (p.length + 2) t p e.key with
  | ub k =>
    refine ⟨iv.length, fun d hd => ?_⟩
    simp only [h0 d hd, if_false, Res.bind_ub]
    exact ⟨trivial, fun r h => by simp at h⟩
  | ok m =>
    by_cases hr : m.ret < 0
    · refine ⟨iv.length, fun d hd => ?_⟩
      simp only [h0 d hd, if_false, Res.bind_ok, hr, if_true]
      refine ⟨trivial, fun r h => ?_⟩
      simp only [Res.ok.injEq] at h
      subst h
      exact Nat.le_refl _
    · cases hw : encBody e m.key iv inp bad m.ret m.stored with
      | ub k =>
        refine ⟨iv.length, fun d hd => ?_⟩
        simp only [h0 d hd, if_false, Res.bind_ok, hr, hw, Res.bind_ub]
        exact ⟨trivial, fun r h => by simp at h⟩
      | ok r =>
        obtain ⟨ws, complete⟩ := r
        refine ⟨iv.length + ws.flatten.length, fun d hd => ?_⟩
        simp only [h0 d (by omega), if_false, Res.bind_ok, hr, hw, diskWrites_room hd,
          runWrites_all (fun _ => true) (fun _ => rfl)]
        refine ⟨trivial, fun r h => ?_⟩
        simp only [Res.ok.injEq] at h
        subst h
        simp

/-! ## Enough room -/

theorem encryptOneDisk_room (env : PackEnv) (e : CrEnv) (lib : Bytes) (p : List Bytes) (s : EncState) :
    ∃ n, ∀ disk : StagingDisk, (∀ q, n ≤ (disk q).room) →
      encryptOneDisk disk env e lib p s = encryptOne (flawless env) e lib p s := by
  cases ho : env.openRead s.fs (lib :: p) with
  | none =>
    refine ⟨0, fun disk _ => ?_⟩
    have ho' : (flawless env).openRead s.fs (lib :: p) = none := ho
    simp only [encryptOneDisk, encryptOne, ho, ho']
  | some r =>
    obtain ⟨content, bad⟩ := r
    obtain ⟨n, hn⟩ := crEncryptStaged_room e s.table (joinPath p) (env.iv p) (fun _ => env.mask p) content bad
    refine ⟨n, fun disk hd => ?_⟩
    have ho' : (flawless env).openRead s.fs (lib :: p) = some (content, bad) := ho
    obtain ⟨h1, h2⟩ := hn (disk (lib :: encryptedPath p)) (hd _)
    simp only [encryptOneDisk, encryptOne, ho, ho']
    have hc : (flawless env).canWrite = env.canWrite := rfl
    have hi : (flawless env).iv = env.iv := rfl
    have hm : (flawless env).mask = env.mask := rfl
    have hw : (flawless env).writeOk = fun _ _ => true := rfl
    rw [hc, hi, hm, hw, h1]
    cases hx : crEncrypt e s.table (joinPath p) (env.iv p) (fun _ => env.mask p) content bad (fun _ => true) with
    | ub k => rfl
    | ok r =>
      have := h2 r hx
      obtain ⟨t, bytes, ok⟩ := r
      have hcl : (disk (lib :: encryptedPath p)).closed bytes = bytes := closed_all (Nat.le_trans this (hd _))
      simp only [Res.bind_ok, hcl]
      split <;> simp only [*]

theorem encryptPackageDisk_room (env : PackEnv) (e : CrEnv) (lib : Bytes) (dir : List Bytes) (s : EncState) :
    ∃ n, ∀ disk : StagingDisk, (∀ q, n ≤ (disk q).room) →
      encryptPackageDisk disk env e lib dir s = encryptPackage (flawless env) e lib dir s := by
  obtain ⟨n, hn⟩ := encryptOneDisk_room env e lib (dir ++ [b!"package.mo"]) s
  refine ⟨n, fun disk hd => ?_⟩
  unfold encryptPackageDisk encryptPackage
  have ho' : (flawless env).openRead = env.openRead := rfl
  rw [ho', hn disk hd]
  split <;> simp only [*]

/-- Two steps, each of which is the same with enough room. -/
theorem bind_room {α β : Type} {x : StagingDisk → Res α} {x0 : Res α} {f : StagingDisk → α → Res β} {f0 : α → Res β}
    (hx : ∃ n, ∀ disk : StagingDisk, (∀ q, n ≤ (disk q).room) → x disk = x0)
    (hf : ∀ a, ∃ n, ∀ disk : StagingDisk, (∀ q, n ≤ (disk q).room) → f disk a = f0 a) :
    ∃ n, ∀ disk : StagingDisk, (∀ q, n ≤ (disk q).room) → (x disk >>= f disk) = (x0 >>= f0) := by
  obtain ⟨n, hn⟩ := hx
  cases x0 with
  | ub k => exact ⟨n, fun disk hd => by rw [hn disk hd]; rfl⟩
  | ok a =>
    obtain ⟨m, hm⟩ := hf a
    refine ⟨n + m, fun disk hd => ?_⟩
    rw [hn disk (fun q => by have := hd q; omega), Res.bind_ok, Res.bind_ok, hm disk (fun q => by have := hd q; omega)]

theorem encryptEntriesDisk_room (env : PackEnv) (e : CrEnv) (lib : Bytes) (l : Listing) (dir : List Bytes) (s : EncState) :
    ∃ n, ∀ disk : StagingDisk, (∀ q, n ≤ (disk q).room) →
      encryptEntriesDisk disk env e lib l dir s = encryptEntries (flawless env) e lib l dir s := by
  induction l generalizing dir s with
  | done => exact ⟨0, fun _ _ => rfl⟩
  | file n rest ih =>
    simp only [encryptEntriesDisk, encryptEntries]
    split
    · exact ih dir s
    · split
      · refine bind_room (encryptOneDisk_room env e lib _ s) fun a => ?_
        obtain ⟨s1, ok⟩ := a
        cases ok with
        | true => simpa using ih dir s1
        | false => exact ⟨0, fun _ _ => rfl⟩
      · exact ih dir s
  | dir n sub rest ihs ihr =>
    simp only [encryptEntriesDisk, encryptEntries]
    split
    · exact ihr dir s
    · refine bind_room (encryptPackageDisk_room env e lib _ s) fun a => ?_
      obtain ⟨s1, ok⟩ := a
      cases ok with
      | false => exact ⟨0, fun _ _ => rfl⟩
      | true =>
        simp only [if_true]
        refine bind_room (ihs _ s1) fun a => ?_
        obtain ⟨s2, ok⟩ := a
        cases ok with
        | true => simpa using ihr dir s2
        | false => exact ⟨0, fun _ _ => rfl⟩
  | locked n rest ih =>
    simp only [encryptEntriesDisk, encryptEntries]
    split
    · exact ih dir s
    · exact bind_room (encryptPackageDisk_room env e lib _ s) fun a => ⟨0, fun _ _ => rfl⟩
  | other n rest ih =>
    simp only [encryptEntriesDisk, encryptEntries]
    exact ih dir s

theorem encryptFilesDisk_room (env : PackEnv) (d : ArgData) (tempDir lib : Bytes) (fs : Staged) :
    ∃ n, ∀ disk : StagingDisk, (∀ q, n ≤ (disk q).room) →
      encryptFilesDisk disk env d tempDir lib fs = encryptFiles (flawless env) d tempDir lib fs := by
  unfold encryptFilesDisk encryptFiles
  split
  · refine bind_room ?_ fun a => ⟨0, fun _ _ => rfl⟩
    have hc : (flawless env).context = env.context := rfl
    rw [hc]
    unfold encryptDirectoryDisk encryptDirectory
    refine bind_room (encryptPackageDisk_room env _ lib _ _) fun a => ?_
    obtain ⟨s, ok⟩ := a
    cases ok with
    | false => exact ⟨0, fun _ _ => rfl⟩
    | true =>
      have hw : (flawless env).encryptWalk = env.encryptWalk := rfl
      simp only [if_true, hw]
      cases env.encryptWalk fs with
      | some l => exact encryptEntriesDisk_room env _ lib _ _ _
      | none => exact ⟨0, fun _ _ => rfl⟩
  · exact ⟨0, fun _ _ => rfl⟩

theorem writeManifestDisk_room (env : PackEnv) (d : ArgData) (lib : Bytes) (lves : List Bytes) (icon : Option Bytes)
    (fs : Staged) : ∃ n, ∀ disk : StagingDisk, (∀ q, n ≤ (disk q).room) →
      writeManifestDisk disk env d lib lves icon fs = writeManifest (flawless env) d lib lves icon fs := by
  unfold writeManifestDisk writeManifest
  have hc : (flawless env).canWrite = env.canWrite := rfl
  have hr : (flawless env).readFile = env.readFile := rfl
  simp only [hc, hr]
  cases (if env.canWrite [lib, b!".library", b!"manifest.xml"] then fs.write [lib, b!".library", b!"manifest.xml"] []
    else none) with
  | none => exact ⟨0, fun _ _ => rfl⟩
  | some fs =>
    refine bind_room (x := fun _ => createManifest d lib lves icon env.readFile) ⟨0, fun _ _ => rfl⟩ fun doc => ?_
    exact ⟨doc.length, fun disk hd => by rw [closed_all (hd _)]⟩

/-! ## Little room -/

/-- The temporary directory on a large disk, and on a small one. -/
structure Cuts (disk : StagingDisk) (b : Nat) (fs cut : Staged) : Prop where
  names : emptied cut = emptied fs
  get : ∀ p, cut.get p = fs.get p ∨ ∃ c c', fs.get p = some (.file c) ∧ cut.get p = some (.file c') ∧
    ¬ ModelicaName (nameOf p) ∧ CutFile disk b p c c'

theorem Cuts.refl (disk : StagingDisk) (b : Nat) (fs : Staged) : Cuts disk b fs fs := ⟨rfl, fun _ => .inl rfl⟩

theorem Cuts.set {disk : StagingDisk} {b : Nat} {fs cut : Staged} (h : Cuts disk b fs cut) {p : List Bytes} {c c' : Bytes}
    (hm : ¬ ModelicaName (nameOf p)) (hc : CutFile disk b p c c') :
    Cuts disk b (fs.set p (.file c)) (cut.set p (.file c')) := by
  refine ⟨?_, fun q => ?_⟩
  · have := h.names
    simp only [emptied, Staged.set, List.map_cons] at this ⊢
    rw [this]
  · rw [Staged.get_set, Staged.get_set]
    split
    · rename_i hq
      subst hq
      exact .inr ⟨c, c', rfl, rfl, hm, hc⟩
    · exact h.get q

theorem Cuts.dir {disk : StagingDisk} {b : Nat} {fs cut : Staged} (h : Cuts disk b fs cut) (p : List Bytes) :
    cut.get p = some .dir ↔ fs.get p = some .dir := by
  rcases h.get p with h1 | ⟨c, c', h1, h2, -⟩
  · rw [h1]
  · rw [h1, h2]; simp

theorem Cuts.write {disk : StagingDisk} {b : Nat} {fs cut : Staged} (h : Cuts disk b fs cut) (p : List Bytes)
    {cut' : Staged} (hw : cut.write p [] = some cut') : ∃ fs', fs.write p [] = some fs' := by
  unfold Staged.write at hw ⊢
  split at hw
  · rename_i hc
    obtain ⟨h1, h2, h3⟩ := hc
    have h2' := (h.dir _).1 h2
    have h3' : fs.get p ≠ some .dir := fun hx => h3 ((h.dir _).2 hx)
    exact ⟨_, if_pos ⟨h1, h2', h3'⟩⟩
  · simp at hw

theorem Cuts.openRead {disk : StagingDisk} {b : Nat} {fs cut : Staged} (h : Cuts disk b fs cut) (env : PackEnv)
    {p : List Bytes} (hp : ModelicaName (nameOf p)) : env.openRead cut p = env.openRead fs p := by
  unfold PackEnv.openRead
  rcases h.get p with h1 | ⟨c, c', h1, h2, h3, -⟩
  · rw [h1]
  · exact absurd hp h3

/-- The encryption on a large disk, and on a small one. -/
structure EncCuts (disk : StagingDisk) (b : Nat) (s cut : EncState) : Prop where
  table : cut.table = s.table
  log : cut.log = s.log
  fs : Cuts disk b s.fs cut.fs

theorem encryptOneDisk_cut {disk : StagingDisk} {b : Nat} (hb : ∀ p i, (disk p).kept i ≤ b) {env : PackEnv} {e : CrEnv}
    {lib : Bytes} {p : List Bytes} (hp : p ≠ []) (hm : ModelicaName (nameOf p)) {s cut cut' : EncState}
    (hs : EncCuts disk b s cut) (h : encryptOneDisk disk env e lib p cut = .ok (cut', true)) :
    ∃ s', encryptOne (flawless env) e lib p s = .ok (s', true) ∧ EncCuts disk b s' cut' := by
  unfold encryptOneDisk at h
  have hm' : ModelicaName (nameOf (lib :: p)) := by rw [nameOf_cons _ hp]; exact hm
  rw [hs.fs.openRead env hm'] at h
  split at h
  · simp at h
  · rename_i content bad ho
    dsimp only at h
    split at h
    · simp at h
    · rename_i fs1 hw
      rw [Res.bind_eq_ok] at h
      obtain ⟨⟨t, bytes, ok⟩, h1, h⟩ := h
      simp only [Res.ok.injEq, Prod.mk.injEq] at h
      obtain ⟨h2, h3⟩ := h
      subst h3
      obtain ⟨h4, h5⟩ := crEncryptStaged_true (hb _) h1
      rw [hs.table] at h4
      split at hw
      · rename_i hcw
        obtain ⟨fs2, h6⟩ := hs.fs.write _ hw
        refine ⟨⟨t, s.fs.set (lib :: encryptedPath p) (.file bytes), s.log ++ [p]⟩, ?_, ?_⟩
        · have ho' : (flawless env).openRead s.fs (lib :: p) = some (content, bad) := ho
          have hc' : (flawless env).canWrite (lib :: encryptedPath p) = true := hcw
          unfold encryptOne
          simp only [ho', hc', if_true, h6]
          have hi : (flawless env).iv = env.iv := rfl
          have hk : (flawless env).mask = env.mask := rfl
          have hwo : (flawless env).writeOk = fun _ _ => true := rfl
          rw [hi, hk, hwo, h4]
          rfl
        · subst h2
          refine ⟨rfl, by rw [hs.log], hs.fs.set ?_ ⟨rfl, .inl h5⟩⟩
          rw [nameOf_encryptedPath]
          exact not_modelica_append_c _
      · simp at hw

theorem encryptPackageDisk_cut {disk : StagingDisk} {b : Nat} (hb : ∀ p i, (disk p).kept i ≤ b) {env : PackEnv}
    {e : CrEnv} {lib : Bytes} {dir : List Bytes} {s cut cut' : EncState}
    (hs : EncCuts disk b s cut) (h : encryptPackageDisk disk env e lib dir cut = .ok (cut', true)) :
    ∃ s', encryptPackage (flawless env) e lib dir s = .ok (s', true) ∧ EncCuts disk b s' cut' := by
  unfold encryptPackageDisk at h
  have hn : nameOf (dir ++ [b!"package.mo"]) = b!"package.mo" := nameOf_append _ _
  have hn' : nameOf (lib :: dir ++ [b!"package.mo"]) = b!"package.mo" := nameOf_append (lib :: dir) _
  rw [hs.fs.openRead env (by rw [hn']; exact modelica_package)] at h
  have ho' : (flawless env).openRead = env.openRead := rfl
  unfold encryptPackage
  rw [ho']
  split at h
  · rename_i ho
    simp only [Res.ok.injEq, Prod.mk.injEq] at h
    rw [← h.1]
    simp only [ho]
    exact ⟨s, rfl, hs⟩
  · rename_i ho
    simp only [ho]
    exact encryptOneDisk_cut hb (by simp) (by rw [hn]; exact modelica_package) hs h

theorem encryptEntriesDisk_cut {disk : StagingDisk} {b : Nat} (hb : ∀ p i, (disk p).kept i ≤ b) {env : PackEnv}
    {e : CrEnv} {lib : Bytes} {l : Listing} {dir : List Bytes} {s cut cut' : EncState}
    (hs : EncCuts disk b s cut) (h : encryptEntriesDisk disk env e lib l dir cut = .ok (cut', true)) :
    ∃ s', encryptEntries (flawless env) e lib l dir s = .ok (s', true) ∧ EncCuts disk b s' cut' := by
  induction l generalizing dir s cut cut' with
  | done =>
    simp only [encryptEntriesDisk, Res.ok.injEq, Prod.mk.injEq] at h
    rw [← h.1]
    exact ⟨s, rfl, hs⟩
  | file n rest ih =>
    simp only [encryptEntriesDisk] at h
    simp only [encryptEntries]
    split at h
    · rename_i hc
      simp only [hc, if_true]
      exact ih hs h
    · rename_i hc
      simp only [hc]
      split at h
      · rename_i hmod
        rw [Res.bind_eq_ok] at h
        obtain ⟨⟨s1, ok⟩, h1, h2⟩ := h
        cases ok with
        | false => simp at h2
        | true =>
          obtain ⟨s', h3, h4⟩ := encryptOneDisk_cut hb (p := dir ++ [n]) (by simp)
            (by rw [nameOf_append]; exact (isModelicaFile_iff n).1 hmod) hs h1
          simp only [hmod, if_true, h3, Res.bind_ok]
          exact ih h4 (by simpa using h2)
      · rename_i hmod
        simp only [hmod]
        exact ih hs h
  | dir n sub rest ihs ihr =>
    simp only [encryptEntriesDisk] at h
    simp only [encryptEntries]
    split at h
    · rename_i hc
      simp only [hc, if_true]
      exact ihr hs h
    · rename_i hc
      simp only [hc]
      rw [Res.bind_eq_ok] at h
      obtain ⟨⟨s1, ok⟩, h1, h2⟩ := h
      cases ok with
      | false => simp at h2
      | true =>
        simp only [if_true] at h2
        rw [Res.bind_eq_ok] at h2
        obtain ⟨⟨s2, ok⟩, h3, h4⟩ := h2
        cases ok with
        | false => simp at h4
        | true =>
          obtain ⟨s1', h5, h6⟩ := encryptPackageDisk_cut hb hs h1
          obtain ⟨s2', h7, h8⟩ := ihs h6 h3
          simp only [h5, Res.bind_ok, if_true, h7]
          exact ihr h8 (by simpa using h4)
  | locked n rest ih =>
    simp only [encryptEntriesDisk] at h
    simp only [encryptEntries]
    split at h
    · rename_i hc
      simp only [hc, if_true]
      exact ih hs h
    · rw [Res.bind_eq_ok] at h
      obtain ⟨⟨s1, ok⟩, h1, h2⟩ := h
      simp at h2
  | other n rest ih =>
    simp only [encryptEntriesDisk] at h
    simp only [encryptEntries]
    exact ih hs h

theorem encryptFilesDisk_cut {disk : StagingDisk} {b : Nat} (hb : ∀ p i, (disk p).kept i ≤ b) {env : PackEnv}
    (hw : NamesOnly env) {d : ArgData} {tempDir lib : Bytes} {fs cut cut' : Staged} (hs : Cuts disk b fs cut)
    (h : encryptFilesDisk disk env d tempDir lib cut = .ok (some cut')) :
    ∃ fs', encryptFiles (flawless env) d tempDir lib fs = .ok (some fs') ∧ Cuts disk b fs' cut' := by
  unfold encryptFilesDisk at h
  unfold encryptFiles
  split at h
  · rename_i hu
    simp only [hu, if_true]
    rw [Res.bind_eq_ok] at h
    obtain ⟨⟨s, ok⟩, h1, h2⟩ := h
    cases ok with
    | false => simp at h2
    | true =>
      simp only [if_true, Res.ok.injEq, Option.some.injEq] at h2
      subst h2
      unfold encryptDirectoryDisk at h1
      rw [Res.bind_eq_ok] at h1
      obtain ⟨⟨s1, ok⟩, h3, h4⟩ := h1
      cases ok with
      | false => simp at h4
      | true =>
        obtain ⟨s1', h5, h6⟩ := encryptPackageDisk_cut hb (s := ⟨[], fs, []⟩) (cut := ⟨[], cut, []⟩) ⟨rfl, rfl, hs⟩ h3
        simp only [if_true] at h4
        have hl : env.encryptWalk cut = (flawless env).encryptWalk fs := by
          rw [hw.encrypt cut, hs.names, ← hw.encrypt fs]; rfl
        rw [hl] at h4
        have hc : (flawless env).context = env.context := rfl
        split at h4
        · rename_i l hl'
          obtain ⟨s', h7, h8⟩ := encryptEntriesDisk_cut hb h6 h4
          refine ⟨s'.fs, ?_, h8.fs⟩
          unfold encryptDirectory
          simp only [hc, h5, Res.bind_ok, if_true, hl', h7]
        · simp at h4
  · rename_i hu
    simp only [Res.ok.injEq, Option.some.injEq] at h
    subst h
    simp only [hu]
    exact ⟨fs, rfl, hs⟩

theorem writeManifestDisk_cut {disk : StagingDisk} {b : Nat} {env : PackEnv} {d : ArgData} {lib : Bytes}
    {lves : List Bytes} {icon : Option Bytes} {fs cut : Staged}
    (h : writeManifestDisk disk env d lib lves icon fs = .ok cut) :
    ∃ fs', writeManifest (flawless env) d lib lves icon fs = .ok fs' ∧ Cuts disk b fs' cut := by
  unfold writeManifestDisk at h
  unfold writeManifest
  have hc : (flawless env).canWrite = env.canWrite := rfl
  have hr : (flawless env).readFile = env.readFile := rfl
  simp only [hc, hr]
  dsimp only at h
  split at h
  · simp at h
  · rename_i fs1 hw
    rw [Res.bind_eq_ok] at h
    obtain ⟨doc, h1, h2⟩ := h
    simp only [Res.ok.injEq] at h2
    subst h2
    refine ⟨_, by rw [hw]; simp only [h1, Res.bind_ok], (Cuts.refl disk b fs1).set ?_ ⟨rfl, .inr rfl⟩⟩
    rw [← isModelicaFile_iff]
    have : nameOf [lib, b!".library", b!"manifest.xml"] = b!"manifest.xml" := rfl
    rw [this]
    decide

theorem cutArchive_append {disk : StagingDisk} {b : Nat} {a a' c c' : Archive} (h : CutArchive disk b a a')
    (h' : CutArchive disk b c c') : CutArchive disk b (a ++ c) (a' ++ c') := by
  induction a generalizing a' with
  | nil =>
    cases a' with
    | nil => exact h'
    | cons x a' => exact h.elim
  | cons x a ih =>
    cases a' with
    | nil => exact h.elim
    | cons y a' => exact ⟨h.1, h.2.1, ih h.2.2⟩

theorem zipEntries_cut {disk : StagingDisk} {b : Nat} {env : PackEnv} {enc : Bool} {fs cut : Staged}
    (hs : Cuts disk b fs cut) (l : Listing) (dir : List Bytes) :
    CutArchive disk b (zipEntries env enc fs l dir).1 (zipEntries env enc cut l dir).1 ∧
      (zipEntries env enc cut l dir).2 = (zipEntries env enc fs l dir).2 := by
  induction l generalizing dir with
  | done => exact ⟨trivial, rfl⟩
  | file n rest ih =>
    simp only [zipEntries]
    split
    · rcases hs.get (dir ++ [n]) with h1 | ⟨c, c', h1, h2, h3, h4⟩
      · rw [h1]
        split
        · split
          · exact ⟨⟨rfl, .inl rfl, (ih dir).1⟩, (ih dir).2⟩
          · exact ⟨trivial, rfl⟩
        · exact ⟨trivial, rfl⟩
      · rw [h1, h2]
        dsimp only
        split
        · exact ⟨⟨rfl, .inr ⟨h3, h4⟩, (ih dir).1⟩, (ih dir).2⟩
        · exact ⟨trivial, rfl⟩
    · exact ih dir
  | dir n sub rest ihs ihr =>
    simp only [zipEntries]
    have h1 := ihs (dir ++ [n])
    have h2 := ihr dir
    rw [h1.2]
    split
    · exact ⟨cutArchive_append h1.1 h2.1, h2.2⟩
    · exact ⟨h1.1, rfl⟩
  | locked n rest ih => exact ⟨trivial, rfl⟩
  | other n rest ih =>
    simp only [zipEntries]
    exact ih dir

theorem createZipArchive_cut {disk : StagingDisk} {b : Nat} {env : PackEnv} (hw : NamesOnly env) {d : ArgData}
    {fs cut : Staged} (hs : Cuts disk b fs cut) {a : Archive} {ok : Bool}
    (h : createZipArchive env d cut = (some a, ok)) :
    ∃ a0, createZipArchive (flawless env) d fs = (some a0, ok) ∧ CutArchive disk b a0 a := by
  have hz : ∀ fs l dir, zipEntries (flawless env) (usingEncryption d) fs l dir =
      zipEntries env (usingEncryption d) fs l dir := by
    intro fs l dir
    induction l generalizing dir with
    | done => rfl
    | file n rest ih => simp only [zipEntries, ih]; rfl
    | dir n sub rest ihs ihr => simp only [zipEntries, ihs, ihr]
    | locked n rest ih => rfl
    | other n rest ih => simp only [zipEntries, ih]
  have hl : env.zipWalk cut = env.zipWalk fs := by rw [hw.zip cut, hs.names, ← hw.zip fs]
  unfold createZipArchive at h ⊢
  have h1 : (flawless env).zipOpens = env.zipOpens := rfl
  have h2 : (flawless env).zipWalk = env.zipWalk := rfl
  have h3 : (flawless env).zipCloses = env.zipCloses := rfl
  rw [h1, h2, h3]
  rw [hl] at h
  split at h
  · rename_i ho
    simp only [ho, if_true]
    cases hx : env.zipWalk fs with
    | none =>
      rw [hx] at h
      simp only [Prod.mk.injEq] at h
      simp only
      split at h
      · rename_i hcl
        simp only [hcl, if_true, Prod.mk.injEq]
        simp only [Option.some.injEq] at h
        obtain ⟨rfl, rfl⟩ := h
        exact ⟨[], ⟨rfl, rfl⟩, trivial⟩
      · simp at h
    | some l =>
      rw [hx] at h
      simp only [Prod.mk.injEq] at h
      simp only [hz]
      obtain ⟨h4, h5⟩ := zipEntries_cut (env := env) (enc := usingEncryption d) hs l []
      split at h
      · rename_i hcl
        simp only [hcl, if_true, Prod.mk.injEq]
        simp only [Option.some.injEq] at h
        obtain ⟨rfl, rfl⟩ := h
        exact ⟨_, ⟨rfl, h5.symm⟩, h4⟩
      · simp at h
  · simp at h

theorem cutArchive_room {disk : StagingDisk} {b : Nat} {a a' : Archive} (h : CutArchive disk b a a')
    (hr : ∀ f ∈ a, f.2.length ≤ (disk f.1).room) : a' = a := by
  induction a generalizing a' with
  | nil =>
    cases a' with
    | nil => rfl
    | cons x a' => exact h.elim
  | cons x a ih =>
    cases a' with
    | nil => exact h.elim
    | cons y a' =>
      obtain ⟨p, c⟩ := x
      obtain ⟨p', c'⟩ := y
      obtain ⟨h1, h2, h3⟩ := h
      have hx := hr (p, c) (by simp)
      simp only at hx
      rw [ih h3 (fun f hf => hr f (by simp [hf])), h1]
      rcases h2 with h2 | ⟨-, h2, -⟩
      · rw [h2]
      · rw [h2, List.take_of_length_le hx]

end Semla
