import Verif.Lemmas.PackRun

/-! # Lemmas: contents of the archive -/

namespace Semla

open Spec

theorem twin_eq (p : List Bytes) : twin p = encryptedPath p := rfl

/-- What lies above an entry is a directory. -/
theorem entries_above (l : Listing) : ∀ p ∈ (entries l).map (·.1), ∀ a b, p = a ++ b → a ≠ [] → b ≠ [] →
    (a, Kind.dir) ∈ entries l := by
  have one : ∀ (m : Bytes) (a b : List Bytes), a ++ b = [m] → a ≠ [] → b ≠ [] → False := by
    intro m a b h ha hb
    have := congrArg List.length h
    have h1 : 0 < a.length := List.length_pos_iff.2 ha
    have h2 : 0 < b.length := List.length_pos_iff.2 hb
    simp only [List.length_append, List.length_cons, List.length_nil] at this
    omega
  induction l with
  | done => simp [entries]
  | file m rest ih =>
    intro p hp a b h ha hb
    simp only [entries, List.map_cons, List.mem_cons] at hp
    rcases hp with hp | hp
    · exact (one m a b (h ▸ hp) ha hb).elim
    · exact List.mem_cons_of_mem _ (ih p hp a b h ha hb)
  | locked m rest ih =>
    intro p hp a b h ha hb
    simp only [entries, List.map_cons, List.mem_cons] at hp
    rcases hp with hp | hp
    · exact (one m a b (h ▸ hp) ha hb).elim
    · exact List.mem_cons_of_mem _ (ih p hp a b h ha hb)
  | other m rest ih =>
    intro p hp a b h ha hb
    simp only [entries, List.map_cons, List.mem_cons] at hp
    rcases hp with hp | hp
    · exact (one m a b (h ▸ hp) ha hb).elim
    · exact List.mem_cons_of_mem _ (ih p hp a b h ha hb)
  | dir m sub rest ih1 ih2 =>
    intro p hp a b h ha hb
    simp only [entries, List.cons_append, List.map_cons, List.map_append, List.map_map, List.mem_cons,
      List.mem_append] at hp
    rcases hp with hp | hp | hp
    · exact (one m a b (h ▸ hp) ha hb).elim
    · obtain ⟨e, he, hep⟩ := List.mem_map.1 hp
      obtain ⟨x, a', rfl⟩ : ∃ x d', a = x :: d' := by
        cases a with
        | nil => exact absurd rfl ha
        | cons x d' => exact ⟨x, d', rfl⟩
      rw [h] at hep
      simp only [Function.comp_apply, List.cons_append, List.cons.injEq] at hep
      apply List.mem_append_left
      by_cases ha' : a' = []
      · rw [← hep.1, ha']
        exact List.mem_cons_self
      · apply List.mem_cons_of_mem
        exact List.mem_map.2 ⟨(a', Kind.dir), ih1 e.1 (List.mem_map.2 ⟨e, he, rfl⟩) a' b hep.2 ha' hb,
          by simp [hep.1]⟩
    · exact List.mem_append_right _ (ih2 p hp a b h ha hb)

/-- A run of the tool with an archive, taken apart. -/
theorem packTool_archive {env : PackEnv} {args : List Bytes} {code : Nat} {a : Archive}
    (h : packTool env args = .ok ⟨code, some a⟩) :
    ∃ d tempDir lib icon lves fs1 fs2 fs3 fs4 fs5 fs6, packArguments env args = .ok (some d) ∧
      PackSteps env d tempDir lib icon lves fs1 fs2 fs3 fs4 fs5 fs6 ∧
      ((∃ l, env.zipWalk fs6 = some l ∧ a = (zipEntries env (usingEncryption d) fs6 l []).1 ∧
        (code = 0 → (zipEntries env (usingEncryption d) fs6 l []).2 = true)) ∨ (a = [] ∧ code ≠ 0)) := by
  rcases packTool_steps h with ⟨d, tempDir, lib, icon, lves, fs1, fs2, fs3, fs4, fs5, fs6, h1, -, h2, h3⟩ |
    ⟨h1, -⟩ | ⟨-, h1⟩
  · simp only [PackResult.mk.injEq] at h3
    obtain ⟨h3, h4⟩ := h3
    refine ⟨d, tempDir, lib, icon, lves, fs1, fs2, fs3, fs4, fs5, fs6, h1, h2, ?_⟩
    rcases createZip_some h4.symm with ⟨l, h5, h6, h7⟩ | ⟨h5, h6⟩
    · refine Or.inl ⟨l, h5, h6, fun hc => ?_⟩
      rw [h7] at h3
      split at h3
      · assumption
      · omega
    · refine Or.inr ⟨h5, ?_⟩
      rw [h6] at h3
      simp at h3
      omega
  · simp at h1
  · simp at h1

theorem encryptFiles_on {env : PackEnv} {d : ArgData} {tempDir lib : Bytes} {fs fs' : Staged}
    (h : encryptFiles env d tempDir lib fs = .ok (some fs')) (hu : usingEncryption d = true) :
    ∃ s, encSeq env (env.context tempDir lib) lib (allVisits env lib fs).1 ⟨[], fs, []⟩ = .ok (s, true) ∧
      fs' = s.fs ∧ (allVisits env lib fs).2 = true := by
  unfold encryptFiles at h
  rw [if_pos hu, Res.bind_eq_ok] at h
  obtain ⟨⟨s, ok⟩, h1, h⟩ := h
  simp only [Res.ok.injEq] at h
  rw [encryptDirectory_eq, Res.bind_eq_ok] at h1
  obtain ⟨⟨s1, ok1⟩, h2, h1⟩ := h1
  simp only [Res.ok.injEq, Prod.mk.injEq] at h1
  obtain ⟨rfl, h1⟩ := h1
  split at h
  · rename_i hok
    subst hok
    simp only [Bool.and_eq_true] at h1
    simp only [Option.some.injEq] at h
    exact ⟨s1, by rw [h2, h1.1], h.symm, h1.2⟩
  · simp at h

theorem encryptFiles_off {env : PackEnv} {d : ArgData} {tempDir lib : Bytes} {fs fs' : Staged}
    (h : encryptFiles env d tempDir lib fs = .ok (some fs')) (hu : usingEncryption d = false) : fs' = fs := by
  unfold encryptFiles at h
  rw [if_neg (by simp [hu])] at h
  simp only [Res.ok.injEq, Option.some.injEq] at h
  exact h.symm

theorem outside_cons {p : List Bytes} (lib : Bytes) (h : Outside p) :
    ∀ x, lib :: p ≠ lib :: b!".library" :: x := by
  intro x hx
  simp only [List.cons.injEq, true_and] at hx
  apply h
  rw [hx]
  simp

theorem outside_twin {p : List Bytes} (hp : p ≠ []) : Outside (twin p) ↔ Outside p ∨ nameOf p = b!".library" ∧
    Outside p.dropLast := by
  have h1 : Outside p ↔ Outside p.dropLast ∧ nameOf p ≠ b!".library" := by
    conv => lhs; rw [← dropLast_nameOf hp]
    unfold Outside
    simp only [List.mem_append, List.mem_singleton, not_or]
    exact ⟨fun h => ⟨h.1, fun e => h.2 e.symm⟩, fun h => ⟨h.1, fun e => h.2 e.symm⟩⟩
  have h2 : Outside (twin p) ↔ Outside p.dropLast := by
    unfold Outside twin
    simp only [List.mem_append, List.mem_singleton, not_or]
    refine ⟨fun h => h.1, fun h => ⟨h, fun e => ?_⟩⟩
    have := congrArg List.getLast? e
    simp at this
  rw [h1, h2]
  by_cases h : nameOf p = b!".library" <;> simp [h]

theorem modelica_ne_library {p : List Bytes} (h : ModelicaName (nameOf p)) : nameOf p ≠ b!".library" := by
  intro e
  rw [e, ← isModelicaFile_iff] at h
  revert h
  decide

/-- What the staging directory holds when the archive is made. -/
structure Packed (env : PackEnv) (l : Listing) (content : List Bytes → Bytes) (lib tempDir : Bytes) (enc : Bool)
    (fs5 fs6 : Staged) : Prop where
  /-- files of the library before the encryption -/
  source : ∀ p, (p, Kind.file) ∈ entries l → Outside p → fs5.get (lib :: p) = some (.file (content p))
  /-- directories -/
  dirs : ∀ p, (p, Kind.dir) ∈ entries l → Outside p → fs5.get (lib :: p) = some .dir
  /-- and nothing else -/
  only : ∀ p, p ≠ [] → Outside p → p ∉ (entries l).map (·.1) → fs5.get (lib :: p) = none
  /-- encryption -/
  done : enc = true → (allVisits env lib fs5).2 = true ∧
    ∃ s, encSeq env (env.context tempDir lib) lib (allVisits env lib fs5).1 ⟨[], fs5, []⟩ = .ok (s, true) ∧
      s.fs = fs6
  /-- no encryption -/
  not : enc = false → fs6 = fs5

theorem packed_of {env : PackEnv} {d : ArgData} {tempDir lib : Bytes} {icon : Option Bytes}
    {lves : List Bytes} {fs1 fs2 fs3 fs4 fs5 fs6 : Staged}
    (h : PackSteps env d tempDir lib icon lves fs1 fs2 fs3 fs4 fs5 fs6) {l : Listing}
    {content : List Bytes → Bytes} (hl : env.library = some l) (hc : Copyable env.librarySource l content) :
    Packed env l content lib tempDir (usingEncryption d) fs5 fs6 := by
  obtain ⟨c1, c2, c3, c4⟩ := copyFolderStructure_spec h.copy hl hc
  refine ⟨?_, ?_, ?_, ?_, ?_⟩
  · intro p hp ho
    rw [h.frame _ (outside_cons lib ho), c2 p hp ho]
  · intro p hp ho
    rw [h.frame _ (outside_cons lib ho), c3 p hp ho]
  · intro p hne ho hp
    rw [h.frame _ (outside_cons lib ho)]
    refine c1 _ (fun p' hp' he => ?_) (by simp) (by simpa using hne)
    simp only [List.cons.injEq, true_and] at he
    exact hp (he ▸ hp')
  · intro hu
    obtain ⟨s, h1, h2, h3⟩ := encryptFiles_on h.encrypt hu
    exact ⟨h3, s, h1, h2.symm⟩
  · intro hu
    exact encryptFiles_off h.encrypt hu

/-- Files that no twin replaces stay. -/
theorem Packed.stays {env : PackEnv} {l : Listing} {content : List Bytes → Bytes} {lib tempDir : Bytes}
    {enc : Bool} {fs5 fs6 : Staged} (h : Packed env l content lib tempDir enc fs5 fs6)
    (hw : ∀ l, env.encryptWalk fs5 = some l → NoRepeats l) (p : List Bytes)
    (hp : (p, Kind.file) ∈ entries l) (ho : Outside p)
    (hclash : enc = true → ∀ q, (q, Kind.file) ∈ entries l → ModelicaName (nameOf q) → p ≠ twin q)
    (hk : ∀ e ∈ entries l, e.2 = .file ∨ e.2 = .dir) :
    fs6.get (lib :: p) = some (.file (content p)) := by
  cases enc with
  | false => rw [h.not rfl, h.source p hp ho]
  | true =>
    obtain ⟨-, s, h1, h2⟩ := h.done rfl
    obtain ⟨outs, -, h3, -, h4⟩ := encSeq_jobs fs5 h1 (fun _ _ => rfl) (allVisits_mem env lib fs5)
      (allVisits_nodup env lib fs5 hw)
    rw [← h2, h4, h.source p hp ho]
    intro q hq he
    simp only [List.cons.injEq, true_and] at he
    obtain ⟨hq1, hq2⟩ := allVisits_mem env lib fs5 q hq
    have hqo : Outside q := by
      have : Outside (twin q) := by rw [twin_eq, ← he]; exact ho
      rcases (outside_twin hq1).1 this with h' | h'
      · exact h'
      · exact absurd h'.1 (modelica_ne_library hq2)
    obtain ⟨c, hc⟩ := h3 q hq
    have hqe : q ∈ (entries l).map (·.1) := by
      apply Decidable.byContradiction
      intro hn
      rw [h.only q hq1 hqo hn] at hc
      simp at hc
    obtain ⟨⟨q', k⟩, hqk, rfl⟩ := List.mem_map.1 hqe
    rcases hk _ hqk with hk | hk
    · simp only at hk
      subst hk
      exact hclash rfl q' hqk hq2 he
    · simp only at hk
      subst hk
      rw [h.dirs q' hqk hqo] at hc
      simp at hc

/-- A path of the staging directory is in its listing. -/
theorem shows_mem {l : Listing} {fs : Staged} (h : Shows l [] fs) {p : List Bytes} (hp : p ≠ []) {c : Bytes}
    (hc : fs.get p = some (.file c)) : (p, Kind.file) ∈ entries l := by
  obtain ⟨h1, h2, h3⟩ := h
  have := h3 p (Staged.mem_of_get hc) List.nil_prefix hp
  obtain ⟨⟨q, k⟩, h4, h5⟩ := List.mem_map.1 this
  simp only [List.length_nil, List.drop_zero] at h5
  subst h5
  have := h2 _ h4
  rw [List.nil_append, hc] at this
  simp only [Option.map_some, kindOf, Option.some.injEq] at this
  rw [this]
  exact h4

end Semla

namespace Semla

open Spec

theorem encryptAll_each {e : CrEnv} {t : MaskTable} {jobs : List Job} {outs : List (Bytes × Bytes)}
    (h : encryptAll e t jobs = .ok (some outs)) :
    List.Forall₂ (fun j o => ∃ t t', crEncrypt e t j.path j.iv (fun _ => j.mask) j.plain false (fun _ => true) =
      .ok (t', o.2, true)) jobs outs := by
  induction jobs generalizing t outs with
  | nil =>
    simp only [encryptAll, Res.ok.injEq, Option.some.injEq] at h
    subst h
    exact .nil
  | cons j jobs ih =>
    unfold encryptAll at h
    rw [Res.bind_eq_ok] at h
    obtain ⟨⟨t1, out, ok⟩, h1, h⟩ := h
    dsimp only at h
    split at h
    · rename_i hok
      subst hok
      rw [Res.bind_eq_ok] at h
      obtain ⟨r, h2, h⟩ := h
      simp only [Res.ok.injEq, Option.map_eq_some_iff] at h
      obtain ⟨outs', rfl, rfl⟩ := h
      exact .cons ⟨t, t1, h1⟩ (ih h2)
    · simp at h

theorem forall₂_map_left {α β γ : Type} {R : β → γ → Prop} (f : α → β) (as : List α) (cs : List γ)
    (h : List.Forall₂ R (as.map f) cs) : List.Forall₂ (fun a c => R (f a) c) as cs := by
  induction as generalizing cs with
  | nil =>
    cases h
    exact .nil
  | cons a as ih =>
    cases h with
    | cons h1 h2 => exact .cons h1 (ih _ h2)

theorem forall₂_both {α β : Type} {R S : α → β → Prop} {as : List α} {bs : List β} (h : List.Forall₂ R as bs)
    (h' : List.Forall₂ S as bs) : List.Forall₂ (fun a b => R a b ∧ S a b) as bs := by
  induction h with
  | nil => exact .nil
  | cons h1 _ ih =>
    cases h' with
    | cons h2 h3 => exact .cons ⟨h1, h2⟩ (ih h3)

/-- Everything visited has its twin, encrypted. -/
theorem Packed.twins {env : PackEnv} {l : Listing} {content : List Bytes → Bytes} {lib tempDir : Bytes}
    {fs5 fs6 : Staged} (h : Packed env l content lib tempDir true fs5 fs6) (hg : GoodCrypto env)
    (hw : ∀ l, env.encryptWalk fs5 = some l → NoRepeats l) (p : List Bytes) (hp : p ∈ (allVisits env lib fs5).1)
    (c : Bytes) (hc : fs5.get (lib :: p) = some (.file c)) :
    ∃ out, fs6.get (lib :: twin p) = some (.file out) ∧ ∃ key stored,
      Encrypted env.C key (key.take env.keyLen) (env.iv p) (c ++ stored) out ∧
      (stored = [] ∨ stored = env.mask p) := by
  obtain ⟨-, s, h1, h2⟩ := h.done rfl
  obtain ⟨outs, h3, -, h4, -⟩ := encSeq_jobs fs5 h1 (fun _ _ => rfl) (allVisits_mem env lib fs5)
    (allVisits_nodup env lib fs5 hw)
  have h5 := forall₂_map_left _ _ _ (encryptAll_each h3)
  have key : ∀ {ps : List (List Bytes)} {os : List (Bytes × Bytes)} {R : List Bytes → Bytes × Bytes → Prop},
      List.Forall₂ R ps os → ∀ p ∈ ps, ∃ o, R p o := by
    intro ps os R hR
    induction hR with
    | nil => simp
    | cons h _ ih =>
      intro p hp
      rcases List.mem_cons.1 hp with rfl | hp
      · exact ⟨_, h⟩
      · exact ih p hp
  obtain ⟨o, ⟨-, h6⟩, t, t', h7⟩ := key (forall₂_both h4 h5) p hp
  refine ⟨o.2, by rw [← h2]; exact h6, ?_⟩
  have hge : GoodEnv (env.context tempDir lib) := ⟨hg.crypto, hg.key, hg.keyLen⟩
  obtain ⟨t1, out1, ok1, h8, h9⟩ := crEncrypt_spec (env.context tempDir lib) hge t
    (jobOf env lib fs5 p).path (jobOf env lib fs5 p).iv (hg.iv p) (fun _ => (jobOf env lib fs5 p).mask)
    (fun _ => hg.mask p) (jobOf env lib fs5 p).plain false (fun _ => true)
  rw [h7] at h8
  simp only [Res.ok.injEq, Prod.mk.injEq] at h8
  obtain ⟨-, rfl, rfl⟩ := h8
  obtain ⟨-, key, h10⟩ := h9 rfl
  have hpl : (jobOf env lib fs5 p).plain = c := by
    unfold jobOf
    rw [hc]
  rw [hpl] at h10
  split at h10
  · exact ⟨key, _, h10, Or.inr rfl⟩
  · exact ⟨key, [], by rw [List.append_nil]; exact h10, Or.inl rfl⟩

/-- In a library with plain package files, every Modelica file is visited. -/
theorem Packed.visited {env : PackEnv} {l : Listing} {content : List Bytes → Bytes} {lib tempDir : Bytes}
    {fs5 fs6 : Staged} (h : Packed env l content lib tempDir true fs5 fs6)
    (hw : ∀ l, env.encryptWalk fs5 = some l → ShowsOld l [lib] fs5) (hpk : PlainPackages l)
    (hr : ∀ p, env.canRead (lib :: p) = true) (p : List Bytes) (hp : (p, Kind.file) ∈ entries l)
    (ho : Outside p) (hm : ModelicaName (nameOf p)) : p ∈ (allVisits env lib fs5).1 := by
  have hne : p ≠ [] := entries_ne_nil l _ hp
  refine allVisits_complete env lib fs5 hw (h.done rfl).1 p hne _ (h.source p hp ho) hm ?_ ?_
  · intro d hd
    obtain ⟨a, b, hab⟩ := List.mem_iff_append.1 hd
    have hp' : p = (a ++ [d]) ++ (b ++ [nameOf p]) := by
      conv => lhs; rw [← dropLast_nameOf hne, hab]
      simp
    have := entries_above l p (List.mem_map.2 ⟨_, hp, rfl⟩) _ _ hp' (by simp) (by simp)
    cases hc : eqNoCase d b!"package.mo" with
    | false => rfl
    | true =>
      have := (hpk _ this (by rw [nameOf_append]; exact hc)).2
      simp at this
  · intro hc
    exact ⟨(hpk _ hp hc).1, hr p⟩

/-- The parts of a successful run. -/
theorem packTool_packed {env : PackEnv} {args : List Bytes} {a : Archive}
    (h : packTool env args = .ok ⟨0, some a⟩) {ps : List (Bytes × Bytes)} (hp : ArgPairs args ps)
    {path lib : Bytes} (hpath : (b!"librarypath", path) ∈ ps) (hlib : LibraryName path lib) {l : Listing}
    (hl : env.library = some l) {content : List Bytes → Bytes} (hc : Copyable env.librarySource l content) :
    ∃ d tempDir icon lves fs1 fs2 fs3 fs4 fs5 fs6 zl, packArguments env args = .ok (some d) ∧
      PackSteps env d tempDir lib icon lves fs1 fs2 fs3 fs4 fs5 fs6 ∧
      Packed env l content lib tempDir (usingEncryption d) fs5 fs6 ∧
      (usingEncryption d = true ↔ AsksEncryption ps) ∧
      env.zipWalk fs6 = some zl ∧ a = (zipEntries env (usingEncryption d) fs6 zl []).1 ∧
      (zipEntries env (usingEncryption d) fs6 zl []).2 = true := by
  obtain ⟨d, tempDir, lib', icon, lves, fs1, fs2, fs3, fs4, fs5, fs6, h1, h2, h3⟩ := packTool_archive h
  have hlib' : lib' = lib := by
    have h4 := h2.name
    rw [packArguments_get h1 hp (by decide) hpath, if_pos rfl, Option.getD_some, getLibraryName_of hlib] at h4
    simpa using h4.symm
  subst hlib'
  rcases h3 with ⟨zl, h4, h5, h6⟩ | ⟨-, h4⟩
  · exact ⟨d, tempDir, icon, lves, fs1, fs2, fs3, fs4, fs5, fs6, zl, h1, h2, packed_of h2 hl hc,
      packArguments_encrypts h1 hp, h4, h5, h6 rfl⟩
  · exact absurd rfl h4

end Semla
