import Verif.Lemmas.PackUnpack
import Verif.Props.Pack

/-!
# Properties of packaged libraries: C57
-/

namespace Semla.Props

open Semla Spec

/-- What a successful run with encryption has done, in terms of the encryptor: the Modelica files of the
library have been encrypted, package files first, and the results are in the archive. -/
theorem packTool_jobs (env : PackEnv) (args : List Bytes) (a : Archive)
    (h : packTool env args = .ok ⟨0, some a⟩) (ps : List (Bytes × Bytes)) (hp : ArgPairs args ps)
    (he : AsksEncryption ps) (path lib : Bytes) (hpath : (b!"librarypath", path) ∈ ps)
    (hlib : LibraryName path lib) (l : Listing) (hl : env.library = some l) (content : List Bytes → Bytes)
    (hc : Copyable env.librarySource l content) (ht : Truthful env lib) (hg : GoodCrypto env)
    (hr : ∀ p, env.canRead (lib :: p) = true) (hx : PlainExtras env) (hpk : PlainPackages l) (hn : NamesOk l)
    (hall : PackagesEverywhere l content) :
    ∃ jobs outs base read, Packaged env.keyLen jobs ∧
      encryptAll ⟨env.C, env.key, env.keyLen, base, read⟩ [] jobs = .ok (some outs) ∧
      (∀ j ∈ jobs, ∃ p, IsSource l p ∧ j.dirs = p.dropLast ∧ j.name = nameOf p ∧ j.plain = content p) ∧
      (∀ p, IsSource l p → ∃ j ∈ jobs, j.dirs = p.dropLast ∧ j.name = nameOf p ∧ j.plain = content p) ∧
      (∀ j ∈ jobs, j.isPackage → j.plain ≠ []) ∧
      ∀ o ∈ outs, ∃ p, IsSource l p ∧ o.1 = relPath (twin p) ∧ (lib :: twin p, o.2) ∈ a := by
  obtain ⟨d, tempDir, icon, lves, fs1, fs2, fs3, fs4, fs5, fs6, zl, -, hsteps, h1, h2, h3, h4, h5⟩ :=
    packTool_packed h hp hpath hlib hl hc
  rw [h2.2 he] at h1 h4 h5
  have hshow := ht.zip fs6 zl h3
  have hw := fun l' hl' => (ht.encrypt fs5 l' hl').1
  obtain ⟨hok, s, hs1, hs2⟩ := h1.done rfl
  obtain ⟨outs, h6, h7, h8, -⟩ := encSeq_jobs fs5 hs1 (fun _ _ => rfl) (allVisits_mem env lib fs5)
    (allVisits_nodup env lib fs5 hw)
  -- the files visited are the sources of the library
  have hsrc : ∀ p ∈ (allVisits env lib fs5).1, IsSource l p ∧ p ≠ [] ∧
      fs5.get (lib :: p) = some (.file (content p)) := by
    intro p hp
    obtain ⟨hne, hm⟩ := allVisits_mem env lib fs5 p hp
    obtain ⟨c, hc'⟩ := h7 p hp
    obtain ⟨g1, g2, g3⟩ := hsteps.prep.library hx hl hc p hne hm c hc'
    exact ⟨⟨g1, g2, hm⟩, hne, g3 ▸ hc'⟩
  have hvis : ∀ p, IsSource l p → p ∈ (allVisits env lib fs5).1 := fun p hp =>
    h1.visited (ht.encrypt fs5) hpk hr p hp.1 hp.2.1 hp.2.2
  have hplain : ∀ p, IsSource l p → (jobOf env lib fs5 p).plain = content p := by
    intro p hp
    simp [jobOf, h1.source p hp.1 hp.2.1]
  have hpkg : ∀ p, IsSource l p → ∀ ds, ds <+: p.dropLast → IsSource l (ds ++ [b!"package.mo"]) ∧
      content (ds ++ [b!"package.mo"]) ≠ [] := by
    intro p hp ds hds
    obtain ⟨g1, g2⟩ := hall p hp ds hds
    refine ⟨⟨g1, ?_, by rw [nameOf_append]; exact modelica_package⟩, g2⟩
    intro hm
    rcases List.mem_append.1 hm with hm | hm
    · exact hp.2.1 (List.dropLast_subset _ (hds.subset hm))
    · simp only [List.mem_singleton] at hm
      exact absurd hm (by decide)
  -- the jobs are an order of encryption
  have hP : Packaged env.keyLen ((allVisits env lib fs5).1.map (jobOf env lib fs5)) := by
    refine ⟨?_, ?_, ?_, ?_⟩
    · intro j hj
      obtain ⟨p, hp, rfl⟩ := List.mem_map.1 hj
      obtain ⟨hs, hne, -⟩ := hsrc p hp
      have hnm : nameOf p ∈ p := by
        rw [show p = p.dropLast ++ [nameOf p] from (dropLast_nameOf hne).symm, nameOf_append]
        simp
      refine ⟨(hn _ hs.1).1 _ hnm, ?_, ?_⟩
      · intro hq
        exact (hpk _ hs.1 (by rw [eqNoCase_comm]; exact hq)).1
      · intro x hx
        have hxd : x ∈ p.dropLast := hx
        obtain ⟨u, v, huv⟩ := List.mem_iff_append.1 hxd
        have hp' : p = (u ++ [x]) ++ (v ++ [nameOf p]) := by
          conv => lhs; rw [← dropLast_nameOf hne, huv]
          simp
        have hdir := entries_above l p (List.mem_map.2 ⟨_, hs.1, rfl⟩) _ _ hp' (by simp) (by simp)
        refine ⟨(hn _ hs.1).1 _ (List.dropLast_subset _ hxd), ?_, ?_⟩
        · intro hq
          have := (hpk _ hdir (by rw [nameOf_append, eqNoCase_comm]; exact hq)).2
          simp at this
        · have := (hn _ hdir).2 rfl
          rw [nameOf_append] at this
          rw [this]
          simp
    · intro j hj
      obtain ⟨p, hp, rfl⟩ := List.mem_map.1 hj
      exact ⟨hg.iv p, hg.mask p⟩
    · rw [List.map_map]
      refine nodup_of_map (fun x : List Bytes × Bytes => x.1 ++ [x.2]) _ ?_
      rw [List.map_map]
      have : (allVisits env lib fs5).1.map ((fun x : List Bytes × Bytes => x.1 ++ [x.2]) ∘
          ((fun j : Job => (j.dirs, j.name)) ∘ jobOf env lib fs5)) = (allVisits env lib fs5).1 := by
        conv => rhs; rw [← List.map_id (allVisits env lib fs5).1]
        exact List.map_congr_left fun p hp => dropLast_nameOf (hsrc p hp).2.1
      rw [this]
      exact allVisits_nodup env lib fs5 hw
    · intro before j after hj ds hds hnot
      obtain ⟨b1, b2, hb, rfl, hb2⟩ := List.map_eq_append_iff.1 hj
      obtain ⟨p, b3, rfl, rfl, rfl⟩ := List.map_eq_cons_iff.1 hb2
      have hp : p ∈ (allVisits env lib fs5).1 := by rw [hb]; simp
      obtain ⟨hs, hne, -⟩ := hsrc p hp
      have hds' : ds <+: p.dropLast := hds
      obtain ⟨g1, -⟩ := hpkg p hs ds hds'
      obtain ⟨r, hr'⟩ := hds'
      have := allVisits_ordered env lib fs5 b1 p b3 hb ds (r ++ [nameOf p]) (by simp)
        (by rw [← List.append_assoc, hr', dropLast_nameOf hne]) (by
          intro hq
          have hr0 : r = [] ∧ nameOf p = b!"package.mo" := by
            cases r with
            | nil => simpa using hq
            | cons x r => simp at hq
          refine hnot ⟨hr0.2, ?_⟩
          rw [hr0.1, List.append_nil] at hr'
          exact hr')
        ((opens_iff ..).2 ⟨hr _, by
          have := h1.source _ g1.1 g1.2.1
          rw [List.cons_append, this]
          simp⟩)
      refine ⟨_, List.mem_map.2 ⟨_, this, rfl⟩, ?_, ?_⟩
      · simp [jobOf]
      · show nameOf _ = _
        rw [nameOf_append]
  refine ⟨_, outs, _, _, hP, h6, ?_, ?_, ?_, ?_⟩
  · intro j hj
    obtain ⟨p, hp, rfl⟩ := List.mem_map.1 hj
    exact ⟨p, (hsrc p hp).1, rfl, rfl, hplain p (hsrc p hp).1⟩
  · intro p hp
    exact ⟨_, List.mem_map.2 ⟨p, hvis p hp, rfl⟩, rfl, rfl, hplain p hp⟩
  · intro j hj hjp
    obtain ⟨p, hp, rfl⟩ := List.mem_map.1 hj
    obtain ⟨hs, hne, -⟩ := hsrc p hp
    rw [hplain p hs]
    have hname : nameOf p = b!"package.mo" := hjp
    have := (hpkg p hs p.dropLast List.prefix_rfl).2
    rw [← hname, dropLast_nameOf hne] at this
    exact this
  · have key : ∀ {ps : List (List Bytes)} {os : List (Bytes × Bytes)} {R : List Bytes → Bytes × Bytes → Prop},
        List.Forall₂ R ps os → ∀ o ∈ os, ∃ p ∈ ps, R p o := by
      intro ps os R hR
      induction hR with
      | nil => simp
      | cons h _ ih =>
        intro o ho
        rcases List.mem_cons.1 ho with rfl | ho
        · exact ⟨_, List.mem_cons_self, h⟩
        · obtain ⟨p, hp, hpo⟩ := ih o ho
          exact ⟨p, List.mem_cons_of_mem _ hp, hpo⟩
    intro o ho
    obtain ⟨p, hp, h9, h10⟩ := key h8 o ho
    obtain ⟨hs, hne, -⟩ := hsrc p hp
    rw [hs2] at h10
    have hz : (lib :: twin p, o.2) ∈ a := by
      have hm : ¬ ModelicaName (nameOf (lib :: twin p)) := by
        rw [twin_eq, nameOf_encryptedPath]
        exact not_modelica_append_c _
      obtain ⟨c', h11, h12⟩ := zipEntries_complete zl [] h5 (lib :: twin p) (shows_mem hshow (by simp) h10)
        (fun _ => hm)
      rw [List.nil_append] at h11 h12
      have : fs6.get (lib :: twin p) = some (.file o.2) := h10
      rw [this] at h11
      simp only [Option.some.injEq, Node.file.injEq] at h11
      rw [h4, h11]
      exact h12
    exact ⟨p, hs, by rw [h9, joinPath_eq, ← relPath_twin hne], hz⟩

/-- **C57, partial.** The archive made by a successful run with encryption, unpacked anywhere, is decrypted
to the contents of the library: whatever Modelica files are requested, in whatever order and however often,
each request delivers the contents of the file in the library.

Missing for the full claim: see C33 (directories without package file, empty package files, names with
backslashes, long paths and huge files) and C40 (other spellings of `package.mo`, failures of copying);
Modelica files among the extra files of the vendor. -/
theorem c57_partial (env : PackEnv) (args : List Bytes) (a : Archive)
    (h : packTool env args = .ok ⟨0, some a⟩) (ps : List (Bytes × Bytes)) (hp : ArgPairs args ps)
    (he : AsksEncryption ps) (path lib : Bytes) (hpath : (b!"librarypath", path) ∈ ps)
    (hlib : LibraryName path lib) (l : Listing) (hl : env.library = some l) (content : List Bytes → Bytes)
    (hc : Copyable env.librarySource l content) (ht : Truthful env lib) (hg : GoodCrypto env)
    (hr : ∀ p, env.canRead (lib :: p) = true) (hx : PlainExtras env) (hpk : PlainPackages l) (hn : NamesOk l)
    (hall : PackagesEverywhere l content) (basedir : Bytes) (read : Bytes → Option Bytes)
    (hun : Unpacked a lib basedir read)
    (hsize : ∀ p, IsSource l p → basedir.length + 1 + (relPath (p.dropLast ++ [b!"package.moc"])).length < 4096 ∧
      (content p).length + 96 < 2 ^ 31)
    (reqs : List (List Bytes)) (hreqs : ∀ p ∈ reqs, IsSource l p) :
    ∃ t, decryptAll ⟨env.C, env.key, env.keyLen, basedir, read⟩ [] (reqs.map fun p => relPath (twin p)) =
      .ok (t, reqs.map fun p => some (content p)) := by
  obtain ⟨jobs, outs, base, read', hP, henc, hj1, hj2, hne, hout⟩ := packTool_jobs env args a h ps hp he path lib
    hpath hlib l hl content hc ht hg hr hx hpk hn hall
  have hpath' : ∀ {p : List Bytes} {j : Job}, IsSource l p → j.dirs = p.dropLast → j.name = nameOf p →
      j.path ++ b!"c" = relPath (twin p) := by
    intro p j hp h1 h2
    have hpne : p ≠ [] := entries_ne_nil l _ hp.1
    rw [relPath_twin hpne, ← joinPath_eq]
    rw [Job.path, h1, h2, dropLast_nameOf hpne, joinPath_eq]
  obtain ⟨outs', g1, -, g3⟩ := c33_library_partial ⟨env.C, env.key, env.keyLen, base, read'⟩
    ⟨hg.crypto, hg.key, hg.keyLen⟩ jobs hP hne (by
      intro j hj
      obtain ⟨p, hs, h1, -⟩ := hj1 j hj
      have := (hsize p hs).1
      have h' := relPath_dirs_le p.dropLast
      rw [h1]
      omega)
  have houts : outs' = outs := by
    rw [henc] at g1
    simpa using g1.symm
  subst houts
  obtain ⟨js, hjs⟩ : ∃ js : List Job, List.Forall₂ (fun p j => j ∈ jobs ∧ IsSource l p ∧ j.dirs = p.dropLast ∧
      j.name = nameOf p ∧ j.plain = content p) reqs js := by
    clear g3
    induction reqs with
    | nil => exact ⟨[], .nil⟩
    | cons p ps ih =>
      obtain ⟨js, hjs⟩ := ih fun q hq => hreqs q (List.mem_cons_of_mem _ hq)
      obtain ⟨j, hj, h1, h2, h3⟩ := hj2 p (hreqs p List.mem_cons_self)
      exact ⟨j :: js, .cons ⟨hj, hreqs p List.mem_cons_self, h1, h2, h3⟩ hjs⟩
  obtain ⟨t, ht'⟩ := g3 basedir read
    (by
      intro j hj
      obtain ⟨p, hs, h1, -, h3⟩ := hj1 j hj
      have := hsize p hs
      rw [← h1, ← h3] at this
      exact this)
    (by
      intro o ho
      obtain ⟨p, -, h1, h2⟩ := hout o ho
      rw [h1]
      exact hun _ _ h2)
    js (by
      have key : ∀ {ps : List (List Bytes)} {js : List Job}, List.Forall₂ (fun p j => j ∈ jobs ∧ IsSource l p ∧
          j.dirs = p.dropLast ∧ j.name = nameOf p ∧ j.plain = content p) ps js → ∀ j ∈ js, j ∈ jobs := by
        intro ps js h
        induction h with
        | nil => simp
        | cons h _ ih =>
          intro j hj
          rcases List.mem_cons.1 hj with rfl | hj
          · exact h.1
          · exact ih j hj
      exact key hjs)
  refine ⟨t, ?_⟩
  have e : ∀ {ps : List (List Bytes)} {js : List Job}, List.Forall₂ (fun p j => j ∈ jobs ∧ IsSource l p ∧
      j.dirs = p.dropLast ∧ j.name = nameOf p ∧ j.plain = content p) ps js →
      js.map (fun j => j.path ++ b!"c") = ps.map (fun p => relPath (twin p)) ∧
      js.map (fun j => some j.plain) = ps.map (fun p => some (content p)) := by
    intro ps js h
    induction h with
    | nil => exact ⟨rfl, rfl⟩
    | cons h _ ih =>
      obtain ⟨-, hs, h1, h2, h3⟩ := h
      simp only [List.map_cons]
      rw [ih.1, ih.2, hpath' hs h1 h2, h3]
      exact ⟨rfl, rfl⟩
  rw [(e hjs).1, (e hjs).2] at ht'
  exact ht'

theorem sample_everywhere : PackagesEverywhere sampleLib (fun p => b!"text of " ++ relPath p) := by
  intro p hp ds hds
  have h1 : ∀ e ∈ entries sampleLib, Outside e.1 → e.1.dropLast.length < 3 ∧ ∀ n : Fin 3,
      (e.1.dropLast.take n ++ [b!"package.mo"], Kind.file) ∈ entries sampleLib := by decide +kernel
  obtain ⟨h2, h3⟩ := h1 _ hp.1 hp.2.1
  have h4 := List.prefix_iff_eq_take.1 hds
  have h5 := h3 ⟨ds.length, Nat.lt_of_le_of_lt hds.length_le h2⟩
  rw [← h4] at h5
  exact ⟨h5, by simp⟩

example : PackagesEverywhere sampleLib (fun p => b!"text of " ++ relPath p) ∧ NamesOk sampleLib ∧
    PlainPackages sampleLib ∧ PlainExtras (sampleMachine sampleLib) ∧ GoodCrypto (sampleMachine sampleLib) ∧
    Truthful (sampleMachine sampleLib) b!"Lib" ∧ IsSource sampleLib [b!"A", b!"y.MO"] :=
  ⟨sample_everywhere, by unfold NamesOk IsName; decide +kernel, by unfold PlainPackages; decide +kernel,
    fun l hl => by simp [sampleMachine] at hl, sample_crypto _, sample_truthful _,
    ⟨by decide +kernel, by decide, ⟨b!"y", b!".MO", rfl, by decide⟩⟩⟩

/-- The whole way on the sample machine: packaged, unpacked, and decrypted. -/
def sampleTrip : Option (List (Option Bytes)) :=
  match packTool (sampleMachine sampleLib) (sampleCommand b!"True") with
  | .ok ⟨0, some a⟩ =>
    match decryptAll ⟨toy, (List.range 32).map UInt8.ofNat, 32, b!"/opt", fun q =>
        (a.find? fun f => b!"/opt/" ++ relPath (f.1.drop 1) == q).map (·.2)⟩ []
        [b!"A/y.MOc", b!"package.moc", b!"x.moc", b!"A/y.MOc"] with
    | .ok r => some r.2
    | .ub _ => none
  | _ => none

example : sampleTrip = some [some b!"text of A/y.MO", some b!"text of package.mo", some b!"text of x.mo",
    some b!"text of A/y.MO"] := by decide +kernel

end Semla.Props
