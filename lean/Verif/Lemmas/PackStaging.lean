import Verif.Lemmas.PackEnc
import Verif.Lemmas.PackRun

/-!
# Lemmas: the staging directory is a tree
-/

namespace Semla

open Spec

theorem Spec.StagingTree.write {lib : Bytes} {fs fs' : Staged} (h : StagingTree lib fs) {p : List Bytes} {c : Bytes}
    (hw : fs.write (lib :: p) c = some fs') : StagingTree lib fs' := by
  have hg := Staged.get_write hw
  unfold Staged.write at hw
  split at hw
  · rename_i hc
    obtain ⟨-, hd, hn⟩ := hc
    simp only [Option.some.injEq] at hw
    have keep : ∀ q, fs.get q = some .dir → fs'.get q = some .dir := by
      intro q hq
      rw [hg, if_neg (by rintro rfl; exact hn hq)]
      exact hq
    refine ⟨keep _ h.top, keep _ h.library, ?_, ?_⟩
    · intro q n hq
      rw [← hw] at hq
      unfold Staged.set at hq
      rcases List.mem_cons.1 hq with hq | hq
      · apply keep
        have := congrArg List.dropLast hq
        rw [List.dropLast_concat] at this
        rw [this]
        exact hd
      · exact keep _ (h.above q n hq)
    · intro q hq
      rw [← hw] at hq
      unfold Staged.set at hq
      rcases List.mem_cons.1 hq with hq | hq
      · subst hq
        exact Or.inr ⟨p, rfl⟩
      · exact h.only q hq
  · simp at hw

theorem Spec.StagingTree.mkdir {lib : Bytes} {fs fs' : Staged} (h : StagingTree lib fs) {p : List Bytes}
    (hw : fs.mkdir (lib :: p) = some fs') : StagingTree lib fs' := by
  have hg := Staged.get_mkdir hw
  unfold Staged.mkdir at hw
  split at hw
  · rename_i hc
    obtain ⟨-, hd, hn⟩ := hc
    simp only [Option.some.injEq] at hw
    have keep : ∀ q, fs.get q = some .dir → fs'.get q = some .dir := by
      intro q hq
      rw [hg]
      split
      · rfl
      · exact hq
    refine ⟨keep _ h.top, keep _ h.library, ?_, ?_⟩
    · intro q n hq
      rw [← hw] at hq
      unfold Staged.set at hq
      rcases List.mem_cons.1 hq with hq | hq
      · apply keep
        have := congrArg List.dropLast hq
        rw [List.dropLast_concat] at this
        rw [this]
        exact hd
      · exact keep _ (h.above q n hq)
    · intro q hq
      rw [← hw] at hq
      unfold Staged.set at hq
      rcases List.mem_cons.1 hq with hq | hq
      · subst hq
        exact Or.inr ⟨p, rfl⟩
      · exact h.only q hq
  · simp at hw

/-- What is written to a file does not matter. -/
theorem Staged.write_any {fs fs' : Staged} {p : List Bytes} {c : Bytes} (h : fs.write p c = some fs') (c' : Bytes) :
    fs.write p c' = some (fs.set p (.file c')) := by
  unfold Staged.write at h ⊢
  split at h
  · rename_i hc
    rw [if_pos hc]
  · simp at h

theorem Spec.StagingTree.copyEntries {lib : Bytes} (s : Source) (l : Listing) (src dst : List Bytes) {fs : Staged}
    (h : StagingTree lib fs) : StagingTree lib (copyEntries s l src (lib :: dst) fs) := by
  induction l generalizing src dst fs with
  | done => exact h
  | file n rest ih =>
    simp only [Semla.copyEntries]
    split
    · exact ih _ _ h
    · apply ih
      split
      · rename_i c hc
        cases hw : fs.write (lib :: dst ++ [n]) c with
        | none => exact h
        | some fs' => exact h.write (p := dst ++ [n]) hw
      · exact h
  | dir n sub rest ih1 ih2 =>
    simp only [Semla.copyEntries]
    split
    · exact ih2 _ _ h
    · apply ih2
      refine ih1 _ (dst ++ [n]) ?_
      split
      · cases hw : fs.mkdir (lib :: dst ++ [n]) with
        | none => exact h
        | some fs' => exact h.mkdir (p := dst ++ [n]) hw
      · exact h
  | locked n rest ih =>
    simp only [Semla.copyEntries]
    split
    · exact ih _ _ h
    · apply ih
      split
      · cases hw : fs.mkdir (lib :: dst ++ [n]) with
        | none => exact h
        | some fs' => exact h.mkdir (p := dst ++ [n]) hw
      · exact h
  | other n rest ih =>
    simp only [Semla.copyEntries]
    exact ih _ _ h

theorem copyFolderStructure_tree {env : PackEnv} {lib : Bytes} {fs : Staged}
    (h : copyFolderStructure env lib = some fs) : StagingTree lib fs := by
  unfold copyFolderStructure at h
  split at h
  · simp at h
  · split at h
    · simp at h
    · rename_i fs0 h0
      have e : fs0 = [([lib], .dir), ([], .dir)] := by
        have : Staged.empty.mkdir [lib] = some [([lib], .dir), ([], .dir)] := rfl
        rw [this] at h0
        exact (Option.some.inj h0).symm
      unfold copyDirectory at h
      rw [Option.map_eq_some_iff] at h
      obtain ⟨l, -, h⟩ := h
      rw [← h]
      refine StagingTree.copyEntries _ _ _ [] ?_
      subst e
      refine ⟨rfl, by simp [Staged.get], ?_, ?_⟩
      · intro p n hp
        simp only [List.map_cons, List.map_nil, List.mem_cons, List.not_mem_nil, or_false] at hp
        rcases hp with hp | hp
        · have := congrArg List.dropLast hp
          rw [List.dropLast_concat] at this
          rw [this]
          rfl
        · simp at hp
      · intro p hp
        simp only [List.map_cons, List.map_nil, List.mem_cons, List.not_mem_nil, or_false] at hp
        rcases hp with rfl | rfl
        · exact Or.inr ⟨[], rfl⟩
        · exact Or.inl rfl

theorem createLibraryFolder_tree {env : PackEnv} {lib : Bytes} {fs fs' : Staged} (ht : StagingTree lib fs)
    (h : createLibraryFolder env lib fs = some fs') : StagingTree lib fs' := by
  unfold createLibraryFolder at h
  split at h
  · exact ht.mkdir h
  · simp at h

theorem copyLves_tree {env : PackEnv} {lib : Bytes} (ns : List Bytes) {fs : Staged} (ht : StagingTree lib fs)
    {r : Staged × List Bytes} (h : copyLves env lib ns fs = some r) : StagingTree lib r.1 := by
  induction ns generalizing fs r with
  | nil =>
    simp only [copyLves, Option.some.injEq] at h
    rw [← h]
    exact ht
  | cons n ns ih =>
    unfold copyLves at h
    split at h
    · split at h
      · split at h
        · simp at h
        · rename_i fs' hw
          rw [Option.map_eq_some_iff] at h
          obtain ⟨r', h1, h2⟩ := h
          rw [← h2]
          have := ih (ht.write hw) h1
          exact this
      · simp at h
    · exact ih ht h

theorem PackPrep.tree {env : PackEnv} {d : ArgData} {tempDir lib : Bytes} {icon : Option Bytes}
    {lves : List Bytes} {fs1 fs2 fs3 fs4 fs5 : Staged}
    (h : PackPrep env d tempDir lib icon lves fs1 fs2 fs3 fs4 fs5) : StagingTree lib fs5 := by
  have t2 := createLibraryFolder_tree (copyFolderStructure_tree h.copy) h.folder
  have t3 : StagingTree lib fs3 := by
    have h3 := h.lveDone
    unfold copyLVE at h3
    split at h3
    · split at h3
      · exact copyLves_tree _ t2 h3
      · simp at h3
    · simp only [Option.some.injEq, Prod.mk.injEq] at h3
      rw [← h3.1]
      exact t2
  have t4 : StagingTree lib fs4 := by
    have h4 := h.extra
    unfold copyExtraFiles at h4
    split at h4
    · split at h4
      · simp only [Option.some.injEq] at h4
        rw [← h4]
        exact t3
      · unfold copyDirectory at h4
        rw [Option.map_eq_some_iff] at h4
        obtain ⟨l, -, h4⟩ := h4
        rw [← h4]
        exact t3.copyEntries _ _ _ [b!".library"]
    · simp at h4
  have h5 := h.manifest
  unfold writeManifest at h5
  dsimp only at h5
  split at h5
  · simp at h5
  · rename_i fs' hw
    rw [Res.bind_eq_ok] at h5
    obtain ⟨doc, -, h5⟩ := h5
    simp only [Res.ok.injEq] at h5
    split at hw
    · have t' := t4.write hw
      have hgd : fs'.get [lib, b!".library", b!"manifest.xml"] = some (.file []) := by
        rw [Staged.get_write hw, if_pos rfl]
      have hup := t'.above [lib, b!".library"] b!"manifest.xml" (Staged.mem_of_get hgd)
      rw [← h5]
      have : fs'.write [lib, b!".library", b!"manifest.xml"] doc =
          some (fs'.set [lib, b!".library", b!"manifest.xml"] (.file doc)) := by
        unfold Staged.write
        rw [if_pos ⟨by simp, hup, by rw [hgd]; simp⟩]
      exact t'.write this
    · simp at hw

theorem encryptOne_tree {env : PackEnv} {e : CrEnv} {lib : Bytes} {p : List Bytes} {s s' : EncState} {ok : Bool}
    (ht : StagingTree lib s.fs) (h : encryptOne env e lib p s = .ok (s', ok)) : StagingTree lib s'.fs := by
  unfold encryptOne at h
  split at h
  · simp at h
  · dsimp only at h
    split at h
    · simp at h
    · rename_i fs' hw
      rw [Res.bind_eq_ok] at h
      obtain ⟨⟨t, bytes, ok'⟩, -, h⟩ := h
      simp only [Res.ok.injEq, Prod.mk.injEq] at h
      rw [← h.1]
      split at hw
      · exact ht.write (Staged.write_any hw bytes)
      · simp at hw

theorem encSeq_tree {env : PackEnv} {e : CrEnv} {lib : Bytes} {ps : List (List Bytes)} {s s' : EncState}
    {ok : Bool} (ht : StagingTree lib s.fs) (h : encSeq env e lib ps s = .ok (s', ok)) :
    StagingTree lib s'.fs := by
  induction ps generalizing s with
  | nil =>
    simp only [encSeq, Res.ok.injEq, Prod.mk.injEq] at h
    rw [← h.1]
    exact ht
  | cons p ps ih =>
    unfold encSeq at h
    rw [Res.bind_eq_ok] at h
    obtain ⟨⟨s1, ok1⟩, h1, h⟩ := h
    dsimp only at h
    split at h
    · exact ih (encryptOne_tree ht h1) h
    · simp only [Res.ok.injEq, Prod.mk.injEq] at h
      rw [← h.1]
      exact encryptOne_tree ht h1

theorem encryptDirectory_tree {env : PackEnv} {e : CrEnv} {lib : Bytes} {fs : Staged} {s : EncState} {ok : Bool}
    (ht : StagingTree lib fs) (h : encryptDirectory env e lib fs = .ok (s, ok)) : StagingTree lib s.fs := by
  rw [encryptDirectory_eq, Res.bind_eq_ok] at h
  obtain ⟨⟨s', ok'⟩, h1, h⟩ := h
  simp only [Res.ok.injEq, Prod.mk.injEq] at h
  rw [← h.1]
  exact encSeq_tree ht h1

theorem PackSteps.tree {env : PackEnv} {d : ArgData} {tempDir lib : Bytes} {icon : Option Bytes}
    {lves : List Bytes} {fs1 fs2 fs3 fs4 fs5 fs6 : Staged}
    (h : PackSteps env d tempDir lib icon lves fs1 fs2 fs3 fs4 fs5 fs6) : StagingTree lib fs6 := by
  have t5 := h.prep.tree
  have h6 := h.encrypt
  unfold encryptFiles at h6
  split at h6
  · rw [Res.bind_eq_ok] at h6
    obtain ⟨⟨s, ok⟩, h1, h6⟩ := h6
    have t6 := encryptDirectory_tree t5 h1
    simp only [Res.ok.injEq] at h6
    split at h6
    · rw [Option.some.inj h6.symm]
      exact t6
    · simp at h6
  · simp only [Res.ok.injEq, Option.some.injEq] at h6
    rw [← h6]
    exact t5

end Semla
