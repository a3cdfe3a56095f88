import Verif.Lemmas.PackAll
import Verif.Lemmas.CrLib
import Verif.Props.Crypt

/-!
# Lemmas about packaged libraries being decrypted
-/

namespace Semla

open Spec

theorem copyLves_modelica {env : PackEnv} {lib : Bytes} (ns : List Bytes) {fs : Staged}
    {r : Staged × List Bytes} (h : copyLves env lib ns fs = some r) (q : List Bytes)
    (hn : ∀ n ∈ ns, nameOf q ≠ n) : r.1.get q = fs.get q := by
  induction ns generalizing fs r with
  | nil =>
    simp only [copyLves, Option.some.injEq] at h
    rw [← h]
  | cons n ns ih =>
    have hn' : ∀ m ∈ ns, nameOf q ≠ m := fun m hm => hn m (List.mem_cons_of_mem _ hm)
    unfold copyLves at h
    split at h
    · split at h
      · split at h
        · simp at h
        · rename_i fs' hw
          rw [Option.map_eq_some_iff] at h
          obtain ⟨r', h1, h2⟩ := h
          rw [← h2]
          dsimp only
          rw [ih h1 hn', Staged.get_write hw, if_neg]
          intro hq
          exact hn n List.mem_cons_self (by rw [hq]; rfl)
      · simp at h
    · exact ih h hn'

/-- Until the encryption, no Modelica file is added. -/
theorem PackPrep.modelica {env : PackEnv} {d : ArgData} {tempDir lib : Bytes} {icon : Option Bytes}
    {lves : List Bytes} {fs1 fs2 fs3 fs4 fs5 : Staged}
    (h : PackPrep env d tempDir lib icon lves fs1 fs2 fs3 fs4 fs5) (hx : PlainExtras env) (q : List Bytes)
    (hm : ModelicaName (nameOf q)) : fs5.get q = fs1.get q := by
  have ne : ∀ n, isModelicaFile n = false → nameOf q ≠ n := by
    intro n hn he
    rw [he, ← isModelicaFile_iff, hn] at hm
    simp at hm
  have h1 : fs2.get q = fs1.get q := by
    refine createLibraryFolder_frame h.folder q fun hq => ne b!".library" (by decide) (by rw [hq]; rfl)
  have h2 : fs3.get q = fs2.get q := by
    have h' := h.lveDone
    unfold copyLVE at h'
    split at h'
    · split at h'
      · refine copyLves_modelica _ h' q fun n hn => ne n ?_
        have : ∀ n ∈ lveNames, isModelicaFile n = false := by decide
        exact this n hn
      · simp at h'
    · simp only [Option.some.injEq, Prod.mk.injEq] at h'
      rw [← h'.1]
  have h3 : fs4.get q = fs3.get q := by
    have h' := h.extra
    unfold copyExtraFiles at h'
    split at h'
    · split at h'
      · simp only [Option.some.injEq] at h'
        rw [← h']
      · rename_i lo hlo
        unfold copyDirectory at h'
        rw [Option.map_eq_some_iff] at h'
        obtain ⟨l, hl, h'⟩ := h'
        rw [← h']
        refine copyEntries_frame _ _ _ _ _ _ fun p hp hq => ?_
        obtain ⟨e, he, rfl⟩ := List.mem_map.1 hp
        apply hx l (by rw [hlo, hl]) e he
        rw [hq] at hm
        have hne := entries_ne_nil l e he
        rwa [List.cons_append, nameOf_cons _ (by simp), List.cons_append, nameOf_cons _ (by simpa using hne),
          List.nil_append] at hm
    · simp at h'
  have h4 : fs5.get q = fs4.get q := by
    have h' := h.manifest
    have hq : q ≠ [lib, b!".library", b!"manifest.xml"] := fun hq =>
      ne b!"manifest.xml" (by decide) (by rw [hq]; rfl)
    unfold writeManifest at h'
    dsimp only at h'
    split at h'
    · simp at h'
    · rename_i fs' hw
      rw [Res.bind_eq_ok] at h'
      obtain ⟨doc, -, h'⟩ := h'
      simp only [Res.ok.injEq] at h'
      rw [← h', Staged.get_set, if_neg hq]
      split at hw
      · rw [Staged.get_write hw, if_neg hq]
      · simp at hw
  rw [h4, h3, h2, h1]

/-- The files encrypted are files of the library. -/
theorem PackPrep.library {env : PackEnv} {d : ArgData} {tempDir lib : Bytes} {icon : Option Bytes}
    {lves : List Bytes} {fs1 fs2 fs3 fs4 fs5 : Staged}
    (h : PackPrep env d tempDir lib icon lves fs1 fs2 fs3 fs4 fs5) (hx : PlainExtras env) {l : Listing}
    {content : List Bytes → Bytes} (hl : env.library = some l) (hc : Copyable env.librarySource l content)
    (p : List Bytes) (hp : p ≠ []) (hm : ModelicaName (nameOf p)) (c : Bytes)
    (hg : fs5.get (lib :: p) = some (.file c)) : (p, Kind.file) ∈ entries l ∧ Outside p ∧ c = content p := by
  obtain ⟨c1, c2, c3, c4⟩ := copyFolderStructure_spec h.copy hl hc
  rw [h.modelica hx _ (by rw [nameOf_cons _ hp]; exact hm)] at hg
  have hmem : p ∈ (entries l).map (·.1) := by
    apply Decidable.byContradiction
    intro hn
    rw [c1 (lib :: p) (fun p' hp' he => hn (by simp only [List.cons.injEq, true_and] at he; rwa [he]))
      (by simp) (by simpa using hp)] at hg
    simp at hg
  have ho : Outside p := by
    apply Decidable.byContradiction
    intro hn
    rw [c4 p hmem hn] at hg
    simp at hg
  obtain ⟨⟨p', k⟩, he, hpp⟩ := List.mem_map.1 hmem
  simp only at hpp
  subst hpp
  rcases hc.kinds _ he with hk | hk
  · simp only at hk
    subst hk
    refine ⟨he, ho, ?_⟩
    rw [c2 _ he ho] at hg
    simpa using hg.symm
  · simp only at hk
    subst hk
    rw [c3 _ he ho] at hg
    simp at hg

theorem eqNoCase_comm (a b : Bytes) : eqNoCase a b = eqNoCase b a := by
  unfold eqNoCase
  exact Bool.beq_comm

theorem relPath_twin {p : List Bytes} (hp : p ≠ []) : relPath (twin p) = relPath p ++ b!"c" := by
  unfold twin
  by_cases hd : p.dropLast = []
  · have := dropLast_nameOf hp
    rw [hd] at this ⊢
    conv => rhs; rw [← this]
    rfl
  · rw [relPath_snoc _ _ hd]
    conv => rhs; rw [← dropLast_nameOf hp, relPath_snoc _ _ hd]
    simp

end Semla
