import Verif.Model.MolFile
import Verif.Spec.ZipWin
import Verif.Spec.Crypt

/-!
# Lemmas about the package file on Windows
-/

namespace Semla

open Spec

/-! ## The steps before -/

/-- The package of `packToolWin` in terms of the staging directory. -/
theorem packToolWin_stage (w : PackWinEnv) (args : List Bytes) :
    packToolWin w args =
      if args = [] then .ok ⟨1, none⟩
      else if helpRequested args then .ok ⟨0, none⟩
      else (packArguments w.env args).bind fun o =>
        match o with
        | none => .ok ⟨1, none⟩
        | some d => (stageLibraryWin w d).bind fun x =>
          match x with
          | .error c => .ok ⟨c, none⟩
          | .ok fs => (createZipArchiveWin w.env d fs).bind fun r => .ok ⟨if r.2 then 0 else 9, r.1⟩ := by
  unfold packToolWin
  split
  · rfl
  split
  · rfl
  show Res.bind _ _ = Res.bind _ _
  cases packArguments w.env args with
  | ub u => rfl
  | ok o =>
    cases o with
    | none => rfl
    | some d =>
      show packLibraryWin w d = _
      unfold packLibraryWin stageLibraryWin
      dsimp only [Res.bind]
      cases w.env.tempDir with
      | none => rfl
      | some t =>
        dsimp only
        cases h1 : copyFolderStructureWin w (afterLastSep ((getValueOf d b!"librarypath").getD [])) with
        | ub u => rfl
        | ok o1 =>
          cases o1 with
          | none => rfl
          | some fs1 =>
            show (match createLibraryFolderWin w _ fs1 with | none => _ | some fs => _) = _
            simp only [bind, Res.bind]
            cases h2 : createLibraryFolderWin w (afterLastSep ((getValueOf d b!"librarypath").getD [])) fs1 with
            | none => rfl
            | some fs2 =>
              dsimp only
              cases h3 : prepareIconFileWin w d t (afterLastSep ((getValueOf d b!"librarypath").getD [])) fs2 with
              | ub u => rfl
              | ok o3 =>
                cases o3 with
                | none => rfl
                | some icon =>
                  dsimp only
                  cases h4 : copyLVEWin w.env d (afterLastSep ((getValueOf d b!"librarypath").getD [])) fs2 with
                  | none => rfl
                  | some x =>
                    obtain ⟨fs4, lves⟩ := x
                    dsimp only
                    cases h5 : copyExtraFilesWin w (afterLastSep ((getValueOf d b!"librarypath").getD [])) fs4 with
                    | ub u => rfl
                    | ok o5 =>
                      cases o5 with
                      | none => rfl
                      | some fs5 =>
                        dsimp only
                        cases h6 : writeManifestWin w.env d (afterLastSep ((getValueOf d b!"librarypath").getD []))
                            lves icon fs5 with
                        | ub u => rfl
                        | ok fs6 =>
                          dsimp only
                          cases h7 : encryptFilesWin w.env d t
                              (afterLastSep ((getValueOf d b!"librarypath").getD [])) fs6 with
                          | ub u => rfl
                          | ok o7 => cases o7 <;> rfl

/-! ## The calls that add files -/

/-- The calls for the files of an archive, the first of them with number `k`. -/
def molCalls (m : MolEnv) : Nat → Archive → List (ZipIo × Bytes × Bytes)
  | _, [] => []
  | k, e :: a => (m.io k, joinPath e.1, e.2) :: molCalls m (k + 1) a

theorem molCalls_append (m : MolEnv) (a b : Archive) : ∀ k,
    molCalls m k (a ++ b) = molCalls m k a ++ molCalls m (k + a.length) b := by
  induction a with
  | nil => intro k; rfl
  | cons e a ih =>
    intro k
    simp only [List.cons_append, molCalls, ih, List.length_cons]
    rw [show k + 1 + a.length = k + (a.length + 1) by omega]

theorem molCalls_files (m : MolEnv) (a : Archive) : ∀ k,
    (molCalls m k a).map (fun x => x.2) = a.map fun e => (joinPath e.1, e.2) := by
  induction a with
  | nil => intro k; rfl
  | cons e a ih => intro k; simp [molCalls, ih]

theorem molCalls_mem {m : MolEnv} {a : Archive} : ∀ {k x}, x ∈ molCalls m k a →
    (∃ i, x.1 = m.io i) ∧ ∃ e ∈ a, x.2 = (joinPath e.1, e.2) := by
  induction a with
  | nil => intro k x hx; simp [molCalls] at hx
  | cons e a ih =>
    intro k x hx
    simp only [molCalls, List.mem_cons] at hx
    rcases hx with rfl | hx
    · exact ⟨⟨k, rfl⟩, e, by simp, rfl⟩
    · obtain ⟨h1, e', he, h2⟩ := ih hx
      exact ⟨h1, e', by simp [he], h2⟩

theorem molCalls_length (m : MolEnv) (a : Archive) : ∀ k, (molCalls m k a).length = a.length := by
  induction a with
  | nil => intro k; rfl
  | cons e a ih => intro k; simp [molCalls, ih]

theorem addFiles_append (deflate : Bytes → List Bytes) (b : List (ZipIo × Bytes × Bytes)) :
    ∀ (a : List (ZipIo × Bytes × Bytes)) (old : Option Bytes),
    addFiles deflate (a ++ b) old =
      if (addFiles deflate a old).2 then addFiles deflate b (addFiles deflate a old).1 else addFiles deflate a old := by
  intro a
  induction a with
  | nil => intro old; rfl
  | cons x a ih =>
    intro old
    obtain ⟨io, name, data⟩ := x
    rw [List.cons_append, addFiles, addFiles]
    cases h : addInPlace deflate io old name data b!"Modelica_archive" with
    | mk new ok =>
      cases ok
      · simp
      · exact ih new

/-- What `zipFileWin` does is what `zipEntriesWin` says, as long as no call that adds a file fails. -/
theorem zipFileWin_ok (m : MolEnv) (env : PackEnv) (hz : ∀ p, env.zipAdds p = true) (encrypted : Bool) (fs : Staged)
    (l : Listing) : ∀ (dir : List Bytes) (res : Bool) (s s' : MolState),
    zipFileWin m env encrypted fs l dir res s = .ok (s', true) →
    ∃ a, zipEntriesWin env encrypted fs l dir res = .ok (a, true) ∧ s'.1 = s.1 + a.length ∧
      addFiles m.deflate (molCalls m s.1 a) s.2 = (s'.2, true) := by
  induction l with
  | done =>
    intro dir res s s' h
    simp only [zipFileWin, Res.ok.injEq, Prod.mk.injEq] at h
    obtain ⟨rfl, rfl⟩ := h
    exact ⟨[], rfl, rfl, rfl⟩
  | file n rest ih =>
    intro dir res s s' h
    unfold zipFileWin at h
    unfold zipEntriesWin
    split at h
    · rename_i hc
      rw [if_pos hc]
      cases hg : fs.wget (dir ++ [n]) with
      | none => simp [hg] at h
      | some x =>
        cases x with
        | dir => simp [hg] at h
        | file c =>
          simp only [hg] at h
          dsimp only
          split at h
          · simp at h
          · rename_i hr
            rw [if_neg hr, if_pos (hz _)]
            cases ha : m.add s (dir ++ [n]) c with
            | mk s1 ok =>
              cases ok with
              | false => simp [ha] at h
              | true =>
                rw [ha] at h
                obtain ⟨a, h1, h2, h3⟩ := ih dir true s1 s' h
                unfold MolEnv.add at ha
                simp only [Prod.mk.injEq] at ha
                obtain ⟨ha, hb⟩ := ha
                subst ha
                refine ⟨(dir ++ [n], c) :: a, ?_, ?_, ?_⟩
                · show Res.bind _ _ = _
                  rw [h1]
                  rfl
                · rw [h2, List.length_cons]
                  show s.1 + 1 + _ = _
                  omega
                · rw [molCalls, addFiles]
                  dsimp only at h3 ⊢
                  rw [show addInPlace m.deflate (m.io s.1) s.2 (joinPath (dir ++ [n])) c b!"Modelica_archive" =
                    ((addInPlace m.deflate (m.io s.1) s.2 (joinPath (dir ++ [n])) c b!"Modelica_archive").1, true) by
                      rw [← hb]]
                  exact h3
    · rename_i hc
      rw [if_neg hc]
      exact ih dir res s s' h
  | dir n sub rest ihs ihr =>
    intro dir res s s' h
    unfold zipFileWin at h
    unfold zipEntriesWin
    rw [Res.bind_eq_ok] at h
    obtain ⟨⟨s1, ok⟩, h1, h⟩ := h
    dsimp only at h
    cases ok with
    | false => simp at h
    | true =>
      rw [if_pos rfl] at h
      obtain ⟨a, g1, g2, g3⟩ := ihs (dir ++ [n]) false s s1 h1
      obtain ⟨b, k1, k2, k3⟩ := ihr dir true s1 s' h
      refine ⟨a ++ b, ?_, ?_, ?_⟩
      · show Res.bind _ _ = _
        rw [g1]
        show Res.bind _ _ = _
        rw [k1]
        rfl
      · rw [k2, g2, List.length_append]
        omega
      · rw [molCalls_append, addFiles_append, g3, ← g2]
        exact k3
  | locked n rest ih =>
    intro dir res s s' h
    simp [zipFileWin] at h
  | other n rest ih =>
    intro dir res s s' h
    unfold zipFileWin at h
    unfold zipEntriesWin
    exact ih dir res s s' h

/-- The other way round. -/
theorem zipFileWin_back (m : MolEnv) (env : PackEnv) (encrypted : Bool) (fs : Staged)
    (l : Listing) : ∀ (dir : List Bytes) (res : Bool) (a : Archive) (s : MolState) (new : Option Bytes),
    zipEntriesWin env encrypted fs l dir res = .ok (a, true) →
    addFiles m.deflate (molCalls m s.1 a) s.2 = (new, true) →
    zipFileWin m env encrypted fs l dir res s = .ok ((s.1 + a.length, new), true) := by
  induction l with
  | done =>
    intro dir res a s new h hadd
    simp only [zipEntriesWin, Res.ok.injEq, Prod.mk.injEq] at h
    obtain ⟨rfl, rfl⟩ := h
    simp only [molCalls, addFiles, Prod.mk.injEq, and_true] at hadd
    subst hadd
    rfl
  | file n rest ih =>
    intro dir res a s new h hadd
    unfold zipEntriesWin at h
    unfold zipFileWin
    split at h
    · rename_i hc
      rw [if_pos hc]
      cases hg : fs.wget (dir ++ [n]) with
      | none => simp [hg] at h
      | some x =>
        cases x with
        | dir => simp [hg] at h
        | file c =>
          simp only [hg] at h
          dsimp only
          split at h
          · simp at h
          · rename_i hr
            rw [if_neg hr]
            split at h
            · rw [Res.bind_eq_ok] at h
              obtain ⟨⟨b, ok⟩, h1, h⟩ := h
              simp only [Res.ok.injEq, Prod.mk.injEq] at h
              obtain ⟨rfl, rfl⟩ := h
              rw [molCalls, addFiles] at hadd
              unfold MolEnv.add
              cases ha : addInPlace m.deflate (m.io s.1) s.2 (joinPath (dir ++ [n])) c b!"Modelica_archive" with
              | mk new1 ok1 =>
                rw [ha] at hadd
                cases ok1 with
                | false => simp at hadd
                | true =>
                  have := ih dir true b (s.1 + 1, new1) new h1 hadd
                  dsimp only at this ⊢
                  rw [this, List.length_cons]
                  simp only [Res.ok.injEq, Prod.mk.injEq, and_true]
                  omega
            · simp at h
    · rename_i hc
      rw [if_neg hc]
      exact ih dir res a s new h hadd
  | dir n sub rest ihs ihr =>
    intro dir res a s new h hadd
    unfold zipEntriesWin at h
    unfold zipFileWin
    rw [Res.bind_eq_ok] at h
    obtain ⟨⟨a1, ok⟩, h1, h⟩ := h
    dsimp only at h
    cases ok with
    | false => simp at h
    | true =>
      rw [if_pos rfl, Res.bind_eq_ok] at h
      obtain ⟨⟨b, ok⟩, h2, h⟩ := h
      simp only [Res.ok.injEq, Prod.mk.injEq] at h
      obtain ⟨rfl, rfl⟩ := h
      rw [molCalls_append, addFiles_append] at hadd
      cases hx : addFiles m.deflate (molCalls m s.1 a1) s.2 with
      | mk new1 ok1 =>
        rw [hx] at hadd
        cases ok1 with
        | false => simp at hadd
        | true =>
          rw [if_pos rfl] at hadd
          have g1 := ihs (dir ++ [n]) false a1 s new1 h1 hx
          have g2 := ihr dir true b (s.1 + a1.length, new1) new h2 hadd
          show Res.bind _ _ = _
          rw [g1]
          show zipFileWin m env encrypted fs rest dir true _ = _
          rw [g2, List.length_append]
          simp only [Res.ok.injEq, Prod.mk.injEq, and_true]
          omega
  | locked n rest ih =>
    intro dir res a s new h hadd
    simp [zipEntriesWin] at h
  | other n rest ih =>
    intro dir res a s new h hadd
    unfold zipEntriesWin at h
    unfold zipFileWin
    exact ih dir res a s new h hadd

theorem zipEntriesWin_some {env : PackEnv} {encrypted : Bool} {fs : Staged} {l : Listing} {dir : List Bytes}
    {a : Archive} (h : zipEntriesWin env encrypted fs l dir false = .ok (a, true)) : a ≠ [] := by
  have key : ∀ (l : Listing) (dir : List Bytes) (res : Bool) (a : Archive),
      zipEntriesWin env encrypted fs l dir res = .ok (a, true) → a ≠ [] ∨ res = true := by
    intro l
    induction l with
    | done =>
      intro dir res a h
      simp only [zipEntriesWin, Res.ok.injEq, Prod.mk.injEq] at h
      exact Or.inr h.2
    | file n rest ih =>
      intro dir res a h
      unfold zipEntriesWin at h
      split at h
      · cases hg : fs.wget (dir ++ [n]) with
        | none => simp [hg] at h
        | some x =>
          cases x with
          | dir => simp [hg] at h
          | file c =>
            simp only [hg] at h
            split at h
            · simp at h
            · split at h
              · rw [Res.bind_eq_ok] at h
                obtain ⟨⟨b, ok⟩, h1, h⟩ := h
                simp only [Res.ok.injEq, Prod.mk.injEq] at h
                exact Or.inl (by rw [← h.1]; simp)
              · simp at h
      · exact ih dir res a h
    | dir n sub rest ihs ihr =>
      intro dir res a h
      unfold zipEntriesWin at h
      rw [Res.bind_eq_ok] at h
      obtain ⟨⟨a1, ok⟩, h1, h⟩ := h
      dsimp only at h
      cases ok with
      | false => simp at h
      | true =>
        rw [if_pos rfl, Res.bind_eq_ok] at h
        obtain ⟨⟨b, ok⟩, h2, h⟩ := h
        simp only [Res.ok.injEq, Prod.mk.injEq] at h
        have := ihs _ _ _ h1
        simp only [Bool.false_eq_true, or_false] at this
        exact Or.inl (by rw [← h.1]; simp [this])
    | locked n rest ih =>
      intro dir res a h
      simp [zipEntriesWin] at h
    | other n rest ih =>
      intro dir res a h
      unfold zipEntriesWin at h
      exact ih dir res a h
  have := key l dir false a h
  simpa using this

/-! ## The whole run -/

theorem stageLibraryWin_error {w : PackWinEnv} {d : ArgData} {c : Nat} (h : stageLibraryWin w d = .ok (.error c)) :
    c ≠ 0 := by
  unfold stageLibraryWin at h
  split at h
  · cases h; decide
  dsimp only at h
  rw [Res.bind_eq_ok] at h
  obtain ⟨r1, -, h⟩ := h
  cases r1 with
  | none => cases h; decide
  | some fs1 =>
    dsimp only at h
    split at h
    · cases h; decide
    rw [Res.bind_eq_ok] at h
    obtain ⟨r2, -, h⟩ := h
    cases r2 with
    | none => cases h; decide
    | some icon =>
      dsimp only at h
      split at h
      · cases h; decide
      rw [Res.bind_eq_ok] at h
      obtain ⟨r3, -, h⟩ := h
      cases r3 with
      | none => cases h; decide
      | some fs3 =>
        dsimp only at h
        rw [Res.bind_eq_ok] at h
        obtain ⟨fs4, -, h⟩ := h
        rw [Res.bind_eq_ok] at h
        obtain ⟨r5, -, h⟩ := h
        cases r5 with
        | none => cases h; decide
        | some fs5 => simp at h

/-- A run that makes the file, and the calls that added its files. -/
theorem packMol_ok {m : MolEnv} {w : PackWinEnv} {args : List Bytes} (hz : ∀ p, w.env.zipAdds p = true)
    (hh : helpRequested args = false) {file : Option Bytes} (h : packMol m w args = .ok ⟨0, file⟩) :
    ∃ a, packToolWin w args = .ok ⟨0, some a⟩ ∧ a ≠ [] ∧
      addFiles m.deflate (molCalls m 0 a) (if m.removed then none else m.previous) = (file, true) := by
  rw [packToolWin_stage]
  unfold packMol at h
  split at h
  · simp at h
  rename_i hne
  rw [if_neg hne]
  rw [if_neg (by simp [hh])] at h
  rw [if_neg (by simp [hh])]
  rw [Res.bind_eq_ok] at h
  obtain ⟨o, h1, h⟩ := h
  rw [h1]
  cases o with
  | none => simp at h
  | some d =>
    dsimp only [Res.bind]
    dsimp only at h
    rw [Res.bind_eq_ok] at h
    obtain ⟨x, h2, h⟩ := h
    rw [h2]
    cases x with
    | error c =>
      simp only [Res.ok.injEq, MolResult.mk.injEq] at h
      exact absurd h.1 (stageLibraryWin_error h2)
    | ok fs =>
      dsimp only
      dsimp only at h
      rw [Res.bind_eq_ok] at h
      obtain ⟨⟨f, ok⟩, h3, h⟩ := h
      cases ok with
      | false => simp at h
      | true =>
        simp only [Res.ok.injEq, MolResult.mk.injEq] at h
        obtain ⟨-, rfl⟩ := h
        unfold createMol at h3
        unfold createZipArchiveWin
        dsimp only at h3
        cases hw : w.env.zipWalk fs with
        | none => simp [hw] at h3
        | some l =>
          rw [hw] at h3
          dsimp only at h3 ⊢
          rw [Res.bind_eq_ok] at h3
          obtain ⟨⟨s, ok⟩, h4, h3⟩ := h3
          simp only [Res.ok.injEq, Prod.mk.injEq] at h3
          obtain ⟨rfl, rfl⟩ := h3
          obtain ⟨a, g1, -, g3⟩ := zipFileWin_ok m w.env hz _ fs l [] false _ s h4
          have hne := zipEntriesWin_some g1
          refine ⟨a, ?_, hne, g3⟩
          simp only [bind, g1, Res.bind, if_neg hne, if_true]

/-- The other way round. -/
theorem packMol_back {m : MolEnv} {w : PackWinEnv} {args : List Bytes} {a : Archive} {file : Option Bytes}
    (h : packToolWin w args = .ok ⟨0, some a⟩)
    (hadd : addFiles m.deflate (molCalls m 0 a) (if m.removed then none else m.previous) = (file, true)) :
    packMol m w args = .ok ⟨0, file⟩ := by
  rw [packToolWin_stage] at h
  unfold packMol
  split at h
  · simp at h
  rename_i hne
  rw [if_neg hne]
  split at h
  · simp at h
  rename_i hh
  rw [if_neg hh]
  obtain ⟨o, h1, h⟩ := Res.bind_eq_ok.1 h
  cases o with
  | none => simp at h
  | some d =>
    dsimp only at h
    obtain ⟨x, h2, h⟩ := Res.bind_eq_ok.1 h
    cases x with
    | error c => simp at h
    | ok fs =>
      dsimp only at h
      obtain ⟨⟨o, ok⟩, h3, h⟩ := Res.bind_eq_ok.1 h
      simp only [Res.ok.injEq, PackResult.mk.injEq] at h
      obtain ⟨hok, rfl⟩ := h
      cases ok with
      | false => simp at hok
      | true =>
        unfold createZipArchiveWin at h3
        cases hw : w.env.zipWalk fs with
        | none => simp [hw] at h3
        | some l =>
          rw [hw] at h3
          dsimp only at h3
          rw [Res.bind_eq_ok] at h3
          obtain ⟨⟨b, ok⟩, h4, h3⟩ := h3
          simp only [Res.ok.injEq, Prod.mk.injEq] at h3
          obtain ⟨hb, rfl⟩ := h3
          have hb' : b = a := by
            split at hb
            · simp at hb
            · exact Option.some.inj hb
          subst hb'
          have := zipFileWin_back m w.env (usingEncryption d) fs l [] false b
            (0, if m.removed then none else m.previous) file h4 hadd
          have h5 : createMol m w.env d fs = .ok (file, true) := by
            unfold createMol
            rw [hw]
            dsimp only
            show Res.bind _ _ = _
            rw [this]
            rfl
          simp only [bind, Res.bind, h1, h2, h5]
          rfl

end Semla
