import Verif.Model.CrLog
import Verif.Spec.Log
import Verif.Lemmas.CrSafe
import Verif.Lemmas.LveInv

/-! # Helper lemmas: the log -/

namespace Semla

open Semla.Spec

/-- Paths visited on the way to the mask of `p`. -/
def Visits (p q : Bytes) : Prop :=
  q <+: p ∨ (∃ d, d <+: p ∧ d.length + 1 ≤ 4096 ∧ q = d ++ b!"/" ++ b!"package.moc") ∨ q = b!"package.moc"

theorem Visits.from {p q : Bytes} (h : Visits p q) : PathFrom p q := by
  rcases h with h | ⟨d, h, -, rfl⟩ | h
  · exact .inl h
  · exact .inr (.inl ⟨d, h, by simp⟩)
  · exact .inr (.inr (.inl h))

theorem Visits.dir {p q : Bytes} (h : Visits p q) (hl : lastSlash q ≠ 0) : q.take (lastSlash q) <+: p := by
  rcases h with h | ⟨d, h, hd, rfl⟩ | rfl
  · exact (List.take_prefix _ _).trans h
  · rw [lastSlash_join' d _ isName_packagec hd, List.append_assoc, List.take_left]
    exact h
  · exact absurd (lastSlash_name _ isName_packagec) hl

theorem mem_logAbout {n : Nat} {a p z k line : Bytes} (h : line ∈ logAbout false n a p z k) : line = a ++ p ++ z := by
  simpa [logAbout, logKey] using h

theorem harmless_of {p q : Bytes} {t : Bytes × Bytes} (ht : t ∈ logTexts) (h : PathFrom p q) {line : Bytes}
    (hl : line = t.1 ++ q ++ t.2) : Harmless p line := ⟨t, ht, q, h, hl⟩

theorem tailLog_harmless {e : CrEnv} {t : MaskTable} {p q key content line : Bytes} {flag : Int} (hq : PathFrom p q)
    (h : line ∈ tailLog false e t q key flag content) : Harmless p line := by
  unfold tailLog at h
  split at h
  · simp at h
  · split at h
    · simp at h
    · exact harmless_of (t := (b!"mlle_store_keymask: stored key_mask for ", b!" \n")) (by simp [logTexts]) hq
        (mem_logAbout h)

theorem demaskLog_harmless {e : CrEnv} {p : Bytes} (fuel : Nat) :
    ∀ (t : MaskTable) (q key line : Bytes), Visits p q → line ∈ demaskLog false e fuel t q key →
      Harmless p line := by
  induction fuel with
  | zero => intro t q key line _ h; simp [demaskLog] at h
  | succ fuel ih =>
    intro t q key line hq h
    unfold demaskLog at h
    dsimp only at h
    have happ : ∀ k, line ∈ logAbout false e.keyLen b!"mlle_demask_key: applied mask for " q b!"\n" k →
        Harmless p line := fun k hk =>
      harmless_of (t := (b!"mlle_demask_key: applied mask for ", b!"\n")) (by simp [logTexts]) hq.from (mem_logAbout hk)
    rcases List.mem_append.1 h with h | h
    · exact harmless_of (t := (b!"mlle_demask_key: ", b!"\n")) (by simp [logTexts]) hq.from (mem_logAbout h)
    · split at h
      · split at h
        · simp at h
        · rename_i hls
          exact ih _ _ _ _ (.inl (hq.dir hls)) h
      · split at h
        · exact happ _ h
        · split at h
          · simp at h
          · rename_i hlong
            have hv : Visits p (if lastSlash q = 0 then b!"package.moc" else q.take (lastSlash q) ++ b!"/package.moc") := by
              by_cases hls : lastSlash q = 0
              · rw [if_pos hls]; exact .inr (.inr rfl)
              · rw [if_neg hls]
                refine .inr (.inl ⟨_, hq.dir hls, ?_, by simp⟩)
                simp only [longFileNameMax] at hlong
                have := lastSlash_lt q
                simp only [List.length_take]
                omega
            split at h
            · exact ih _ _ _ _ hv h
            · rcases List.mem_append.1 h with h | h
              · exact ih _ _ _ _ hv h
              · split at h
                · simp at h
                · rcases List.mem_append.1 h with h | h
                  · exact tailLog_harmless hv.from h
                  · split at h
                    · simp at h
                    · split at h
                      · exact happ _ h
                      · simp at h

theorem crDecryptLog_harmless {e : CrEnv} {t : MaskTable} {p content line : Bytes}
    (h : line ∈ crDecryptLog false e t p content) : Harmless p line := by
  unfold crDecryptLog at h
  rcases List.mem_append.1 h with h | h
  · exact demaskLog_harmless _ _ _ _ _ (.inl (List.prefix_refl p)) h
  · split at h
    · simp at h
    · exact tailLog_harmless (.inl (List.prefix_refl p)) h

theorem maskLog_harmless {e : CrEnv} {rand : Bytes → Bytes} {p : Bytes} (fuel : Nat) :
    ∀ (t : MaskTable) (q key line : Bytes), q <+: p → line ∈ maskLog false e rand fuel t q key →
      Harmless p line := by
  induction fuel with
  | zero => intro t q key line _ h; simp [maskLog] at h
  | succ fuel ih =>
    intro t q key line hq h
    unfold maskLog at h
    dsimp only at h
    have happ : ∀ k, line ∈ logAbout false e.keyLen b!"mlle_mask_key: applied key mask for " q b!" \n" k →
        Harmless p line := fun k hk =>
      harmless_of (t := (b!"mlle_mask_key: applied key mask for ", b!" \n")) (by simp [logTexts]) (.inl hq)
        (mem_logAbout hk)
    have hd : dirKey q = b!"/" ∨ dirKey q <+: p := by
      unfold dirKey
      split
      · exact .inl rfl
      · exact .inr ((List.take_prefix _ _).trans hq)
    have hdf : PathFrom p (dirKey q) := hd.elim (fun h => .inr (.inr (.inr h))) .inl
    have hrec : ∀ k, line ∈ (if (dirKey q).head? = some 47 then [] else maskLog false e rand fuel t (dirKey q) k) →
        Harmless p line := by
      intro k hk
      split at hk
      · simp at hk
      · rename_i hne
        rcases hd with hd | hd
        · rw [hd] at hne; simp at hne
        · exact ih _ _ _ _ hd hk
    rcases List.mem_append.1 h with h | h
    · exact harmless_of (t := (b!"mlle_mask_key: got key for ", b!" \n")) (by simp [logTexts]) (.inl hq) (mem_logAbout h)
    · split at h
      · split at h
        · simp at h
        · rcases List.mem_append.1 h with h | h
          · exact hrec _ h
          · split at h
            · simp at h
            · split at h
              · simp at h
              · exact harmless_of (t := (b!"mlle_mask_key: generated and stored mask for ", b!" \n"))
                  (by simp [logTexts]) hdf (mem_logAbout h)
      · split at h
        · exact happ _ h
        · rcases List.mem_append.1 h with h | h
          · exact hrec _ h
          · split at h
            · simp at h
            · split at h
              · simp at h
              · rcases List.mem_append.1 h with h | h
                · exact harmless_of (t := (b!"mlle_mask_key: storing mask based on parent for ", b!" \n"))
                    (by simp [logTexts]) hdf (mem_logAbout h)
                · exact happ _ h

theorem crEncryptLog_harmless {e : CrEnv} {t : MaskTable} {p line : Bytes} {rand : Bytes → Bytes} {wOk : Nat → Bool}
    (h : line ∈ crEncryptLog false e t p rand wOk) : Harmless p line := by
  unfold crEncryptLog at h
  split at h
  · simp at h
  · exact maskLog_harmless _ _ _ _ _ (List.prefix_refl p) h

/-! ## The session -/

theorem fileLog_from {conf : LveConf} {w : World} {st : LveSt} {cmd : Command} {line : Bytes}
    (h : line ∈ fileLog false conf w st cmd) :
    ∃ buf rel, cmd.data = some buf ∧ readCStr buf.cells = .ok rel ∧ Harmless rel line := by
  unfold fileLog at h
  dsimp only at h
  split at h
  · simp at h
  · split at h
    · simp at h
    · split at h
      · rename_i lib buf _ hdata
        split at h
        · simp at h
        · rename_i rel hrel
          refine ⟨buf, rel, hdata, hrel, ?_⟩
          split at h
          · simp at h
          · split at h
            · simp at h
            · split at h
              · split at h
                · simp at h
                · split at h
                  · exact crDecryptLog_harmless h
                  · simp at h
              · simp at h
      · simp at h

/-- A string read from memory that holds `a`, perhaps cut, is a part of `a` from its start. -/
theorem readCStr_fill {len : Nat} {part r : Bytes} (h : readCStr (fillBuf len part).cells = .ok r) : r <+: part := by
  unfold fillBuf at h
  simp only at h
  induction part generalizing len r with
  | nil =>
    cases len with
    | zero => simp [readCStr] at h; subst h; simp
    | succ n => simp [List.replicate_succ, readCStr] at h
  | cons b bs ih =>
    cases len with
    | zero => simp [readCStr] at h; subst h; simp
    | succ n =>
      simp only [List.map_cons, List.cons_append, List.take_succ_cons, List.length_cons, readCStr] at h
      split at h
      · simp at h; subst h; simp
      · obtain ⟨r', h1, h2⟩ := Res.bind_eq_ok.1 h
        simp only [Res.ok.injEq] at h2
        subst h2
        rw [Nat.add_sub_add_right] at h1
        exact (List.prefix_cons_inj b).2 (ih h1)

theorem stepLog_from {conf : LveConf} {w : World} {st : LveSt} {msg line : Bytes}
    (h : line ∈ stepLog false conf w st msg) : ∃ p, AsksFor msg p ∧ Harmless p line := by
  unfold stepLog at h
  split at h
  · simp at h
  · rcases accepts_or_rejected msg with ⟨c, n, len, ha⟩ | ⟨g, hr, hg⟩
    · rw [parse_of_accepts ha] at h
      dsimp only at h
      rw [if_pos rfl] at h
      unfold commandLog at h
      split at h
      · split at h
        · rename_i cmd k hx
          split at h
          · rename_i hs
            obtain ⟨buf, rel, hdata, hrel, hh⟩ := fileLog_from h
            dsimp only at hx
            split at hx
            · cases hf : findNewline msg with
              | none => simp [extractData, hf] at hx
              | some o =>
                cases o with
                | none =>
                  simp only [extractData, hf, Res.ok.injEq, Prod.mk.injEq] at hx
                  rw [← hx.1] at hdata; simp at hdata
                | some i =>
                  obtain ⟨l, part, rfl, hl, -⟩ := findNewline_some hf
                  rw [extractData_line hl _ (accepts_length_lt ha)] at hx
                  simp only at hx
                  split at hx
                  · split at hx
                    · simp only [Res.ok.injEq, Prod.mk.injEq] at hx
                      obtain ⟨rfl, -⟩ := hx
                      simp only [Option.some.injEq] at hdata
                      subst hdata
                      obtain ⟨rest, rfl⟩ := readCStr_fill hrel
                      have hc : c = .file := hs.2
                      subst hc
                      exact ⟨rel, ⟨⟨n, len, ha⟩, l, rest, fun b hb => (hl b hb).2, by simp⟩, hh⟩
                    · simp at hx
                  · simp only [Res.ok.injEq, Prod.mk.injEq] at hx
                    rw [← hx.1] at hdata; simp at hdata
            · simp only [Res.ok.injEq, Prod.mk.injEq] at hx
              rw [← hx.1] at hdata; simp at hdata
          · simp at h
        · simp at h
      · simp at h
    · obtain ⟨m, h1, -⟩ := parse_of_rejected hr (cap := lveErrorSize) (by decide) st.errMsg
      rw [h1] at h
      simp [hg] at h

theorem runLog_from {conf : LveConf} {line : Bytes} (turns : List (World × Bytes)) :
    ∀ st, line ∈ runLog false conf st turns → ∃ t ∈ turns, ∃ p, AsksFor t.2 p ∧ Harmless p line := by
  induction turns with
  | nil => intro st h; simp [runLog] at h
  | cons x xs ih =>
    intro st h
    unfold runLog at h
    rcases List.mem_append.1 h with h | h
    · exact ⟨x, by simp, stepLog_from h⟩
    · split at h
      · simp at h
      · obtain ⟨t, ht, hp⟩ := ih _ h
        exact ⟨t, by simp [ht], hp⟩

end Semla
