import Verif.Spec.FullDisk
import Verif.Lemmas.Crypt

/-!
# Lemmas on the single-file tools on a disk that fills up
-/

set_option linter.unusedSimpArgs false

namespace Semla

open Spec

theorem takes_iff {d : OutDisk} {i n : Nat} : d.takes i n = true ↔ n ≤ d.room + d.kept i := by
  unfold OutDisk.takes
  simp only [decide_eq_true_eq]
  omega

theorem diskWrites_true {d : OutDisk} {b : Nat} (hb : ∀ i, d.kept i ≤ b) {ws : List Bytes} {i n : Nat} {o : Bytes}
    (hn : n ≤ d.room + b) (h : diskWrites d i n ws = (o, true)) : o = ws.flatten ∧ n + o.length ≤ d.room + b := by
  induction ws generalizing i n o with
  | nil => simp only [diskWrites, Prod.mk.injEq] at h; obtain ⟨rfl, -⟩ := h; simpa using hn
  | cons w ws ih =>
    simp only [diskWrites] at h
    split at h
    · rename_i hc
      simp only [Prod.mk.injEq] at h
      have hn' : n + w.length ≤ d.room + b := by
        rw [Bool.or_eq_true] at hc
        rcases hc with hc | hc
        · simp only [decide_eq_true_eq] at hc; subst hc; simpa using hn
        · have := takes_iff.1 hc; have := hb i; omega
      obtain ⟨h1, h2⟩ := ih (i := i + 1) (o := (diskWrites d (i + 1) (n + w.length) ws).1) hn' (by rw [← h.2])
      refine ⟨by rw [← h.1, h1]; simp, ?_⟩
      rw [← h.1, List.length_append]; omega
    · simp at h

theorem diskWrites_room {d : OutDisk} {ws : List Bytes} {i n : Nat} (h : n + ws.flatten.length ≤ d.room) :
    diskWrites d i n ws = (ws.flatten, true) := by
  induction ws generalizing i n with
  | nil => rfl
  | cons w ws ih =>
    simp only [List.flatten_cons, List.length_append] at h
    have hc : (decide (w = []) || d.takes i (n + w.length)) = true := by
      rw [Bool.or_eq_true]; right; rw [takes_iff]; omega
    simp only [diskWrites, hc, if_true]
    rw [ih (by omega)]
    simp

theorem crEncryptDisk_true {d : OutDisk} {b : Nat} (hb : ∀ i, d.kept i ≤ b) {e : CrEnv} {t : MaskTable}
    {p iv : Bytes} {rand : Bytes → Bytes} {inp : Bytes} {bad ctx : Bool} {out : Bytes}
    (h : crEncryptDisk d ctx e t p iv rand inp bad = .ok (out, true)) :
    (∃ t', crEncrypt e t p iv rand inp bad (fun _ => true) = .ok (t', out, true)) ∧ out.length ≤ d.room + b := by
  unfold crEncryptDisk at h
  split at h
  · simp at h
  · rename_i h0
    split at h
    · simp at h
    · rw [Res.bind_eq_ok] at h
      obtain ⟨m, hm, h⟩ := h
      split at h
      · simp at h
      · rename_i hr
        rw [Res.bind_eq_ok] at h
        obtain ⟨⟨ws, complete⟩, hw, h⟩ := h
        simp only [Res.ok.injEq, Prod.mk.injEq, Bool.and_eq_true] at h
        obtain ⟨h1, h2, h3⟩ := h
        have hiv : iv.length ≤ d.room + b := by
          have : d.takes 0 iv.length = true := by simpa using h0
          have := takes_iff.1 this
          have := hb 0
          omega
        obtain ⟨h4, h5⟩ := diskWrites_true hb (o := (diskWrites d 1 iv.length ws).1) hiv (by rw [← h2])
        refine ⟨⟨m.table, ?_⟩, ?_⟩
        · unfold crEncrypt
          simp only [not_true_eq_false, if_false, hm, Res.bind_ok, hr, hw,
            runWrites_all (fun _ => true) (fun _ => rfl)]
          rw [← h1, h4, h3]
          rfl
        · rw [← h1, List.length_append]; exact h5

theorem crEncryptDisk_room {d : OutDisk} {e : CrEnv} {t t' : MaskTable} {p iv : Bytes} {rand : Bytes → Bytes}
    {inp : Bytes} {bad : Bool} {out : Bytes} {ok : Bool}
    (h : crEncrypt e t p iv rand inp bad (fun _ => true) = .ok (t', out, ok)) (hl : out.length ≤ d.room) :
    crEncryptDisk d true e t p iv rand inp bad = .ok (out, ok) := by
  unfold crEncrypt at h
  simp only [not_true_eq_false, if_false] at h
  rw [Res.bind_eq_ok] at h
  obtain ⟨m, hm, h⟩ := h
  have h0 : iv.length ≤ d.room → ¬ ¬ d.takes 0 iv.length = true := by
    intro hi hn
    exact hn (takes_iff.2 (by omega))
  unfold crEncryptDisk
  split at h
  · rename_i hr
    simp only [Res.ok.injEq, Prod.mk.injEq] at h
    obtain ⟨-, rfl, rfl⟩ := h
    simp only [h0 hl, if_false, not_true_eq_false, hm, Res.bind_ok, hr, if_true]
  · rename_i hr
    rw [Res.bind_eq_ok] at h
    obtain ⟨⟨ws, complete⟩, hw, h⟩ := h
    simp only [runWrites_all (fun _ => true) (fun _ => rfl), Res.ok.injEq, Prod.mk.injEq] at h
    obtain ⟨-, rfl, rfl⟩ := h
    rw [List.length_append] at hl
    simp only [h0 (by omega), if_false, not_true_eq_false, hm, Res.bind_ok, hr, hw, diskWrites_room hl]

theorem cut_set {fs : Files} {q out : Bytes} {d : OutDisk} {b : Nat} (h : out.length ≤ d.room + b) :
    CutAt q d.room b (fs.set q (some out)) (fs.set q (some (d.closed out))) :=
  ⟨fun p hp => by simp only [Files.set, hp, if_false], out, by simp [Files.set], by simp [Files.set, OutDisk.closed], h⟩

theorem closed_all {d : OutDisk} {o : Bytes} (h : o.length ≤ d.room) : d.closed o = o :=
  List.take_of_length_le h

theorem encryptToDisk_zero {v : FileToolEnv} {d : OutDisk} {b : Nat} (hb : ∀ i, d.kept i ≤ b) {ctx : Bool}
    {fs fs' : Files} {e : CrEnv} {t : MaskTable} {inName q name content : Bytes}
    (h : encryptToDisk v d ctx fs e t inName q name content = .ok (0, fs')) :
    ∃ fs0, encryptTo (perfect v) fs e t inName q name content = .ok (0, fs0) ∧ CutAt q d.room b fs0 fs' := by
  unfold encryptToDisk at h
  split at h
  · simp at h
  · rename_i hw
    rw [Res.bind_eq_ok] at h
    obtain ⟨⟨out, ok⟩, h1, h2⟩ := h
    simp only at h2
    split at h2
    · rename_i hok
      subst hok
      simp only [Res.ok.injEq, Prod.mk.injEq, true_and] at h2
      subst h2
      obtain ⟨⟨t', h3⟩, h4⟩ := crEncryptDisk_true hb h1
      refine ⟨fs.set q (some out), ?_, cut_set h4⟩
      unfold encryptTo
      simp only [perfect, hw, if_false, h3, Res.bind_ok, if_true]
    · simp at h2

theorem encryptToDisk_room {v : FileToolEnv} {d : OutDisk} {fs fs0 : Files} {e : CrEnv} {t : MaskTable}
    {inName q name content out : Bytes} (h : encryptTo (perfect v) fs e t inName q name content = .ok (0, fs0))
    (ho : fs0 q = some out) (hl : out.length ≤ d.room) :
    encryptToDisk v d true fs e t inName q name content = .ok (0, fs0) := by
  unfold encryptTo at h
  split at h
  · simp at h
  · rename_i hw
    rw [Res.bind_eq_ok] at h
    obtain ⟨⟨t', o, ok⟩, h1, h2⟩ := h
    simp only at h2
    split at h2
    · rename_i hok
      subst hok
      simp only [Res.ok.injEq, Prod.mk.injEq, true_and] at h2
      subst h2
      simp only [Files.set, if_true, Option.some.injEq] at ho
      subst ho
      have h3 := crEncryptDisk_room (d := d) h1 hl
      simp only [perfect] at h3 hw
      unfold encryptToDisk
      simp only [hw, if_false, h3, Res.bind_ok, if_true, closed_all hl]
    · simp at h2

theorem crEncryptDisk_false {d : OutDisk} {e : CrEnv} {t t' : MaskTable} {p iv : Bytes} {rand : Bytes → Bytes}
    {inp : Bytes} {bad : Bool} {out : Bytes} (h : crEncrypt e t p iv rand inp bad (fun _ => true) = .ok (t', out, false)) :
    ∃ o, crEncryptDisk d true e t p iv rand inp bad = .ok (o, false) := by
  unfold crEncrypt at h
  simp only [not_true_eq_false, if_false] at h
  rw [Res.bind_eq_ok] at h
  obtain ⟨m, hm, h⟩ := h
  unfold crEncryptDisk
  by_cases h0 : d.takes 0 iv.length = true
  · split at h
    · rename_i hr
      exact ⟨iv, by simp only [h0, if_false, not_true_eq_false, hm, Res.bind_ok, hr, if_true]⟩
    · rename_i hr
      rw [Res.bind_eq_ok] at h
      obtain ⟨⟨ws, complete⟩, hw, h⟩ := h
      simp only [runWrites_all (fun _ => true) (fun _ => rfl), Res.ok.injEq, Prod.mk.injEq, Bool.true_and] at h
      obtain ⟨-, -, rfl⟩ := h
      exact ⟨_, by simp only [h0, if_false, not_true_eq_false, hm, Res.bind_ok, hr, hw, Bool.and_false]; rfl⟩
  · exact ⟨iv, by simp only [h0, not_false_eq_true, if_true]; rfl⟩

theorem encryptToDisk_refused {v : FileToolEnv} {d : OutDisk} {fs fs0 : Files} {e : CrEnv} {t : MaskTable}
    {inName q name content : Bytes} {n : Nat} (hn : n ≠ 0)
    (h : encryptTo (perfect v) fs e t inName q name content = .ok (n, fs0)) :
    encryptToDisk v d true fs e t inName q name content = .ok (n, fs0) := by
  unfold encryptTo at h
  unfold encryptToDisk
  split at h
  · rename_i hw
    have hw' : ¬ v.writable q = true := hw
    rw [if_pos hw']
    exact h
  · rename_i hw
    have hw' : ¬ ¬ v.writable q = true := hw
    rw [if_neg hw']
    rw [Res.bind_eq_ok] at h
    obtain ⟨⟨t', o, ok⟩, h1, h2⟩ := h
    simp only at h2
    cases ok with
    | true =>
      simp only [if_true, Res.ok.injEq, Prod.mk.injEq] at h2
      exact absurd h2.1.symm hn
    | false =>
      obtain ⟨o', h3⟩ := crEncryptDisk_false (d := d) h1
      simp only [perfect] at h3
      simp only [h3, Res.bind_ok]
      exact h2

theorem encryptToDisk_fails {v : FileToolEnv} {d : OutDisk} {ctx : Bool} {fs fs' : Files} {e : CrEnv} {t : MaskTable}
    {inName q name content : Bytes} {n : Nat} (h : encryptToDisk v d ctx fs e t inName q name content = .ok (n, fs'))
    (hn : n ≠ 0) : fs' = fs ∨ fs' = fs.set q none := by
  unfold encryptToDisk at h
  split at h
  · simp only [Res.ok.injEq, Prod.mk.injEq] at h; exact .inl h.2.symm
  · rw [Res.bind_eq_ok] at h
    obtain ⟨⟨out, ok⟩, h1, h2⟩ := h
    simp only at h2
    split at h2
    · simp only [Res.ok.injEq, Prod.mk.injEq] at h2; exact absurd h2.1.symm hn
    · simp only [Res.ok.injEq, Prod.mk.injEq] at h2; exact .inr h2.2.symm

end Semla
