import Verif.Spec.WinFiles

/-!
# Lemmas on reading files on Windows
-/

namespace Semla

open Spec

theorem backslashed_zeros (s : Bytes) (n : Nat) (rest : List (Option UInt8)) (h : ∀ c ∈ s, c ≠ 0) :
    backslashed (s.map some ++ (List.replicate (n + 1) 0).map some ++ rest) =
      .ok (s.map fun c => if c = 47 then 92 else c) := by
  induction s with
  | nil => simp [List.replicate_succ, backslashed]
  | cons c s ih =>
    have hc : c ≠ 0 := h c (by simp)
    have := ih (fun x hx => h x (by simp [hx]))
    simp only [List.map_cons, List.cons_append, backslashed, if_neg hc]
    rw [this]
    rfl

theorem backslashed_defined (s : Bytes) (n : Nat) (rest : List (Option UInt8)) :
    (backslashed (s.map some ++ (List.replicate (n + 1) 0).map some ++ rest)).Defined := by
  induction s with
  | nil => exact ⟨[], by simp [List.replicate_succ, backslashed]⟩
  | cons c s ih =>
    obtain ⟨r, hr⟩ := ih
    simp only [List.map_cons, List.cons_append, backslashed]
    split
    · exact ⟨_, rfl⟩
    · rw [hr]
      exact ⟨_, rfl⟩

theorem strncpyAt_all {buf : List (Option UInt8)} {n : Nat} (hb : buf.length = n) (p : Bytes) (hl : p.length ≤ n) :
    strncpyAt buf 0 p n = .ok ((p ++ List.replicate (n - p.length) 0).map some) := by
  unfold strncpyAt
  rw [if_pos (by omega), List.take_of_length_le hl, List.take_zero, List.drop_eq_nil_of_le (by omega)]
  simp

theorem strncpyAt_prefix {buf : List (Option UInt8)} {n : Nat} (hb : buf.length = n + 4) (hn : 0 < n) (p : Bytes)
    (hl : p.length ≤ n) : ∃ b, strncpyAt buf 0 longPrefix 5 = .ok b ∧
      strncpyAt b 4 p n = .ok ((longPrefix ++ p ++ List.replicate (n - p.length) 0).map some) := by
  have h1 : strncpyAt buf 0 longPrefix 5 = .ok ((longPrefix ++ [0]).map some ++ buf.drop 5) := by
    unfold strncpyAt
    rw [if_pos (by omega), List.take_zero]
    rfl
  refine ⟨_, h1, ?_⟩
  unfold strncpyAt
  have hlen : ((longPrefix ++ [0]).map some ++ buf.drop 5).length = n + 4 := by
    simp only [List.length_append, List.length_map, List.length_drop, hb]
    rw [show longPrefix.length = 4 from rfl]
    simp only [List.length_cons, List.length_nil]
    omega
  have e2 : ((longPrefix ++ [0]).map some ++ buf.drop 5).drop (4 + n) = [] := List.drop_eq_nil_of_le (by omega)
  rw [if_pos (by omega), List.take_of_length_le hl, e2]
  have e1 : ((longPrefix ++ [0]).map some ++ buf.drop 5).take 4 = longPrefix.map some := by
    rw [List.map_append, List.append_assoc, List.take_append_of_le_length (by decide)]
    rfl
  rw [e1]
  simp

/-- What ends up in the buffer. -/
theorem longPath_eq (p : Bytes) (hl : p.length ≤ maxWinPath - 4) : ∃ k, longPath p = backslashed
    ((((if p.length > 255 ∧ p.take 4 ≠ longPrefix then longPrefix else []) ++ p).map some) ++
      (List.replicate (k + 1) 0).map some ++ []) := by
  have hb : longPathBuf.length = 4097 := List.length_replicate
  have hm : maxWinPath = 4096 := rfl
  unfold longPath
  by_cases hc : p.length > 255 ∧ p.take 4 ≠ longPrefix
  · rw [if_pos hc, if_pos hc]
    obtain ⟨b, h1, h2⟩ := strncpyAt_prefix (buf := longPathBuf) (n := maxWinPath + 1 - 4) (by omega) (by omega) p
      (by omega)
    rw [h1]
    simp only [Res.bind_ok]
    rw [h2]
    simp only [Res.bind_ok]
    refine ⟨maxWinPath + 1 - 4 - p.length - 1, ?_⟩
    rw [show maxWinPath + 1 - 4 - p.length - 1 + 1 = maxWinPath + 1 - 4 - p.length by omega]
    simp only [List.map_append, List.append_nil]
  · rw [if_neg hc, if_neg hc]
    rw [strncpyAt_all (n := maxWinPath + 1) (by omega) p (by omega)]
    simp only [Res.bind_ok]
    refine ⟨maxWinPath + 1 - p.length - 1, ?_⟩
    rw [show maxWinPath + 1 - p.length - 1 + 1 = maxWinPath + 1 - p.length by omega]
    simp only [List.map_append, List.append_nil, List.nil_append]

theorem longPath_defined (p : Bytes) (hl : p.length ≤ maxWinPath - 4) : (longPath p).Defined := by
  obtain ⟨k, h⟩ := longPath_eq p hl
  rw [h]
  exact backslashed_defined _ _ _

theorem spells_head {d : UInt8} {p : Bytes} {ns : List Bytes} (h : Spells d p ns) :
    ∃ r, p = d :: 58 :: r ∧ d ≠ 92 := by
  induction h with
  | drive _ _ h => exact ⟨[], rfl, h⟩
  | name s _ _ _ ih =>
    obtain ⟨r, rfl, hd⟩ := ih
    exact ⟨_, rfl, hd⟩

theorem spells_nonzero {d : UInt8} {p : Bytes} {ns : List Bytes} (h : Spells d p ns) : ∀ c ∈ p, c ≠ 0 := by
  induction h with
  | drive h _ _ =>
    intro c hc
    rcases List.mem_cons.1 hc with rfl | hc
    · exact h
    · rw [List.mem_singleton.1 hc]; decide
  | name s _ hs hn ih =>
    intro c hc
    rcases List.mem_append.1 hc with hc | hc
    · exact ih c hc
    · rcases List.mem_cons.1 hc with rfl | hc
      · rcases hs with rfl | rfl <;> decide
      · exact (hn.noSep c hc).1

theorem spells_backslashes {d : UInt8} {p : Bytes} {ns : List Bytes} (h : Spells d p ns) :
    (p.map fun c => if c = 47 then 92 else c) = winPath d ns := by
  induction h with
  | drive _ h _ => simp [winPath, h]
  | @name p ns n s _ hs hn ih =>
    have h1 : (n.map fun c => if c = 47 then 92 else c) = n := by
      conv => rhs; rw [← List.map_id n]
      apply List.map_congr_left
      intro c hc
      rw [if_neg (hn.noSep c hc).2.1]
      rfl
    rw [List.map_append, List.map_cons, ih, h1]
    have h2 : (if s = 47 then (92 : UInt8) else s) = 92 := by rcases hs with rfl | rfl <;> rfl
    rw [h2]
    simp [winPath]

theorem winPath_spells {d : UInt8} {p : Bytes} {ns : List Bytes} (h : Spells d p ns) : Spells d (winPath d ns) ns := by
  induction h with
  | drive h1 h2 h3 => exact .drive h1 h2 h3
  | @name p ns n s _ hs hn ih =>
    have : winPath d (ns ++ [n]) = winPath d ns ++ 92 :: n := by simp [winPath]
    rw [this]
    exact .name 92 ih (Or.inr rfl) hn

theorem spells_length {d : UInt8} {p : Bytes} {ns : List Bytes} (h : Spells d p ns) :
    (winPath d ns).length = p.length := by
  rw [← spells_backslashes h, List.length_map]

theorem longPath_spells {d : UInt8} {p : Bytes} {ns : List Bytes} (h : Spells d p ns)
    (hl : p.length ≤ maxWinPath - 4) :
    longPath p = .ok ((if p.length > 255 then b!"\\\\?\\" else []) ++ winPath d ns) := by
  obtain ⟨k, he⟩ := longPath_eq p hl
  obtain ⟨r, hp, hd⟩ := spells_head h
  have hne : p.take 4 ≠ longPrefix := by
    rw [hp]
    intro hx
    injection hx with h1
    exact hd h1
  rw [he]
  simp only [hne, ne_eq, not_false_eq_true, and_true]
  rw [backslashed_zeros]
  · rw [List.map_append, spells_backslashes h]
    congr 1
    split <;> rfl
  · intro c hc
    rcases List.mem_append.1 hc with hc | hc
    · split at hc
      · rename_i h1
        have h2 : ∀ c ∈ longPrefix, c ≠ 0 := by decide
        exact h2 c hc
      · simp at hc
    · exact spells_nonzero h c hc

theorem longPath_extended {d : UInt8} {p q : Bytes} {ns : List Bytes} (h : Spells d q ns) (hp : p = longPrefix ++ q)
    (hl : p.length ≤ maxWinPath - 4) : longPath p = .ok (longPrefix ++ winPath d ns) := by
  subst hp
  obtain ⟨k, he⟩ := longPath_eq _ hl
  rw [he]
  have hpre : (longPrefix ++ q).take 4 = longPrefix := rfl
  simp only [hpre, ne_eq, not_true, and_false, if_false]
  rw [backslashed_zeros]
  · rw [List.nil_append, List.map_append, spells_backslashes h]
    rfl
  · intro c hc
    rw [List.nil_append] at hc
    rcases List.mem_append.1 hc with hc | hc
    · have h2 : ∀ c ∈ longPrefix, c ≠ 0 := by decide
      exact h2 c hc
    · exact spells_nonzero h c hc

/-- Reading the stream gives what is in it, if the size can be found out. -/
theorem readStreamWin_contents {w : WinFiles} {files : UInt8 → List Bytes → Option Bytes} (hw : OnWindows w files)
    {p : Bytes} {f : WinStream} (hf : w.fopen p = some f) {x : Bytes} (h : readStreamWin w p f = .contents x) :
    x = f.bytes := by
  have hio := hw.whole _ _ hf
  unfold readStreamWin at h
  rw [hio] at h
  cases hs : w.stat p with
  | some n =>
    simp only [hs] at h
    have := hw.statRight _ _ _ hf hs
    subst this
    split at h
    · injection h with h
      rw [← h, List.take_length]
    · cases h
  | none =>
    simp only [hs] at h
    cases he : f.endPos with
    | none => simp [he] at h
    | some pos =>
      simp only [he] at h
      by_cases hp : pos > 0
      · have := hw.toldRight _ _ _ hf he hp
        simp only [if_pos hp] at h
        split at h
        · injection h with h
          rw [← h, this]
          simp
        · cases h
      · simp [hp] at h

theorem readStreamWin_reads {w : WinFiles} {files : UInt8 → List Bytes → Option Bytes} (hw : OnWindows w files)
    {p : Bytes} {f : WinStream} (hf : w.fopen p = some f) (hm : w.malloc (f.bytes.length + 1) = true)
    (hlen : f.bytes.length < 2 ^ 31) (hsome : w.stat p ≠ none ∨ f.bytes ≠ []) :
    readStreamWin w p f = .contents f.bytes := by
  have hio := hw.whole _ _ hf
  unfold readStreamWin
  rw [hio]
  cases hs : w.stat p with
  | some n =>
    have := hw.statRight _ _ _ hf hs
    subst this
    simp [hm]
  | none =>
    have hb : f.bytes ≠ [] := hsome.resolve_left (by simp [hs])
    have hpos : 0 < f.bytes.length := List.length_pos_iff.2 hb
    rw [hw.told _ _ hf hlen]
    have h1 : ((f.bytes.length : Nat) : Int) > 0 := by omega
    simp only [if_pos h1, Int.toNat_natCast, hm, if_true, List.take_length]

theorem readStreamWin_empty {w : WinFiles} {files : UInt8 → List Bytes → Option Bytes} (hw : OnWindows w files)
    {p : Bytes} {f : WinStream} (hf : w.fopen p = some f) (hs : w.stat p = none) (hb : f.bytes = []) :
    ∃ e, readStreamWin w p f = .failed e := by
  unfold readStreamWin
  have := hw.told _ _ hf (by simp [hb])
  rw [hb] at this
  simp [hs, this]

end Semla
