import Verif.Spec.Start
import Verif.Props.Embed
import Verif.Props.Lve

/-! # Lemmas about setting up connections -/

namespace Semla

open Spec Props

theorem readCStr_map (a : Bytes) (h : (0 : UInt8) ∉ a) (rest : List (Option UInt8)) :
    readCStr (a.map some ++ some 0 :: rest) = .ok a := by
  induction a with
  | nil => simp [readCStr]
  | cons b bs ih =>
    simp only [List.mem_cons, not_or] at h
    simp only [List.map_cons, List.cons_append, readCStr]
    rw [if_neg (Ne.symm h.1), ih h.2]
    rfl

theorem unixText_noNul {f : Bytes} (h : (0 : UInt8) ∉ f) : (0 : UInt8) ∉ unixText f := by
  intro hm
  exact h (List.mem_filter.mp hm).1

/-- The key array after `DECLARE_` and `INITIALIZE_`. -/
theorem initialize_text (f : Bytes) (h : (0 : UInt8) ∉ f) :
    ∃ cells, (createHeader f).initialize = .ok cells ∧ readCStr cells = .ok (unixText f) := by
  refine ⟨_, initialize_eq f, ?_⟩
  have h0 := unixText_noNul h
  split
  · have := readCStr_map (unixText f) h0
      ((f.drop ((f.filter (· ≠ 13)).length + 1)).map some ++ [some 0])
    simpa [unixText] using this
  · have := readCStr_map (unixText f) h0 []
    simpa [unixText] using this

/-- Clearing a second time changes nothing. -/
theorem clear_zero {h : KeyHeader} {cells cells' : List (Option UInt8)} (hc : h.clear cells = .ok cells')
    (hz : ∀ c ∈ cells, c = some 0) : ∀ c ∈ cells', c = some 0 := by
  unfold KeyHeader.clear writeCells at hc
  split at hc
  · cases hc
    intro c hm
    simp only [List.mem_append] at hm
    rcases hm with (hm | hm) | hm
    · exact hz c (List.mem_of_mem_take hm)
    · simp at hm
      exact hm.2
    · exact hz c (List.mem_of_mem_drop hm)
  · cases hc

theorem clear_length {h : KeyHeader} {cells cells' : List (Option UInt8)} (hc : h.clear cells = .ok cells') :
    cells'.length = cells.length := by
  unfold KeyHeader.clear writeCells at hc
  split at hc
  · rename_i hl
    cases hc
    simp at hl ⊢
    omega
  · cases hc

theorem clear_defined {h : KeyHeader} {cells : List (Option UInt8)} (hl : h.len ≤ cells.length) :
    ∃ cells', h.clear cells = .ok cells' := by
  unfold KeyHeader.clear writeCells
  rw [if_pos (by simpa using hl)]
  exact ⟨_, rfl⟩

theorem errorSet_first {m : Nat → Bool} (hm : ∀ n, m n = true) (d c : Int) (t : Bytes) :
    errorSet m (some none) d c t = .ok (some (some ⟨d, c, some (snprintf 2048 t)⟩)) := by
  simp [errorSet, errorNew, hm, defaultMsgSize]

theorem errorSetLiteral_first {m : Nat → Bool} (hm : ∀ n, m n = true) (d c : Int) (t : Bytes) :
    errorSetLiteral m (some none) d c (some t) = .ok (some (some ⟨d, c, some (cstr t)⟩)) := by
  simp [errorSetLiteral, errorNewLiteral, hm]

/-- What `mlle_lve_receive` does is a session. -/
theorem receive_is_run {conf : LveConf} (rounds : List (World × Bool)) {st st' : LveSt} {c : Conn}
    {outs : List (List Bytes)} (h : lveReceive conf st rounds c = .ok (st', outs)) :
    ∃ turns, lveRun conf st turns = .ok (st', outs) := by
  induction rounds generalizing st c outs with
  | nil =>
    simp only [lveReceive, Res.ok.injEq, Prod.mk.injEq] at h
    exact ⟨[], by simp [lveRun, h.1, h.2]⟩
  | cons r rs ih =>
    obtain ⟨w, stop⟩ := r
    simp only [lveReceive] at h
    rw [Res.bind_eq_ok] at h
    obtain ⟨⟨r, c'⟩, h1, h2⟩ := h
    dsimp only at h2
    split at h2
    · cases h2; exact ⟨[], rfl⟩
    · cases h2; exact ⟨[], rfl⟩
    · rw [Res.bind_eq_ok] at h2
      obtain ⟨msg, h3, h4⟩ := h2
      rw [Res.bind_eq_ok] at h4
      obtain ⟨⟨st1, out⟩, h5, h6⟩ := h4
      dsimp only at h6
      split at h6
      · cases h6
        exact ⟨[(w, msg)], by simp [lveRun, h5]⟩
      · rw [Res.bind_eq_ok] at h6
        obtain ⟨⟨st2, outs'⟩, h7, h8⟩ := h6
        cases h8
        obtain ⟨turns, ht⟩ := ih h7
        exact ⟨(w, msg) :: turns, by simp [lveRun, h5, ht]⟩

end Semla
