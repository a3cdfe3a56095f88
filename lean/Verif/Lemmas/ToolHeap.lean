import Verif.Spec.Heap
import Verif.Lemmas.Ssl
import Verif.Lemmas.Tool

/-!
# Lemmas about memory of the tool
-/

set_option linter.unusedSimpArgs false

namespace Semla

open Semla.Spec

/-! ## Blocks -/

theorem inUse_append (a b : Heap) : inUse (a ++ b) = inUse a + inUse b := by
  simp [inUse, List.sum_append]

theorem inUse_single (n : Nat) : inUse [some n] = n := by simp [inUse]

theorem inUse_none (k : Nat) : inUse (List.replicate k none) = 0 := by
  induction k with
  | zero => rfl
  | succ k ih => simp [inUse, List.replicate_succ] at ih ⊢

theorem inUse_set {h : Heap} {a n : Nat} (hl : h[a]? = some (some n)) : inUse (h.set a none) + n = inUse h := by
  induction h generalizing a with
  | nil => simp at hl
  | cons b bs ih =>
    cases a with
    | zero =>
      simp at hl
      subst hl
      simp [inUse]
      omega
    | succ a =>
      simp at hl
      have := ih hl
      simp [inUse] at this ⊢
      omega

/-- Blocks behind `h0` that someone has to free, and bytes that nobody can free any more. -/
structure Own (h0 h : Heap) (owned : List (Nat × Nat)) (lost : Nat) : Prop where
  keeps : ∃ new, h = h0 ++ new
  nodup : (owned.map (·.1)).Nodup
  live : ∀ x ∈ owned, h0.length ≤ x.1 ∧ h[x.1]? = some (some x.2)
  sum : inUse h = inUse h0 + lost + (owned.map (·.2)).sum

theorem Own.start (h : Heap) : Own h h [] 0 := ⟨⟨[], by simp⟩, by simp, by simp, by simp⟩

theorem Own.lt {h0 h : Heap} {owned : List (Nat × Nat)} {lost : Nat} (o : Own h0 h owned lost)
    {x : Nat × Nat} (hx : x ∈ owned) : x.1 < h.length := by
  have := (o.live x hx).2
  rw [List.getElem?_eq_some_iff] at this
  exact this.1

theorem Own.le {h0 h : Heap} {owned : List (Nat × Nat)} {lost : Nat} (o : Own h0 h owned lost) :
    h0.length ≤ h.length := by
  obtain ⟨new, rfl⟩ := o.keeps
  simp

/-- Allocated and kept. -/
theorem Own.alloc {h0 h : Heap} {owned : List (Nat × Nat)} {lost : Nat} (o : Own h0 h owned lost) (n : Nat) :
    Own h0 (h ++ [some n]) ((h.length, n) :: owned) lost := by
  refine ⟨?_, ?_, ?_, ?_⟩
  · obtain ⟨new, rfl⟩ := o.keeps
    exact ⟨new ++ [some n], by simp⟩
  · simp only [List.map_cons, List.nodup_cons]
    refine ⟨fun hm => ?_, o.nodup⟩
    obtain ⟨x, hx, he⟩ := List.mem_map.mp hm
    have := o.lt hx
    omega
  · intro x hx
    rcases List.mem_cons.mp hx with rfl | hx
    · exact ⟨o.le, by simp⟩
    · refine ⟨(o.live x hx).1, ?_⟩
      rw [List.getElem?_append_left (o.lt hx)]
      exact (o.live x hx).2
  · rw [inUse_append, inUse_single, o.sum]
    simp
    omega

/-- Nobody has a pointer to it any more. -/
theorem Own.lose {h0 h : Heap} {x : Nat × Nat} {owned : List (Nat × Nat)} {lost : Nat}
    (o : Own h0 h (x :: owned) lost) : Own h0 h owned (lost + x.2) := by
  refine ⟨o.keeps, ?_, fun y hy => o.live y (by simp [hy]), ?_⟩
  · have := o.nodup
    simp only [List.map_cons, List.nodup_cons] at this
    exact this.2
  · rw [o.sum]
    simp
    omega

/-- Freed. -/
theorem Own.free {h0 h : Heap} {x : Nat × Nat} {owned : List (Nat × Nat)} {lost : Nat}
    (o : Own h0 h (x :: owned) lost) : ∃ h', h.free (some x.1) = .ok h' ∧ Own h0 h' owned lost ∧ h'.length = h.length := by
  have hl := o.live x (by simp)
  refine ⟨h.set x.1 none, by simp [Heap.free, hl.2], ?_, by simp⟩
  have hnd := o.nodup
  simp only [List.map_cons, List.nodup_cons] at hnd
  refine ⟨?_, hnd.2, ?_, ?_⟩
  · obtain ⟨new, rfl⟩ := o.keeps
    refine ⟨new.set (x.1 - h0.length) none, ?_⟩
    rw [List.set_append_right _ _ hl.1]
  · intro y hy
    refine ⟨(o.live y (by simp [hy])).1, ?_⟩
    have : x.1 ≠ y.1 := fun he => hnd.1 (he ▸ List.mem_map.mpr ⟨y, hy, rfl⟩)
    rw [List.getElem?_set_ne this]
    exact (o.live y (by simp [hy])).2
  · have h1 := inUse_set hl.2
    have h2 := o.sum
    simp only [List.map_cons, List.sum_cons] at h2
    omega

theorem Own.perm {h0 h : Heap} {a b : List (Nat × Nat)} {lost : Nat} (o : Own h0 h a lost) (hp : a.Perm b) :
    Own h0 h b lost := by
  refine ⟨o.keeps, (hp.map _).nodup_iff.mp o.nodup, fun x hx => o.live x (hp.mem_iff.mpr hx), ?_⟩
  rw [o.sum, (hp.map (·.2)).sum_nat]

/-- More at the end. -/
theorem Own.more {h0 h : Heap} {owned : List (Nat × Nat)} {lost : Nat} (o : Own h0 h owned lost) (new : Heap) :
    Own h0 (h ++ new) owned (lost + inUse new) := by
  refine ⟨?_, o.nodup, ?_, ?_⟩
  · obtain ⟨n, rfl⟩ := o.keeps
    exact ⟨n ++ new, by simp⟩
  · intro x hx
    refine ⟨(o.live x hx).1, ?_⟩
    rw [List.getElem?_append_left (o.lt hx)]
    exact (o.live x hx).2
  · rw [inUse_append, o.sum]
    omega

/-! ## Reading a message -/

theorem toCome_inRecord (r : Bytes) (sz : List Nat) (evs : List Ev) :
    toCome (Conn.inRecord r sz evs) = r.length + toCome ⟨[], [], evs⟩ := by
  simp [toCome]

/-- Within a record. -/
theorem loop_in_record (m : Nat → Bool) : ∀ (fuel : Nat) (cur : Bytes) (sizes : List Nat) (evs : List Ev)
    (old : List (Option UInt8)) (total ec : Nat) (freed : List (List (Option UInt8))) (g : Heap),
    cur ≠ [] → cur.length ≤ fuel → m (total + cur.length) = true → total ≤ old.length →
    (∃ cells freed', readLoop m fuel ⟨cur, sizes, evs⟩ (some old) total ec freed =
      .ok (.message cells (total + cur.length) freed', ⟨[], [], evs⟩)) ∧
    ∃ k, readLoopHeap m fuel ⟨cur, sizes, evs⟩ (some g.length) total (g ++ [some (total + cur.length)]) =
      .ok (some (g.length + k), g ++ List.replicate k none ++ [some (total + cur.length)]) := by
  intro fuel
  induction fuel with
  | zero =>
    intro cur _ _ _ _ _ _ _ h1 h2
    exact absurd (List.length_eq_zero_iff.mp (by omega)) h1
  | succ fuel ih =>
    intro cur sizes evs old total ec freed g hcur hf hm hold
    have hk := chunkSize_pos (max := readMax) (sizes := sizes) (by decide) hcur
    have hk2 := (chunkSize_le (max := readMax) (sizes := sizes) (cur := cur)).2
    generalize hkk : chunkSize readMax sizes cur = k at hk hk2
    have hread : sslRead readMax ⟨cur, sizes, evs⟩ = (.data (cur.take k), .inRecord (cur.drop k) sizes.tail evs) := by
      simp [sslRead, hcur, hkk]
    have hlen : (cur.take k).length = k := by simp; omega
    have hneed : total + (cur.take k).length + (cur.drop k).length = total + cur.length := by
      simp; omega
    have hfree : Heap.free (g ++ [some (total + cur.length)] ++ [some (total + cur.length)]) (some g.length) =
        .ok ((g ++ [none]) ++ [some (total + cur.length)]) := by
      simp only [Heap.free]
      rw [List.getElem?_append_left (by simp), List.getElem?_concat_length]
      simp only [Res.ok.injEq]
      rw [List.set_append_left _ _ (by simp), List.set_append_right _ _ (Nat.le_refl _)]
      simp
    simp only [readLoop, readLoopHeap, hread, inRecord_cur, hneed, hm, if_true, Heap.alloc, hfree, Res.bind_ok,
      List.length_replicate, List.length_append]
    rw [if_neg (by omega), if_neg (by omega), if_pos (by simp; omega)]
    by_cases hd : cur.drop k = []
    · have hkl : k = cur.length := by
        have := List.drop_eq_nil_iff.mp hd
        omega
      constructor
      · rw [if_pos hd]
        refine ⟨_, _, by simp only [hd, Conn.inRecord, hlen, if_true]; rw [← hkl]⟩
      · rw [if_pos hd]
        exact ⟨1, by simp⟩
    · have hd2 : (cur.drop k).length ≤ fuel := by simp; omega
      have hs : total + k + (cur.drop k).length = total + cur.length := by simp; omega
      have hin : Conn.inRecord (cur.drop k) sizes.tail evs = ⟨cur.drop k, sizes.tail, evs⟩ := by
        simp [Conn.inRecord, hd]
      rw [if_neg hd, if_neg hd, hin, hlen]
      constructor
      · have := fun o fr => (ih (cur.drop k) sizes.tail evs o (total + k) ec fr [] hd hd2 (by rw [hs]; exact hm))
        obtain ⟨cells, freed', h1⟩ := (this
          (((old.take total ++ (List.replicate (total + cur.length) none).drop total).take total ++
              (cur.take k).map some) ++
            (old.take total ++ (List.replicate (total + cur.length) none).drop total).drop (total + k))
          (freed ++ [old]) (by simp; omega)).1
        rw [hs] at h1
        exact ⟨cells, freed', h1⟩
      · have := (ih (cur.drop k) sizes.tail evs (List.replicate (total + k) none) (total + k) ec freed (g ++ [none])
          hd hd2 (by rw [hs]; exact hm) (by simp)).2
        obtain ⟨j, h1⟩ := this
        rw [hs] at h1
        simp only [List.length_append, List.length_cons, List.length_nil, Nat.zero_add] at h1
        refine ⟨j + 1, ?_⟩
        simp only [List.length_cons, List.length_nil, Nat.zero_add]
        rw [h1]
        simp [List.replicate_succ, Nat.add_comm, Nat.add_left_comm]

/-- What `SSL_read` does. -/
theorem sslRead_cases (c : Conn) :
    (∃ c', sslRead readMax c = (.block, c') ∧ toCome c' ≤ toCome c) ∨
    (∃ code c', sslRead readMax c = (.again code, c') ∧ toCome c' = toCome c ∧ c'.weight < c.weight) ∨
    (∃ code q c', sslRead readMax c = (.err code q, c') ∧ toCome c' ≤ toCome c) ∨
    (∃ cur sizes evs, cur ≠ [] ∧ toCome c = cur.length + toCome ⟨[], [], evs⟩ ∧ cur.length < c.weight ∧
      sslRead readMax c = (.data (cur.take (chunkSize readMax sizes cur)),
        .inRecord (cur.drop (chunkSize readMax sizes cur)) sizes.tail evs)) := by
  obtain ⟨cur, sizes, evs⟩ := c
  by_cases hc : cur = []
  · subst hc
    simp only [sslRead, if_true]
    induction evs with
    | nil => exact .inl ⟨⟨[], [], []⟩, rfl, by simp [toCome]⟩
    | cons e evs ih =>
      cases e with
      | record b s =>
        by_cases hb : b = []
        · subst hb
          have e1 : toCome ⟨[], sizes, .record [] s :: evs⟩ = toCome ⟨[], sizes, evs⟩ := by simp [toCome]
          have e2 : (⟨[], sizes, .record [] s :: evs⟩ : Conn).weight = (⟨[], sizes, evs⟩ : Conn).weight + 1 := by
            simp [Conn.weight, Ev.weight]; omega
          simp only [sslReadEvs, if_true, e1, e2]
          rcases ih with h | ⟨code, c', h1, h2, h3⟩ | h | ⟨a, b, d, h1, h2, h3, h4⟩
          · exact .inl h
          · exact .inr (.inl ⟨code, c', h1, h2, by omega⟩)
          · exact .inr (.inr (.inl h))
          · exact .inr (.inr (.inr ⟨a, b, d, h1, h2, by omega, h4⟩))
        · exact .inr (.inr (.inr ⟨b, s, evs, hb, by simp [toCome], by simp [Conn.weight, Ev.weight]; omega,
            by simp [sslReadEvs, hb]⟩))
      | wantRead => exact .inr (.inl ⟨2, ⟨[], [], evs⟩, rfl, by simp [toCome], by simp [Conn.weight, Ev.weight]⟩)
      | wantWrite => exact .inr (.inl ⟨3, ⟨[], [], evs⟩, rfl, by simp [toCome], by simp [Conn.weight, Ev.weight]⟩)
      | fail code q => exact .inr (.inr (.inl ⟨code, q, ⟨[], [], evs⟩, rfl, by simp [toCome]⟩))
  · exact .inr (.inr (.inr ⟨cur, sizes, evs, hc, by simp [toCome], by simp [Conn.weight]; omega, by simp [sslRead, hc]⟩))

theorem loop_none (m : Nat → Bool) (h : Heap) : ∀ (fuel : Nat) (c : Conn) (ec : Nat), c.weight ≤ fuel →
    ∃ r c', readLoop m fuel c none 0 ec [] = .ok (r, c') ∧
      ((∃ cells n fr k, r = .message cells n fr ∧ 0 < n ∧
          readLoopHeap m fuel c none 0 h = .ok (some (h.length + k), h ++ List.replicate k none ++ [some n]) ∧
          toCome c' + n = toCome c) ∨
       ((∀ cells n fr, r ≠ .message cells n fr) ∧ readLoopHeap m fuel c none 0 h = .ok (none, h) ∧
          toCome c' ≤ toCome c)) := by
  intro fuel
  induction fuel with
  | zero =>
    intro c _ hw
    exact ⟨.blocked, c, rfl, .inr ⟨by simp, rfl, Nat.le_refl _⟩⟩
  | succ fuel ih =>
    intro c ec hw
    rcases sslRead_cases c with ⟨c', h1, h2⟩ | ⟨code, c', h1, h2, h3⟩ | ⟨code, q, c', h1, h2⟩ |
      ⟨cur, sizes, evs, hcur, h1, h2, h3⟩
    · exact ⟨.blocked, c', by simp [readLoop, h1], .inr ⟨by simp, by simp [readLoopHeap, h1], h2⟩⟩
    · simp only [readLoop, readLoopHeap, h1]
      obtain ⟨r, d, h4, h5⟩ := ih c' code (by omega)
      refine ⟨r, d, h4, ?_⟩
      rcases h5 with ⟨cells, n, fr, k, h5, h6, h7, h8⟩ | ⟨h5, h6, h7⟩
      · exact .inl ⟨cells, n, fr, k, h5, h6, h7, by omega⟩
      · exact .inr ⟨h5, h6, by omega⟩
    · exact ⟨.failed code q, c', by simp [readLoop, h1], .inr ⟨by simp, by simp [readLoopHeap, h1], h2⟩⟩
    · have hk := chunkSize_pos (max := readMax) (sizes := sizes) (by decide) hcur
      have hk2 := (chunkSize_le (max := readMax) (sizes := sizes) (cur := cur)).2
      generalize chunkSize readMax sizes cur = k at hk hk2 h3
      have hlen : (cur.take k).length = k := by simp; omega
      have hneed : 0 + (cur.take k).length + (cur.drop k).length = cur.length := by simp; omega
      simp only [readLoop, readLoopHeap, h3, inRecord_cur, hneed]
      cases hm : m cur.length with
      | false =>
        refine ⟨_, _, by simp only [Bool.false_eq_true, if_false]; rfl, .inr ⟨by simp, by simp, ?_⟩⟩
        rw [toCome_inRecord, h1]
        simp
      | true =>
        simp only [if_true, Heap.alloc, Heap.free, Res.bind_ok]
        rw [if_pos (by simp)]
        by_cases hd : cur.drop k = []
        · have hkl : k = cur.length := by
            have := List.drop_eq_nil_iff.mp hd
            omega
          rw [if_pos hd, if_pos hd]
          refine ⟨_, _, rfl, .inl ⟨_, _, _, 0, rfl, by omega, by simp [hlen, ← hkl], ?_⟩⟩
          rw [toCome_inRecord, h1]
          simp [hd]
          omega
        · have hin : Conn.inRecord (cur.drop k) sizes.tail evs = ⟨cur.drop k, sizes.tail, evs⟩ := by
            simp [Conn.inRecord, hd]
          have hs : 0 + k + (cur.drop k).length = cur.length := by simp; omega
          rw [if_neg hd, if_neg hd, hin, hlen]
          obtain ⟨⟨cells, fr, h4⟩, j, h5⟩ := loop_in_record m fuel (cur.drop k) sizes.tail evs
            ((List.replicate cur.length none).take 0 ++ (cur.take k).map some ++
              (List.replicate cur.length none).drop (0 + k)) (0 + k) ec [] h hd (by simp; omega)
            (by rw [hs]; exact hm) (by simp; omega)
          rw [hs] at h4 h5
          refine ⟨_, _, h4, .inl ⟨_, _, _, j, rfl, by omega, h5, ?_⟩⟩
          omega

theorem sslReadHeap_spec (m : Nat → Bool) (c : Conn) (h : Heap) :
    ∃ r c', sslReadMessage m c = .ok (r, c') ∧
      ((∃ cells n fr k, r = .message cells n fr ∧ 0 < n ∧
          sslReadHeap m c h = .ok (some (h.length + k), h ++ List.replicate k none ++ [some n]) ∧
          toCome c' + n = toCome c) ∨
       ((∀ cells n fr, r ≠ .message cells n fr) ∧ sslReadHeap m c h = .ok (none, h) ∧ toCome c' ≤ toCome c)) :=
  loop_none m h c.weight c 0 (Nat.le_refl _)

/-- Reading the rest of the data. -/
theorem moreLoopHeap_spec (m : Nat → Bool) : ∀ (fuel : Nat) (c : Conn) (cmd : Command) (total : Nat) (h : Heap)
    {r : Option Command} {c' : Conn}, moreLoop m fuel c cmd total = .ok (r, c') → cmd.length - total ≤ fuel →
    ∃ new, moreLoopHeap m fuel c cmd total h = .ok (r, h ++ new, c') ∧ inUse new + toCome c' ≤ toCome c ∧
      ∀ cmd', r = some cmd' → cmd.length + toCome c' ≤ total + toCome c ∨ cmd.length ≤ total := by
  intro fuel
  induction fuel with
  | zero =>
    intro c cmd total h r c' hr hf
    simp only [moreLoop, Res.ok.injEq, Prod.mk.injEq] at hr
    obtain ⟨rfl, rfl⟩ := hr
    exact ⟨[], by simp [moreLoopHeap], by simp [inUse], fun _ _ => .inr (by omega)⟩
  | succ fuel ih =>
    intro c cmd total h r c' hr hf
    simp only [moreLoop, moreLoopHeap] at hr ⊢
    by_cases ht : total < cmd.length
    · rw [if_pos ht] at hr ⊢
      obtain ⟨q, d, h1, h2⟩ := sslReadHeap_spec m c h
      rw [h1] at hr ⊢
      rcases h2 with ⟨cells, n, fr, k, rfl, hn, h2, h3⟩ | ⟨h2, h3, h4⟩
      · rw [h2]
        simp only [Res.bind_ok] at hr ⊢
        cases hb : readCells cells n with
        | ub u => simp [hb] at hr
        | ok bytes =>
          rw [hb] at hr
          simp only [Res.bind_ok] at hr ⊢
          cases hd : cmd.data with
          | none => simp [hd] at hr
          | some buf =>
            simp only [hd] at hr ⊢
            cases hw : writeCells buf.cells total bytes with
            | ub u => simp [hw] at hr
            | ok cs =>
              rw [hw] at hr
              simp only [Res.bind_ok] at hr ⊢
              obtain ⟨new, h5, h6, h7⟩ := ih d _ (total + n) (h ++ List.replicate k none ++ [some n]) hr
                (by simp; omega)
              refine ⟨List.replicate k none ++ [some n] ++ new, by rw [h5]; simp, ?_, fun cmd' hc => ?_⟩
              · rw [inUse_append, inUse_append, inUse_none, inUse_single]
                omega
              · have := h7 cmd' hc
                simp only at this
                omega
      · rw [h3]
        simp only [Res.bind_ok] at hr ⊢
        cases q with
        | blocked =>
          simp only [Res.ok.injEq, Prod.mk.injEq] at hr
          obtain ⟨rfl, rfl⟩ := hr
          exact ⟨[], by simp, by simpa [inUse] using h4, by simp⟩
        | failed a b => simp at hr
        | message a b e => exact absurd rfl (h2 a b e)
    · rw [if_neg ht] at hr ⊢
      simp only [Res.ok.injEq, Prod.mk.injEq] at hr
      obtain ⟨rfl, rfl⟩ := hr
      exact ⟨[], by simp, by simp [inUse], fun _ _ => .inr (by omega)⟩

/-! ## Error objects -/

/-- The caller's error location as a value, in memory, and the blocks of the object. -/
def ErrShape (loc : ErrLoc) (e : ErrSlot) (blocks : List (Nat × Nat)) : Prop :=
  (loc = none ∧ e = none ∧ blocks = []) ∨ (loc = some none ∧ e = some none ∧ blocks = []) ∨
  (∃ x p k, loc = some (some x) ∧ x.message = none ∧ e = some (some (p, none)) ∧ blocks = [(p, k)]) ∨
  (∃ x p k q n, loc = some (some x) ∧ x.message.isSome ∧ e = some (some (p, some q)) ∧ blocks = [(q, n), (p, k)])

/-- No error object yet. -/
def NoError (loc : ErrLoc) (e : ErrSlot) : Prop := (loc = none ∧ e = none) ∨ (loc = some none ∧ e = some none)

theorem NoError.shape {loc : ErrLoc} {e : ErrSlot} (h : NoError loc e) : ErrShape loc e [] := by
  rcases h with ⟨h1, h2⟩ | ⟨h1, h2⟩
  · exact .inl ⟨h1, h2, rfl⟩
  · exact .inr (.inl ⟨h1, h2, rfl⟩)

/-- Memory: the error object, other blocks the call has to take care of, and bytes that are lost. -/
def Holding (h0 : Heap) (loc : ErrLoc) (s : Mem) (owned : List (Nat × Nat)) (lost : Nat) : Prop :=
  ∃ bl, ErrShape loc s.error bl ∧ Own h0 s.heap (bl ++ owned) lost

theorem Holding.start {loc : ErrLoc} {s : Mem} (h : NoError loc s.error) : Holding s.heap loc s [] 0 :=
  ⟨[], h.shape, by simpa using Own.start s.heap⟩

theorem Holding.alloc {h0 : Heap} {loc : ErrLoc} {s : Mem} {owned : List (Nat × Nat)} {lost : Nat}
    (o : Holding h0 loc s owned lost) (n : Nat) :
    Holding h0 loc ⟨s.heap ++ [some n], s.error⟩ ((s.heap.length, n) :: owned) lost := by
  obtain ⟨bl, h1, h2⟩ := o
  exact ⟨bl, h1, (h2.alloc n).perm (List.perm_middle.symm)⟩

theorem Holding.lose {h0 : Heap} {loc : ErrLoc} {s : Mem} {x : Nat × Nat} {owned : List (Nat × Nat)} {lost : Nat}
    (o : Holding h0 loc s (x :: owned) lost) : Holding h0 loc s owned (lost + x.2) := by
  obtain ⟨bl, h1, h2⟩ := o
  exact ⟨bl, h1, (h2.perm List.perm_middle).lose⟩

theorem Holding.free {h0 : Heap} {loc : ErrLoc} {s : Mem} {x : Nat × Nat} {owned : List (Nat × Nat)} {lost : Nat}
    (o : Holding h0 loc s (x :: owned) lost) :
    ∃ h', s.heap.free (some x.1) = .ok h' ∧ Holding h0 loc ⟨h', s.error⟩ owned lost := by
  obtain ⟨bl, h1, h2⟩ := o
  obtain ⟨h', h3, h4, -⟩ := (h2.perm List.perm_middle).free
  exact ⟨h', h3, bl, h1, h4⟩

theorem Holding.more {h0 : Heap} {loc : ErrLoc} {s : Mem} {owned : List (Nat × Nat)} {lost : Nat}
    (o : Holding h0 loc s owned lost) (new : Heap) :
    Holding h0 loc ⟨s.heap ++ new, s.error⟩ owned (lost + inUse new) := by
  obtain ⟨bl, h1, h2⟩ := o
  exact ⟨bl, h1, h2.more new⟩

/-- Behind `malloc` and `free` of the same block. -/
theorem Heap.free_last (h : Heap) (n : Nat) : (h ++ [some n]).free (some h.length) = .ok (h ++ [none]) := by
  simp [Heap.free]

theorem Holding.setError {m : Nat → Bool} {h0 : Heap} {loc : ErrLoc} {s : Mem} {owned : List (Nat × Nat)}
    {lost : Nat} {n : Option Nat} {e : Option Err} (o : Holding h0 loc s owned lost)
    (hno : loc = none ∨ loc = some none)
    (he : e.isSome = m errStructSize)
    (hmsg : ∀ x, e = some x → (x.message.isSome ↔ ∃ k, n = some k ∧ m k = true)) :
    ∃ s', s.setError m n = .ok s' ∧ Holding h0 (if loc = none then none else some e) s' owned lost := by
  obtain ⟨bl, h1, h2⟩ := o
  rcases hno with rfl | rfl
  · have hs : s.error = none ∧ bl = [] := by
      rcases h1 with ⟨-, h, h'⟩ | ⟨h, -⟩ | ⟨_, _, _, h, -⟩ | ⟨_, _, _, _, _, h, -⟩ <;> simp_all
    refine ⟨s, by simp [Mem.setError, hs.1], bl, ?_, h2⟩
    exact .inl ⟨rfl, hs.1, hs.2⟩
  · have hs : s.error = some none ∧ bl = [] := by
      rcases h1 with ⟨h, -⟩ | ⟨-, h, h'⟩ | ⟨_, _, _, h, -⟩ | ⟨_, _, _, _, _, h, -⟩ <;> simp_all
    obtain ⟨hs, rfl⟩ := hs
    simp only [List.nil_append] at h2
    simp only [Mem.setError, hs, newError, reduceCtorEq, if_false]
    cases hm : m errStructSize with
    | false =>
      rw [hm] at he
      cases e with
      | some x => simp at he
      | none => exact ⟨_, rfl, [], .inr (.inl ⟨rfl, rfl, rfl⟩), by simpa using h2⟩
    | true =>
      rw [hm] at he
      cases e with
      | none => simp at he
      | some x =>
        have hx := hmsg x rfl
        simp only [if_true, Heap.alloc]
        have h3 := h2.alloc errStructSize
        cases n with
        | none =>
          refine ⟨_, rfl, _, .inr (.inr (.inl ⟨x, _, _, rfl, ?_, rfl, rfl⟩)), h3⟩
          simp at hx
          exact hx
        | some n =>
          dsimp only
          cases hn : m n with
          | false =>
            simp only [Bool.false_eq_true, if_false]
            refine ⟨_, rfl, _,
              .inr (.inr (.inl ⟨x, _, _, rfl, ?_, rfl, rfl⟩)), h3⟩
            simp [hn] at hx
            exact hx
          | true =>
            simp only [if_true]
            refine ⟨_, rfl, _,
              .inr (.inr (.inr ⟨x, _, _, _, _, rfl, hx.mpr ⟨n, rfl, hn⟩, rfl, rfl⟩)), h3.alloc n⟩

theorem Holding.noError {h0 : Heap} {loc : ErrLoc} {s : Mem} {owned : List (Nat × Nat)} {lost : Nat}
    (o : Holding h0 loc s owned lost) (hno : loc = none ∨ loc = some none) : NoError loc s.error := by
  obtain ⟨bl, h1, h2⟩ := o
  rcases h1 with ⟨h, h', -⟩ | ⟨h, h', -⟩ | ⟨_, _, _, h, -⟩ | ⟨_, _, _, _, _, h, -⟩
  · exact .inl ⟨h, h'⟩
  · exact .inr ⟨h, h'⟩
  · simp_all
  · simp_all

theorem Holding.setLiteral {m : Nat → Bool} {h0 : Heap} {loc loc' : ErrLoc} {s : Mem} {owned : List (Nat × Nat)}
    {lost : Nat} {msg : Option Bytes} {d k : Int} (o : Holding h0 loc s owned lost)
    (h : errorSetLiteral m loc d k msg = .ok loc') :
    ∃ s', s.setLiteral m msg = .ok s' ∧ Holding h0 loc' s' owned lost := by
  have hno : loc = none ∨ loc = some none := by
    unfold errorSetLiteral at h
    split at h
    · exact .inl rfl
    · simp at h
    · exact .inr rfl
  obtain ⟨s', h1, h2⟩ := o.setError (m := m) (n := msg.map fun t => (cstr t).length + 1)
    (e := errorNewLiteral m d k msg) hno
    (by unfold errorNewLiteral; split <;> simp_all)
    (by
      intro x hx
      unfold errorNewLiteral at hx
      split at hx
      · simp only [Option.some.injEq] at hx
        subst hx
        cases msg with
        | none => simp
        | some t =>
          cases hm : m ((cstr t).length + 1) <;> simp [hm]
      · simp at hx)
  refine ⟨s', h1, ?_⟩
  rcases hno with rfl | rfl <;> simp [errorSetLiteral] at h <;> simpa [← h] using h2

theorem Holding.setFormat {m : Nat → Bool} {h0 : Heap} {loc loc' : ErrLoc} {s : Mem} {owned : List (Nat × Nat)}
    {lost : Nat} {text : Bytes} {d k : Int} (o : Holding h0 loc s owned lost)
    (h : errorSet m loc d k text = .ok loc') :
    ∃ s', s.setFormat m = .ok s' ∧ Holding h0 loc' s' owned lost := by
  have hno : loc = none ∨ loc = some none := by
    unfold errorSet at h
    split at h
    · exact .inl rfl
    · simp at h
    · exact .inr rfl
  obtain ⟨s', h1, h2⟩ := o.setError (m := m) (n := some defaultMsgSize) (e := errorNew m d k text) hno
    (by unfold errorNew; split <;> simp_all)
    (by
      intro x hx
      unfold errorNew at hx
      split at hx
      · simp only [Option.some.injEq] at hx
        subst hx
        cases hm : m defaultMsgSize <;> simp [hm]
      · simp at hx)
  refine ⟨s', h1, ?_⟩
  rcases hno with rfl | rfl <;> simp [errorSet] at h <;> simpa [← h] using h2

theorem Holding.setData {m : Nat → Bool} {h0 : Heap} {loc loc' : ErrLoc} {s : Mem} {owned : List (Nat × Nat)}
    {lost : Nat} {pre : Bytes} {data : Option Buf} {d k : Int} (o : Holding h0 loc s owned lost)
    (h : errorSetData m loc d k pre data = .ok loc') :
    ∃ s', s.setData m data = .ok s' ∧ Holding h0 loc' s' owned lost := by
  have hno : loc = none ∨ loc = some none := by
    unfold errorSetData at h
    split at h
    · simp at h
    · exact .inr rfl
    · unfold errorSet at h
      split at h
      · exact .inl rfl
      · simp at h
      · exact .inr rfl
  rcases o.noError hno with ⟨rfl, hs⟩ | ⟨rfl, hs⟩
  · simp only [errorSetData] at h
    simp only [Mem.setData, hs]
    exact o.setFormat h
  · cases data with
    | none => simp [errorSetData] at h
    | some buf =>
      simp only [errorSetData] at h
      obtain ⟨text, h1, h2⟩ := Res.bind_eq_ok.1 h
      simp only [Mem.setData, hs, h1, Res.bind_ok]
      exact o.setFormat h2

/-- `mlle_error_free`. -/
theorem Holding.freeError {h0 : Heap} {loc : ErrLoc} {s : Mem} {owned : List (Nat × Nat)} {lost : Nat}
    (o : Holding h0 loc s owned lost) : ∃ s', s.freeError = .ok s' ∧ Own h0 s'.heap owned lost := by
  obtain ⟨bl, h1, h2⟩ := o
  rcases h1 with ⟨-, h, rfl⟩ | ⟨-, h, rfl⟩ | ⟨_, p, k, -, -, h, rfl⟩ | ⟨_, p, k, q, n, -, -, h, rfl⟩
  · exact ⟨s, by simp [Mem.freeError, h], h2⟩
  · exact ⟨s, by simp [Mem.freeError, h], h2⟩
  · obtain ⟨h', h3, h4, -⟩ := Own.free (x := (p, k)) h2
    exact ⟨⟨h', some none⟩, by simp only [Mem.freeError, h]; simp only [Heap.free, Res.bind_ok] at h3 ⊢; rw [h3]; rfl, h4⟩
  · obtain ⟨h', h3, h4, -⟩ := Own.free (x := (q, n)) h2
    obtain ⟨h'', h5, h6, -⟩ := Own.free (x := (p, k)) h4
    exact ⟨⟨h'', some none⟩, by simp only [Mem.freeError, h, h3, h5, Res.bind_ok], h6⟩

/-! ## Reading an answer -/

/-- The data of a command as a block. -/
def DataBlock (cmd : Command) (data : Option Nat) (blocks : List (Nat × Nat)) : Prop :=
  ((data = none ∧ blocks = []) ∨ ∃ p n, data = some p ∧ blocks = [(p, n)]) ∧
  (cmd.id.form = .length ∨ cmd.id.form = .numberAndLength → (cmd.data.isSome ↔ data.isSome)) ∧
  (¬ (cmd.id.form = .length ∨ cmd.id.form = .numberAndLength) → blocks = [])

/-- What `mlle_read_command` leaves behind. -/
def AfterRead (h0 : Heap) (owned : List (Nat × Nat)) (lost got : Nat) (least : Nat) (r : ReadOut) (g : Got) (s : Mem) :
    Prop :=
  match r with
  | .blocked => g = .blocked
  | .fail loc => g = .failed ∧ ∃ lost', Holding h0 loc s owned lost' ∧ lost + least ≤ lost' ∧
      lost' ≤ lost + 16400 + got
  | .done cmd loc => ∃ data bl lost', g = .command cmd data ∧ DataBlock cmd data bl ∧
      Holding h0 loc s (bl ++ owned) lost' ∧ lost + least ≤ lost' ∧ lost' ≤ lost + 16400 + got ∧
      (bl.map (·.2)).sum ≤ got

theorem extractData_total {m : Nat → Bool} {cmd cmd' : Command} {buf : Bytes} {k : Nat}
    (h : extractData m cmd buf = .ok (cmd', k)) :
    k < buf.length ∧ cmd'.length = cmd.length ∧ cmd'.id = cmd.id := by
  have h1 := extractData_keeps h
  refine ⟨?_, h1.2.2, h1.1⟩
  unfold extractData at h
  split at h
  · simp at h
  · rename_i hf
    simp only [Res.ok.injEq, Prod.mk.injEq] at h
    have : buf ≠ [] := by rintro rfl; simp [findNewline] at hf
    have := List.length_pos_iff.mpr this
    omega
  · rename_i i hf
    have : buf ≠ [] := by rintro rfl; simp [findNewline] at hf
    have := List.length_pos_iff.mpr this
    dsimp only at h
    split at h
    · obtain ⟨c1, -, h⟩ := Res.bind_eq_ok.1 h
      obtain ⟨c2, -, h⟩ := Res.bind_eq_ok.1 h
      simp only [Res.ok.injEq, Prod.mk.injEq] at h
      rw [← h.2]
      simp
      omega
    · simp only [Res.ok.injEq, Prod.mk.injEq] at h
      omega

theorem moreLoop_none {m : Nat → Bool} {fuel : Nat} {c c' : Conn} {cmd cmd' : Command} {total : Nat}
    (h : moreLoop m fuel c cmd total = .ok (some cmd', c')) : cmd'.data.isSome ↔ cmd.data.isSome := by
  induction fuel generalizing c cmd total with
  | zero => simp [moreLoop] at h; simp [h.1]
  | succ fuel ih =>
    unfold moreLoop at h
    split at h
    · obtain ⟨⟨r, c1⟩, -, h⟩ := Res.bind_eq_ok.1 h
      simp only at h
      cases r with
      | blocked => simp at h
      | failed a b => simp at h
      | message cells n f =>
        simp only at h
        obtain ⟨bytes, -, h⟩ := Res.bind_eq_ok.1 h
        split at h
        · simp at h
        · rename_i buf hb
          obtain ⟨cs, -, h⟩ := Res.bind_eq_ok.1 h
          have := ih h
          simp [hb] at this ⊢
          exact this
    · simp at h; simp [h.1]

theorem readCells_length {cells : List (Option UInt8)} {n : Nat} {b : Bytes} (h : readCells cells n = .ok b) :
    b.length = n := by
  induction n generalizing cells b with
  | zero => cases cells <;> simp [readCells] at h <;> simp [← h]
  | succ n ih =>
    cases cells with
    | nil => simp [readCells] at h
    | cons x xs =>
      cases x with
      | none => simp [readCells] at h
      | some x =>
        simp only [readCells] at h
        obtain ⟨r, h1, h2⟩ := Res.bind_eq_ok.1 h
        simp only [Res.ok.injEq] at h2
        rw [← h2]
        simp [ih h1]

theorem readCommandHeap_spec {m : Nat → Bool} {c c' : Conn} {loc : ErrLoc} {r : ReadOut} {s : Mem} {h0 : Heap}
    {owned : List (Nat × Nat)} {lost : Nat} (o : Holding h0 loc s owned lost)
    (h : readCommand m c loc = .ok (r, c')) :
    ∃ g s', readCommandHeap m c s = .ok (g, s', c') ∧ toCome c' ≤ toCome c ∧
      AfterRead h0 owned lost (toCome c - toCome c') (if m 16400 then 16400 else 0) r g s' := by
  simp only [readCommand, readCommandHeap, sslRecordSize] at h ⊢
  cases hm : m 16400 with
  | false =>
    simp only [hm, Bool.false_eq_true, if_false] at h ⊢
    obtain ⟨l, h1, h2⟩ := Res.bind_eq_ok.1 h
    simp only [Res.ok.injEq, Prod.mk.injEq] at h2
    obtain ⟨rfl, rfl⟩ := h2
    obtain ⟨s', h3, h4⟩ := o.setLiteral h1
    rw [h3]
    exact ⟨_, _, rfl, Nat.le_refl _, rfl, lost, h4, by omega, by omega⟩
  | true =>
    simp only [hm, if_true, Heap.alloc] at h ⊢
    have o1 := (o.alloc 16400).lose
    dsimp only at o1
    obtain ⟨q, d, h1, h2⟩ := sslReadHeap_spec m c (s.heap ++ [some 16400])
    rw [h1] at h ⊢
    rcases h2 with ⟨cells, n, fr, k, rfl, hn, h2, h3⟩ | ⟨h2, h3, h4⟩
    · rw [h2]
      simp only [Res.bind_ok] at h ⊢
      have o2 := o1.more (List.replicate k none ++ [some n])
      rw [inUse_append, inUse_none, inUse_single, ← List.append_assoc] at o2
      dsimp only at o2
      generalize s.heap ++ [some 16400] ++ List.replicate k none ++ [some n] = g at o2 ⊢
      by_cases hbig : n > 16400
      · rw [if_pos hbig] at h ⊢
        obtain ⟨l, h4, h5⟩ := Res.bind_eq_ok.1 h
        simp only [Res.ok.injEq, Prod.mk.injEq] at h5
        obtain ⟨rfl, rfl⟩ := h5
        obtain ⟨s', h6, h7⟩ := o2.setLiteral h4
        rw [h6]
        exact ⟨_, _, rfl, by omega, rfl, _, h7, by omega, by omega⟩
      · rw [if_neg hbig] at h ⊢
        cases hm1 : m (n + 1) with
        | false =>
          simp only [hm1, Bool.false_eq_true, if_false] at h ⊢
          obtain ⟨l, h4, h5⟩ := Res.bind_eq_ok.1 h
          simp only [Res.ok.injEq, Prod.mk.injEq] at h5
          obtain ⟨rfl, rfl⟩ := h5
          obtain ⟨s', h6, h7⟩ := o2.setLiteral h4
          rw [h6]
          exact ⟨_, _, rfl, by omega, rfl, _, h7, by omega, by omega⟩
        | true =>
          simp only [hm1, if_true] at h ⊢
          obtain ⟨bytes, h4, h⟩ := Res.bind_eq_ok.1 h
          obtain ⟨⟨v, cmd, emsg⟩, h5, h⟩ := Res.bind_eq_ok.1 h
          rw [h4]
          simp only [Res.bind_ok, h5, Heap.free_last] at h ⊢
          have o3 := o2.alloc (n + 1)
          obtain ⟨g', h6, o4⟩ := o3.free
          simp only [Heap.free_last, Res.ok.injEq] at h6
          subst h6
          dsimp only at o4
          generalize g ++ [none] = g' at o4 ⊢
          by_cases hv : v ≠ .valid
          · rw [if_pos hv] at h ⊢
            obtain ⟨l, h4, h5⟩ := Res.bind_eq_ok.1 h
            simp only [Res.ok.injEq, Prod.mk.injEq] at h5
            obtain ⟨rfl, rfl⟩ := h5
            obtain ⟨s', h6, h7⟩ := o4.setLiteral h4
            rw [h6]
            exact ⟨_, _, rfl, by omega, rfl, _, h7, by omega, by omega⟩
          · rw [if_neg hv] at h ⊢
            by_cases hf : cmd.id.form = .length ∨ cmd.id.form = .numberAndLength
            · rw [if_pos hf] at h ⊢
              obtain ⟨⟨cmd1, total⟩, h6, h⟩ := Res.bind_eq_ok.1 h
              rw [h6]
              simp only [Res.bind_ok] at h ⊢
              obtain ⟨e1, e2, e3⟩ := extractData_total h6
              rw [readCells_length h4] at e1
              have kmod : (cmd1.length + 1) % sizeMod ≤ cmd1.length + 1 := Nat.mod_le _ _
              have tail : ∀ (data : Option Nat) (bl : List (Nat × Nat)) (s2 : Mem) (loc1 : ErrLoc),
                  ((data = none ∧ bl = []) ∨ ∃ p, data = some p ∧ bl = [(p, (cmd1.length + 1) % sizeMod)]) →
                  (cmd1.data.isSome ↔ data.isSome) →
                  Holding h0 loc1 s2 (bl ++ owned) (lost + 16400 + (0 + n)) →
                  (do
                    let x ← moreLoop m (cmd1.length - total) d cmd1 total
                    match x.1 with
                    | none => Res.ok (ReadOut.blocked, x.2)
                    | some cmd => Res.ok (ReadOut.done cmd loc1, x.2)) = .ok (r, c') →
                  ∃ gg s', (do
                    let x ← moreLoopHeap m (cmd1.length - total) d cmd1 total s2.heap
                    match x.1 with
                    | none => Res.ok (Got.blocked, (⟨x.2.1, s2.error⟩ : Mem), x.2.2)
                    | some cmd => Res.ok (Got.command cmd data, ⟨x.2.1, s2.error⟩, x.2.2)) = .ok (gg, s', c') ∧
                    toCome c' ≤ toCome c ∧
                    AfterRead h0 owned lost (toCome c - toCome c') 16400 r gg s' := by
                intro data bl s2 loc1 k2 k3 k5 h
                obtain ⟨⟨cmd2, c2⟩, h8, h⟩ := Res.bind_eq_ok.1 h
                obtain ⟨new, k6, k7, k8⟩ := moreLoopHeap_spec m _ d cmd1 total s2.heap h8 (Nat.le_refl _)
                rw [k6]
                simp only [Res.bind_ok]
                cases cmd2 with
                | none =>
                  simp only [Res.ok.injEq, Prod.mk.injEq] at h
                  obtain ⟨rfl, rfl⟩ := h
                  exact ⟨_, _, rfl, by omega, rfl⟩
                | some cmd2 =>
                  simp only [Res.ok.injEq, Prod.mk.injEq] at h
                  obtain ⟨rfl, rfl⟩ := h
                  have k10 := moreLoop_none h8
                  have k11 := k8 cmd2 rfl
                  refine ⟨_, _, rfl, by omega, data, bl, _, rfl, ⟨?_, fun _ => k10.trans k3, fun hn => ?_⟩, k5.more new,
                    by omega, by omega, ?_⟩
                  · rcases k2 with k2 | ⟨p, k2, k2'⟩
                    · exact .inl k2
                    · exact .inr ⟨p, _, k2, k2'⟩
                  · rw [(moreLoop_keeps h8).1, e3] at hn
                    exact absurd hf hn
                  · have : (bl.map (·.2)).sum ≤ cmd1.length + 1 := by
                      rcases k2 with ⟨-, rfl⟩ | ⟨p, -, rfl⟩
                      · simp
                      · simpa using kmod
                    omega
              by_cases hd : cmd1.data = none
              · simp only [hd, if_true] at h ⊢
                obtain ⟨loc1, h7, h⟩ := Res.bind_eq_ok.1 h
                obtain ⟨s', h9, h10⟩ := o4.setLiteral h7
                rw [h9]
                exact tail none [] s' loc1 (.inl ⟨rfl, rfl⟩) (by simp [hd]) h10 h
              · simp only [hd, if_false] at h ⊢
                exact tail _ _ ⟨_, s.error⟩ loc (.inr ⟨_, rfl, rfl⟩) (by simp [Option.isSome_iff_ne_none, hd])
                  (o4.alloc ((cmd1.length + 1) % sizeMod)) h
            · rw [if_neg hf] at h ⊢
              simp only [Res.ok.injEq, Prod.mk.injEq] at h
              obtain ⟨rfl, rfl⟩ := h
              exact ⟨_, _, rfl, by omega, none, [], _, rfl, ⟨.inl ⟨rfl, rfl⟩, fun hh => absurd hh hf, fun _ => rfl⟩, o4,
                by omega, by omega, by simp⟩
    · rw [h3]
      simp only [Res.bind_ok] at h ⊢
      cases q with
      | blocked =>
        simp only [Res.ok.injEq, Prod.mk.injEq] at h
        obtain ⟨rfl, rfl⟩ := h
        exact ⟨_, _, rfl, h4, rfl⟩
      | failed code q =>
        obtain ⟨l, h5, h6⟩ := Res.bind_eq_ok.1 h
        simp only [Res.ok.injEq, Prod.mk.injEq] at h6
        obtain ⟨rfl, rfl⟩ := h6
        obtain ⟨s', h7, h8⟩ := o1.setLiteral h5
        dsimp only
        rw [h7]
        exact ⟨_, _, rfl, h4, rfl, _, h8, by omega, by omega⟩
      | message a b e => exact absurd rfl (h2 a b e)

/-! ## Calls -/

/-- What `mlle_expect_command` leaves behind. -/
def AfterExpect (h0 : Heap) (owned : List (Nat × Nat)) (got least : Nat) (other : Prop) (r : ToolOut Command) (g : Got)
    (s : Mem) : Prop :=
  match r with
  | .blocked => g = .blocked
  | .failed loc => g = .failed ∧ ∃ lost, Holding h0 loc s owned lost ∧ least ≤ lost ∧ lost ≤ 16400 + 2 * got ∧
      (¬ other → lost ≤ 16400 + got)
  | .success cmd loc => ∃ data bl lost, g = .command cmd data ∧ DataBlock cmd data bl ∧
      Holding h0 loc s (bl ++ owned) lost ∧ least ≤ lost ∧ lost ≤ 16400 + got ∧ (bl.map (·.2)).sum ≤ got ∧ other

/-- Bytes received on a connection that got from `c` to `c'`, and what is lost at least. -/
def room (c c' : Conn) : Nat := toCome c - toCome c'
def least (m : Nat → Bool) : Nat := if m 16400 then 16400 else 0

theorem Holding.loseData {h0 : Heap} {loc : ErrLoc} {s : Mem} {cmd : Command} {data : Option Nat}
    {bl owned : List (Nat × Nat)} {lost : Nat} (hd : DataBlock cmd data bl) (o : Holding h0 loc s (bl ++ owned) lost) :
    Holding h0 loc s owned (lost + (bl.map (·.2)).sum) := by
  rcases hd.1 with ⟨-, rfl⟩ | ⟨p, n, -, rfl⟩
  · simpa using o
  · simpa using o.lose

theorem Holding.freeData {h0 : Heap} {loc : ErrLoc} {s : Mem} {cmd : Command} {data : Option Nat}
    {bl owned : List (Nat × Nat)} {lost : Nat} (hd : DataBlock cmd data bl) (o : Holding h0 loc s (bl ++ owned) lost) :
    ∃ h', s.heap.free data = .ok h' ∧ Holding h0 loc ⟨h', s.error⟩ owned lost := by
  rcases hd.1 with ⟨rfl, rfl⟩ | ⟨p, n, rfl, rfl⟩
  · exact ⟨s.heap, rfl, o⟩
  · exact o.free

theorem expectHeap_spec {m : Nat → Bool} {t t' : Tool} {ex : CmdId} {loc : ErrLoc} {r : ToolOut Command} {s : Mem}
    {h0 : Heap} {owned : List (Nat × Nat)} (o : Holding h0 loc s owned 0)
    (h : expectCommand m t ex loc = .ok (r, t')) :
    ∃ g s', expectHeap m t ex s = .ok (g, s', t') ∧ toCome t'.inn ≤ toCome t.inn ∧
      AfterExpect h0 owned (room t.inn t'.inn) (least m) (OtherAnswer m t.inn loc) r g s' ∧
      ∀ cmd l, r = .success cmd l → cmd.id = ex := by
  simp only [expectCommand, expectHeap] at h ⊢
  obtain ⟨⟨r1, c1⟩, h1, h⟩ := Res.bind_eq_ok.1 h
  obtain ⟨g, s1, h2, h3, h4⟩ := readCommandHeap_spec o h1
  rw [h2]
  simp only [Res.bind_ok, Nat.zero_add] at h ⊢
  cases r1 with
  | blocked =>
    simp only [Res.ok.injEq, Prod.mk.injEq] at h
    obtain ⟨rfl, rfl⟩ := h
    obtain rfl : g = .blocked := h4
    exact ⟨_, _, rfl, h3, rfl, by simp⟩
  | fail l =>
    simp only [Res.ok.injEq, Prod.mk.injEq] at h
    obtain ⟨rfl, rfl⟩ := h
    obtain ⟨rfl, lost, h5, h6, h7⟩ := h4
    exact ⟨_, _, rfl, h3, ⟨rfl, lost, h5, by simpa [least] using h6, by simp only [room]; omega, fun _ => by simpa [room] using h7⟩, by simp⟩
  | done cmd l =>
    obtain ⟨data, bl, lost, rfl, h5, h6, h7, h8⟩ := h4
    simp only [Nat.zero_add] at h7 h8
    obtain ⟨h8, h8'⟩ := h8
    dsimp only at h ⊢
    by_cases he : cmd.id = .error
    · rw [if_pos he] at h ⊢
      obtain ⟨l', h9, h⟩ := Res.bind_eq_ok.1 h
      simp only [Res.ok.injEq, Prod.mk.injEq] at h
      obtain ⟨rfl, rfl⟩ := h
      obtain ⟨s2, h10, h11⟩ := h6.setData h9
      obtain ⟨h', h12, h13⟩ := h11.freeData h5
      rw [h10]
      simp only [Res.bind_ok, h12]
      exact ⟨_, _, rfl, h3, ⟨rfl, lost, h13, h7, by simp only [room]; omega, fun _ => h8⟩, by simp⟩
    · rw [if_neg he] at h ⊢
      by_cases hx : cmd.id ≠ ex
      · rw [if_pos hx] at h ⊢
        obtain ⟨l', h9, h⟩ := Res.bind_eq_ok.1 h
        simp only [Res.ok.injEq, Prod.mk.injEq] at h
        obtain ⟨rfl, rfl⟩ := h
        obtain ⟨s2, h10, h11⟩ := (h6.loseData h5).setFormat h9
        rw [h10]
        simp only [Res.bind_ok]
        refine ⟨_, _, rfl, h3, ⟨rfl, _, h11, ?_, by simp only [room]; omega, fun hn => absurd ⟨_, _, _, h1, he⟩ hn⟩,
          by simp⟩
        simp only [least] at h7 ⊢
        omega
      · rw [if_neg hx] at h ⊢
        simp only [Res.ok.injEq, Prod.mk.injEq] at h
        obtain ⟨rfl, rfl⟩ := h
        refine ⟨_, _, rfl, h3, ⟨data, bl, lost, rfl, h5, h6, h7, h8, h8', _, _, _, h1, he⟩, ?_⟩
        rintro _ _ ⟨⟩
        exact Decidable.not_not.mp hx

theorem expectsHeap_spec {m : Nat → Bool} {t t' : Tool} {first : CmdId} {more : List CmdId} {loc : ErrLoc}
    {r : ToolOut Command} {s : Mem} {h0 : Heap} {owned : List (Nat × Nat)} (o : Holding h0 loc s owned 0)
    (h : expectCommands m t first more loc = .ok (r, t')) :
    ∃ g s', expectsHeap m t first more s = .ok (g, s', t') ∧ toCome t'.inn ≤ toCome t.inn ∧
      AfterExpect h0 owned (room t.inn t'.inn) (least m) (OtherAnswer m t.inn loc) r g s' := by
  simp only [expectCommands, expectsHeap] at h ⊢
  obtain ⟨⟨r1, c1⟩, h1, h⟩ := Res.bind_eq_ok.1 h
  obtain ⟨g, s1, h2, h3, h4⟩ := readCommandHeap_spec o h1
  rw [h2]
  simp only [Res.bind_ok, Nat.zero_add] at h ⊢
  cases r1 with
  | blocked =>
    simp only [Res.ok.injEq, Prod.mk.injEq] at h
    obtain ⟨rfl, rfl⟩ := h
    obtain rfl : g = .blocked := h4
    exact ⟨_, _, rfl, h3, rfl⟩
  | fail l =>
    simp only [Res.ok.injEq, Prod.mk.injEq] at h
    obtain ⟨rfl, rfl⟩ := h
    obtain ⟨rfl, lost, h5, h6, h7⟩ := h4
    exact ⟨_, _, rfl, h3, rfl, lost, h5, by simpa [least] using h6, by simp only [room]; omega, fun _ => by simpa [room] using h7⟩
  | done cmd l =>
    obtain ⟨data, bl, lost, rfl, h5, h6, h7, h8⟩ := h4
    simp only [Nat.zero_add] at h7 h8
    obtain ⟨h8, h8'⟩ := h8
    dsimp only at h ⊢
    by_cases he : cmd.id = .error
    · rw [if_pos he] at h ⊢
      obtain ⟨l', h9, h⟩ := Res.bind_eq_ok.1 h
      simp only [Res.ok.injEq, Prod.mk.injEq] at h
      obtain ⟨rfl, rfl⟩ := h
      obtain ⟨s2, h10, h11⟩ := h6.setData h9
      obtain ⟨h', h12, h13⟩ := h11.freeData h5
      rw [h10]
      simp only [Res.bind_ok, h12]
      exact ⟨_, _, rfl, h3, rfl, lost, h13, h7, by simp only [room]; omega, fun _ => h8⟩
    · rw [if_neg he] at h ⊢
      by_cases hx : cmd.id ∈ first :: more
      · rw [if_pos hx] at h ⊢
        simp only [Res.ok.injEq, Prod.mk.injEq] at h
        obtain ⟨rfl, rfl⟩ := h
        exact ⟨_, _, rfl, h3, data, bl, lost, rfl, h5, h6, h7, h8, h8', _, _, _, h1, he⟩
      · rw [if_neg hx] at h ⊢
        have hle : least m ≤ lost + (bl.map (·.2)).sum := by
          simp only [least] at h7 ⊢
          omega
        cases hm : m (expectedSize (more.length + 1)) with
        | true =>
          simp only [hm, if_true, Heap.alloc] at h ⊢
          obtain ⟨text, h9, h⟩ := Res.bind_eq_ok.1 h
          obtain ⟨l', h10, h⟩ := Res.bind_eq_ok.1 h
          simp only [Res.ok.injEq, Prod.mk.injEq] at h
          obtain ⟨rfl, rfl⟩ := h
          obtain ⟨s2, h11, h12⟩ := ((h6.loseData h5).alloc (expectedSize (more.length + 1))).setLiteral h10
          obtain ⟨h', h13, h14⟩ := h12.free
          rw [h9]
          simp only [Res.bind_ok, h11]
          rw [h13]
          simp only [Res.bind_ok]
          exact ⟨_, _, rfl, h3, rfl, _, h14, hle, by simp only [room]; omega,
            fun hn => absurd ⟨_, _, _, h1, he⟩ hn⟩
        | false =>
          simp only [hm, Bool.false_eq_true, if_false] at h ⊢
          obtain ⟨l', h10, h⟩ := Res.bind_eq_ok.1 h
          simp only [Res.ok.injEq, Prod.mk.injEq] at h
          obtain ⟨rfl, rfl⟩ := h
          obtain ⟨s2, h11, h12⟩ := (h6.loseData h5).setLiteral h10
          rw [h11]
          simp only [Res.bind_ok]
          exact ⟨_, _, rfl, h3, rfl, _, h12, hle, by simp only [room]; omega,
            fun hn => absurd ⟨_, _, _, h1, he⟩ hn⟩

theorem sendHeap_spec {h0 : Heap} {loc : ErrLoc} {s : Mem} {owned : List (Nat × Nat)} (m : Nat → Bool) (data : Bytes)
    (o : Holding h0 loc s owned 0) :
    ∃ h', sendHeap m data s.heap = .ok h' ∧ Holding h0 loc ⟨h', s.error⟩ owned 0 := by
  simp only [sendHeap, Heap.alloc]
  split
  · exact (o.alloc _).free
  · exact ⟨_, rfl, o⟩

/-- What a call leaves behind. -/
def AfterCall (h0 : Heap) (got least : Nat) (other : Prop) (r : ToolOut (Option FileContents)) (e : CallEnd) (s : Mem) : Prop :=
  match r with
  | .blocked => e = .blocked
  | .failed loc => e = .failed ∧ ∃ lost, Holding h0 loc s [] lost ∧ least ≤ lost ∧ lost ≤ 16400 + 2 * got ∧
      (¬ other → lost ≤ 16400 + got)
  | .success none loc => e = .success ∧ ∃ lost, Holding h0 loc s [] lost ∧ least ≤ lost ∧ lost ≤ 16400 + got
  | .success (some f) loc => ∃ p b bl k lost, e = .contents p f b ∧ (f.buffer.isSome ↔ b.isSome) ∧
      ((b = none ∧ bl = []) ∨ ∃ q n, b = some q ∧ bl = [(q, n)]) ∧
      Holding h0 loc s ((p, k) :: bl) lost ∧ least ≤ lost ∧ lost ≤ 16400 + got

/-- The statement for one call. -/
def CallSpec (m : Nat → Bool) (t t' : Tool) (loc : ErrLoc) (h0 : Heap) (r : ToolOut (Option FileContents))
    (run : Res (CallEnd × Mem × Tool)) (low : Nat) : Prop :=
  ∃ e s', run = .ok (e, s', t') ∧ toCome t'.inn ≤ toCome t.inn ∧ 
    AfterCall h0 (room t.inn t'.inn) low (OtherAnswer m t.inn loc) r e s'

theorem unitOut_ok {x : Res (ToolOut Unit × Tool)} {r : ToolOut (Option FileContents)} {t' : Tool}
    (h : unitOut x = .ok (r, t')) :
    (x = .ok (.blocked, t') ∧ r = .blocked) ∨ (∃ l, x = .ok (.failed l, t') ∧ r = .failed l) ∨
    (∃ l, x = .ok (.success () l, t') ∧ r = .success none l) := by
  unfold unitOut at h
  split at h
  · simp at h
  all_goals
    simp only [Res.ok.injEq, Prod.mk.injEq] at h
    obtain ⟨rfl, rfl⟩ := h
    simp

theorem write_inn (t : Tool) (msg : Bytes) : (t.write msg).2.inn = t.inn := by
  unfold Tool.write
  split <;> rfl

theorem versionHeap_spec {m : Nat → Bool} {t t' : Tool} {a b : Int} {loc : ErrLoc} {s : Mem} {h0 : Heap}
    {r : ToolOut (Option FileContents)} (o : Holding h0 loc s [] 0)
    (h : unitOut (toolVersion m t a b loc) = .ok (r, t')) :
    CallSpec m t t' loc h0 r (versionHeap m t a b s) (least m) ∨
      (CallSpec m t t' loc h0 r (versionHeap m t a b s) 0 ∧ ∃ l, r = .failed l) := by
  simp only [toolVersion, versionHeap] at h ⊢
  have hi := write_inn t (sendNumber .version b)
  cases hw : t.write (sendNumber .version b) with
  | mk n t1 =>
  rw [hw] at h hi
  dsimp only at hi
  cases n with
  | none =>
    simp only [unitOut, Res.ok.injEq, Prod.mk.injEq] at h
    obtain ⟨rfl, rfl⟩ := h
    exact .inl ⟨_, _, rfl, by rw [hi], rfl⟩
  | some n =>
    dsimp only at h ⊢
    by_cases hn : n < 0
    · rw [if_pos hn] at h ⊢
      simp only [unitOut, Res.ok.injEq, Prod.mk.injEq] at h
      obtain ⟨rfl, rfl⟩ := h
      exact .inr ⟨⟨_, _, rfl, by rw [hi], rfl, 0, o, by omega, by omega, fun _ => by omega⟩, _, rfl⟩
    · rw [if_neg hn] at h ⊢
      refine .inl ?_
      cases hx : expectCommand m t1 .version loc with
      | ub u => simp [hx, unitOut] at h
      | ok x =>
        obtain ⟨x, t2⟩ := x
        rw [hx] at h
        obtain ⟨g, s1, h1, h2, h3, hid⟩ := expectHeap_spec o hx
        rw [h1]
        rw [hi] at h2 h3
        simp only [Res.bind_ok] at h ⊢
        cases x with
        | blocked =>
          simp only [unitOut, Res.ok.injEq, Prod.mk.injEq] at h
          obtain ⟨rfl, rfl⟩ := h
          obtain rfl : g = .blocked := h3
          exact ⟨_, _, rfl, h2, rfl⟩
        | failed l =>
          simp only [unitOut, Res.ok.injEq, Prod.mk.injEq] at h
          obtain ⟨rfl, rfl⟩ := h
          obtain ⟨rfl, h3⟩ := h3
          exact ⟨_, _, rfl, h2, rfl, h3⟩
        | success cmd l =>
          obtain ⟨data, bl, lost, rfl, h4, h5, h6, h7, h7', ho⟩ := h3
          have h5 := h5.loseData h4
          dsimp only at h ⊢
          by_cases c1 : cmd.number < a
          · rw [if_pos c1] at h ⊢
            rcases unitOut_ok h with ⟨hh, -⟩ | ⟨l', hh, rfl⟩ | ⟨l', hh, -⟩
            all_goals
              obtain ⟨l2, h8, hh⟩ := Res.bind_eq_ok.1 hh
              simp only [Res.ok.injEq, Prod.mk.injEq, reduceCtorEq, false_and, ToolOut.failed.injEq] at hh
            obtain ⟨rfl, rfl⟩ := hh
            obtain ⟨s2, h9, h10⟩ := h5.setFormat h8
            rw [h9]
            exact ⟨_, _, rfl, h2, rfl, _, h10, by omega, by omega, fun hn => absurd ho hn⟩
          · rw [if_neg c1] at h ⊢
            by_cases c2 : cmd.number > b
            · rw [if_pos c2] at h ⊢
              rcases unitOut_ok h with ⟨hh, -⟩ | ⟨l', hh, rfl⟩ | ⟨l', hh, -⟩
              all_goals
                obtain ⟨l2, h8, hh⟩ := Res.bind_eq_ok.1 hh
                simp only [Res.ok.injEq, Prod.mk.injEq, reduceCtorEq, false_and, ToolOut.failed.injEq] at hh
              obtain ⟨rfl, rfl⟩ := hh
              obtain ⟨s2, h9, h10⟩ := h5.setFormat h8
              rw [h9]
              exact ⟨_, _, rfl, h2, rfl, _, h10, by omega, by omega, fun hn => absurd ho hn⟩
            · rw [if_neg c2] at h ⊢
              simp only [unitOut, Res.ok.injEq, Prod.mk.injEq] at h
              obtain ⟨rfl, rfl⟩ := h
              have hbl : bl = [] := h4.2.2 (by rw [hid cmd l rfl]; decide)
              exact ⟨_, _, rfl, h2, rfl, _, h5, by omega, by simpa [hbl] using h7⟩

theorem yesHeap_spec {m : Nat → Bool} {t t' : Tool} {c : CmdId} {arg : Bytes} {loc : ErrLoc} {s : Mem} {h0 : Heap}
    {r : ToolOut (Option FileContents)} (o : Holding h0 loc s [] 0)
    (h : unitOut (sendExpectYes m t c arg loc) = .ok (r, t')) :
    CallSpec m t t' loc h0 r (yesHeap m t c arg s) (least m) := by
  simp only [sendExpectYes, yesHeap] at h ⊢
  cases hs : t.sendString m c arg with
  | ub u => simp [hs, unitOut] at h
  | ok x =>
    obtain ⟨sent, t1⟩ := x
    have hi := toolSend_inn hs
    obtain ⟨h', h1, o⟩ := sendHeap_spec m arg o
    rw [hs] at h
    simp only [Res.bind_ok, h1] at h ⊢
    cases sent with
    | false =>
      simp only [unitOut, Res.ok.injEq, Prod.mk.injEq] at h
      obtain ⟨rfl, rfl⟩ := h
      exact ⟨_, _, rfl, by rw [hi], rfl⟩
    | true =>
      dsimp only at h
      simp only [if_true]
      cases hx : expectCommand m t1 .yes loc with
      | ub u => simp [hx, unitOut] at h
      | ok x =>
        obtain ⟨x, t2⟩ := x
        rw [hx] at h
        obtain ⟨g, s1, h1, h2, h3, hid⟩ := expectHeap_spec o hx
        rw [h1]
        rw [hi] at h2 h3
        simp only [Res.bind_ok] at h ⊢
        cases x with
        | blocked =>
          simp only [unitOut, Res.ok.injEq, Prod.mk.injEq] at h
          obtain ⟨rfl, rfl⟩ := h
          obtain rfl : g = .blocked := h3
          exact ⟨_, _, rfl, h2, rfl⟩
        | failed l =>
          simp only [unitOut, Res.ok.injEq, Prod.mk.injEq] at h
          obtain ⟨rfl, rfl⟩ := h
          obtain ⟨rfl, h3⟩ := h3
          exact ⟨_, _, rfl, h2, rfl, h3⟩
        | success cmd l =>
          obtain ⟨data, bl, lost, rfl, h4, h5, h6, h7, h7', ho⟩ := h3
          have h5 := h5.loseData h4
          simp only [unitOut, Res.ok.injEq, Prod.mk.injEq] at h
          obtain ⟨rfl, rfl⟩ := h
          have hbl : bl = [] := h4.2.2 (by rw [hid cmd l rfl]; decide)
          exact ⟨_, _, rfl, h2, rfl, _, h5, by omega, by simpa [hbl] using h7⟩

theorem featureHeap_spec {m : Nat → Bool} {t t' : Tool} {arg : Bytes} {loc : ErrLoc} {s : Mem} {h0 : Heap}
    {r : ToolOut (Option FileContents)} (o : Holding h0 loc s [] 0)
    (h : unitOut (toolFeature m t arg loc) = .ok (r, t')) :
    CallSpec m t t' loc h0 r (featureHeap m t arg s) (least m) := by
  simp only [toolFeature, featureHeap] at h ⊢
  cases hs : t.sendString m .feature arg with
  | ub u => simp [hs, unitOut] at h
  | ok x =>
    obtain ⟨sent, t1⟩ := x
    have hi := toolSend_inn hs
    obtain ⟨h', h1, o⟩ := sendHeap_spec m arg o
    rw [hs] at h
    simp only [Res.bind_ok, h1] at h ⊢
    cases sent with
    | false =>
      simp only [unitOut, Res.ok.injEq, Prod.mk.injEq] at h
      obtain ⟨rfl, rfl⟩ := h
      exact ⟨_, _, rfl, by rw [hi], rfl⟩
    | true =>
      dsimp only at h
      simp only [if_true]
      cases hx : expectCommands m t1 .yes [.no] loc with
      | ub u => simp [hx, unitOut] at h
      | ok x =>
        obtain ⟨x, t2⟩ := x
        rw [hx] at h
        obtain ⟨g, s1, h1, h2, h3⟩ := expectsHeap_spec o hx
        rw [h1]
        rw [hi] at h2 h3
        simp only [Res.bind_ok] at h ⊢
        cases x with
        | blocked =>
          simp only [unitOut, Res.ok.injEq, Prod.mk.injEq] at h
          obtain ⟨rfl, rfl⟩ := h
          obtain rfl : g = .blocked := h3
          exact ⟨_, _, rfl, h2, rfl⟩
        | failed l =>
          simp only [unitOut, Res.ok.injEq, Prod.mk.injEq] at h
          obtain ⟨rfl, rfl⟩ := h
          obtain ⟨rfl, h3⟩ := h3
          exact ⟨_, _, rfl, h2, rfl, h3⟩
        | success cmd l =>
          obtain ⟨data, bl, lost, rfl, h4, h5, h6, h7, h7', ho⟩ := h3
          have h5 := h5.loseData h4
          dsimp only at h ⊢
          by_cases c1 : cmd.id = .yes
          · rw [if_pos c1] at h ⊢
            simp only [unitOut, Res.ok.injEq, Prod.mk.injEq] at h
            obtain ⟨rfl, rfl⟩ := h
            have hbl : bl = [] := h4.2.2 (by rw [c1]; decide)
            exact ⟨_, _, rfl, h2, rfl, _, h5, by omega, by simpa [hbl] using h7⟩
          · rw [if_neg c1] at h ⊢
            by_cases c2 : cmd.id = .no
            · rw [if_pos c2] at h ⊢
              rcases unitOut_ok h with ⟨hh, -⟩ | ⟨l', hh, rfl⟩ | ⟨l', hh, -⟩
              all_goals
                obtain ⟨l2, h8, hh⟩ := Res.bind_eq_ok.1 hh
                simp only [Res.ok.injEq, Prod.mk.injEq, reduceCtorEq, false_and, ToolOut.failed.injEq] at hh
              obtain ⟨rfl, rfl⟩ := hh
              obtain ⟨s2, h9, h10⟩ := h5.setData h8
              rw [h9]
              exact ⟨_, _, rfl, h2, rfl, _, h10, by omega, by omega, fun hn => absurd ho hn⟩
            · rw [if_neg c2] at h
              simp [unitOut] at h

theorem licenseHeap_spec {m : Nat → Bool} {t t' : Tool} {arg : Bytes} {loc : ErrLoc} {s : Mem} {h0 : Heap}
    {r : ToolOut (Option FileContents)} (o : Holding h0 loc s [] 0)
    (h : unitOut (toolLicense m t arg loc) = .ok (r, t')) :
    CallSpec m t t' loc h0 r (licenseHeap m t arg s) (least m) := by
  simp only [toolLicense, licenseHeap] at h ⊢
  cases hs : t.sendString m .license arg with
  | ub u => simp [hs, unitOut] at h
  | ok x =>
    obtain ⟨sent, t1⟩ := x
    have hi := toolSend_inn hs
    obtain ⟨h', h1, o⟩ := sendHeap_spec m arg o
    rw [hs] at h
    simp only [Res.bind_ok, h1] at h ⊢
    cases sent with
    | false =>
      simp only [unitOut, Res.ok.injEq, Prod.mk.injEq] at h
      obtain ⟨rfl, rfl⟩ := h
      exact ⟨_, _, rfl, by rw [hi], rfl⟩
    | true =>
      dsimp only at h
      simp only [if_true]
      cases hx : expectCommands m t1 .yes [.notSimple, .no] loc with
      | ub u => simp [hx, unitOut] at h
      | ok x =>
        obtain ⟨x, t2⟩ := x
        rw [hx] at h
        obtain ⟨g, s1, h1, h2, h3⟩ := expectsHeap_spec o hx
        rw [h1]
        rw [hi] at h2 h3
        simp only [Res.bind_ok] at h ⊢
        cases x with
        | blocked =>
          simp only [unitOut, Res.ok.injEq, Prod.mk.injEq] at h
          obtain ⟨rfl, rfl⟩ := h
          obtain rfl : g = .blocked := h3
          exact ⟨_, _, rfl, h2, rfl⟩
        | failed l =>
          simp only [unitOut, Res.ok.injEq, Prod.mk.injEq] at h
          obtain ⟨rfl, rfl⟩ := h
          obtain ⟨rfl, h3⟩ := h3
          exact ⟨_, _, rfl, h2, rfl, h3⟩
        | success cmd l =>
          obtain ⟨data, bl, lost, rfl, h4, h5, h6, h7, h7', ho⟩ := h3
          have h5 := h5.loseData h4
          dsimp only at h ⊢
          by_cases c1 : cmd.id = .yes
          · rw [if_pos c1] at h ⊢
            simp only [unitOut, Res.ok.injEq, Prod.mk.injEq] at h
            obtain ⟨rfl, rfl⟩ := h
            have hbl : bl = [] := h4.2.2 (by rw [c1]; decide)
            exact ⟨_, _, rfl, h2, rfl, _, h5, by omega, by simpa [hbl] using h7⟩
          · rw [if_neg c1] at h ⊢
            by_cases c3 : cmd.id = .notSimple
            · rw [if_pos c3] at h ⊢
              rcases unitOut_ok h with ⟨hh, -⟩ | ⟨l', hh, rfl⟩ | ⟨l', hh, -⟩
              all_goals
                obtain ⟨l2, h8, hh⟩ := Res.bind_eq_ok.1 hh
                simp only [Res.ok.injEq, Prod.mk.injEq, reduceCtorEq, false_and, ToolOut.failed.injEq] at hh
              obtain ⟨rfl, rfl⟩ := hh
              obtain ⟨s2, h9, h10⟩ := h5.setLiteral h8
              rw [h9]
              exact ⟨_, _, rfl, h2, rfl, _, h10, by omega, by omega, fun hn => absurd ho hn⟩
            · rw [if_neg c3] at h ⊢
              by_cases c2 : cmd.id = .no
              · rw [if_pos c2] at h ⊢
                rcases unitOut_ok h with ⟨hh, -⟩ | ⟨l', hh, rfl⟩ | ⟨l', hh, -⟩
                all_goals
                  obtain ⟨l2, h8, hh⟩ := Res.bind_eq_ok.1 hh
                  simp only [Res.ok.injEq, Prod.mk.injEq, reduceCtorEq, false_and, ToolOut.failed.injEq] at hh
                obtain ⟨rfl, rfl⟩ := hh
                obtain ⟨s2, h9, h10⟩ := h5.setData h8
                rw [h9]
                exact ⟨_, _, rfl, h2, rfl, _, h10, by omega, by omega, fun hn => absurd ho hn⟩
              · rw [if_neg c2] at h
                simp [unitOut] at h

theorem fileHeap_spec {m : Nat → Bool} {t t' : Tool} {arg : Bytes} {loc : ErrLoc} {s : Mem} {h0 : Heap}
    {r : ToolOut (Option FileContents)} (o : Holding h0 loc s [] 0)
    (h : valueCall m t loc (.file arg) = .ok (r, t')) :
    CallSpec m t t' loc h0 r (fileHeap m t arg s) (least m) := by
  simp only [valueCall, toolFile, fileHeap] at h ⊢
  cases hs : t.sendString m .file arg with
  | ub u => simp [hs] at h
  | ok x =>
    obtain ⟨sent, t1⟩ := x
    have hi := toolSend_inn hs
    obtain ⟨h', h1, o⟩ := sendHeap_spec m arg o
    rw [hs] at h
    simp only [Res.bind_ok, h1] at h ⊢
    cases sent with
    | false =>
      simp only [Res.ok.injEq, Prod.mk.injEq] at h
      obtain ⟨rfl, rfl⟩ := h
      exact ⟨_, _, rfl, by rw [hi], rfl⟩
    | true =>
      dsimp only at h
      simp only [if_true]
      cases hx : expectCommand m t1 .fileCont loc with
      | ub u => simp [hx] at h
      | ok x =>
        obtain ⟨x, t2⟩ := x
        rw [hx] at h
        obtain ⟨g, s1, h1, h2, h3, hid⟩ := expectHeap_spec o hx
        rw [h1]
        rw [hi] at h2 h3
        simp only [Res.bind_ok] at h ⊢
        cases x with
        | blocked =>
          simp only [Res.ok.injEq, Prod.mk.injEq] at h
          obtain ⟨rfl, rfl⟩ := h
          obtain rfl : g = .blocked := h3
          exact ⟨_, _, rfl, h2, rfl⟩
        | failed l =>
          simp only [Res.ok.injEq, Prod.mk.injEq] at h
          obtain ⟨rfl, rfl⟩ := h
          obtain ⟨rfl, h3⟩ := h3
          exact ⟨_, _, rfl, h2, rfl, h3⟩
        | success cmd l =>
          obtain ⟨data, bl, lost, rfl, h4, h5, h6, h7, h7', ho⟩ := h3
          dsimp only at h ⊢
          cases hm : m fileContentsSize with
          | true =>
            simp only [hm, if_true, Res.ok.injEq, Prod.mk.injEq, Heap.alloc] at h ⊢
            obtain ⟨rfl, rfl⟩ := h
            refine ⟨_, _, rfl, h2, _, data, bl, fileContentsSize, lost, rfl, ?_, h4.1, ?_, h6, by omega⟩
            · exact h4.2.1 (by rw [hid cmd l rfl]; decide)
            · have := h5.alloc fileContentsSize
              simpa using this
          | false =>
            simp only [hm, Bool.false_eq_true, if_false] at h ⊢
            have h5 := h5.loseData h4
            cases he : errorSetLiteral m l 1 1 (some b!"Out of memory.") with
            | ub u => simp [he] at h
            | ok l' =>
              rw [he] at h
              simp only [Res.bind_ok, Res.ok.injEq, Prod.mk.injEq] at h
              obtain ⟨rfl, rfl⟩ := h
              obtain ⟨s2, h9, h10⟩ := h5.setLiteral he
              rw [h9]
              exact ⟨_, _, rfl, h2, rfl, _, h10, by omega, by omega, fun hn => absurd ho hn⟩

/-- Every call. -/
theorem callHeap_spec {m : Nat → Bool} {t t' : Tool} {loc : ErrLoc} {s : Mem} {h0 : Heap} {k : ToolCall}
    {r : ToolOut (Option FileContents)} (o : Holding h0 loc s [] 0) (h : valueCall m t loc k = .ok (r, t')) :
    CallSpec m t t' loc h0 r (callHeap m t s k) (least m) ∨
      (CallSpec m t t' loc h0 r (callHeap m t s k) 0 ∧ (∃ l, r = .failed l) ∧ ∃ a b, k = .version a b) := by
  cases k with
  | version a b =>
    rcases versionHeap_spec o h with h | ⟨h1, h2⟩
    · exact .inl h
    · exact .inr ⟨h1, h2, a, b, rfl⟩
  | libpath x => exact .inl (yesHeap_spec o h)
  | feature x => exact .inl (featureHeap_spec o h)
  | returnFeature x => exact .inl (yesHeap_spec o h)
  | license x => exact .inl (licenseHeap_spec o h)
  | returnLicense x => exact .inl (yesHeap_spec o h)
  | file x => exact .inl (fileHeap_spec o h)

/-! ## Behind a call -/

/-- The block of the buffer of a file. -/
def BufferBlock (b : Option Nat) (bl : List (Nat × Nat)) : Prop :=
  (b = none ∧ bl = []) ∨ ∃ q n, b = some q ∧ bl = [(q, n)]

theorem contentsFree_spec {h0 h : Heap} {p k lost : Nat} {b : Option Nat} {bl : List (Nat × Nat)}
    (hb : BufferBlock b bl) (o : Own h0 h ((p, k) :: bl) lost) :
    ∃ h', contentsFree p b h = .ok h' ∧ Own h0 h' [] lost := by
  rcases hb with ⟨rfl, rfl⟩ | ⟨q, n, rfl, rfl⟩
  · obtain ⟨h', h1, h2, -⟩ := o.free
    exact ⟨h', by simpa [contentsFree, Heap.free] using h1, h2⟩
  · obtain ⟨h1, e1, o1, -⟩ := Own.free (o.perm (List.Perm.swap _ _ _))
    obtain ⟨h2, e2, o2, -⟩ := o1.free
    exact ⟨h2, by simp only [contentsFree, e1, e2, Res.bind_ok], o2⟩

theorem readsHeap_spec {h0 : Heap} {p k lost : Nat} : ∀ (ns : List Nat) {h : Heap} {f f' : FileContents}
    {b : Option Nat} {bl : List (Nat × Nat)} {rs : List (Option Bytes)}, BufferBlock b bl →
    (f.buffer.isSome ↔ b.isSome) → Own h0 h ((p, k) :: bl) lost → toolReads f ns = .ok (rs, f') →
    ∃ b' h' bl', readsHeap f b ns h = .ok (f', b', h') ∧ BufferBlock b' bl' ∧ (f'.buffer.isSome ↔ b'.isSome) ∧
      Own h0 h' ((p, k) :: bl') lost := by
  intro ns
  induction ns with
  | nil =>
    intro h f f' b bl rs hb hf o hr
    simp only [toolReads, Res.ok.injEq, Prod.mk.injEq] at hr
    obtain ⟨-, rfl⟩ := hr
    exact ⟨b, h, bl, rfl, hb, hf, o⟩
  | cons n ns ih =>
    intro h f f' b bl rs hb hf o hr
    simp only [toolReads] at hr
    obtain ⟨⟨r1, f1⟩, h1, hr⟩ := Res.bind_eq_ok.1 hr
    obtain ⟨⟨r2, f2⟩, h2, hr⟩ := Res.bind_eq_ok.1 hr
    simp only [Res.ok.injEq, Prod.mk.injEq] at hr
    obtain ⟨-, rfl⟩ := hr
    simp only [readsHeap, readBytesHeap, h1, Res.bind_ok]
    by_cases hc : f.buffer.isSome ∧ f1.buffer = none
    · rw [if_pos hc]
      rcases hb with ⟨rfl, rfl⟩ | ⟨q, n, rfl, rfl⟩
      · simp [hc.1] at hf
      · obtain ⟨h', e1, o1, -⟩ := Own.free (o.perm (List.Perm.swap _ _ _))
        dsimp only at e1
        rw [e1]
        simp only [Res.bind_ok]
        exact ih (.inl ⟨rfl, rfl⟩) (by simp [hc.2]) o1 h2
    · rw [if_neg hc]
      simp only [Res.bind_ok]
      refine ih hb ?_ o h2
      rw [← hf]
      have hnone : f.buffer = none → f1.buffer = none := by
        intro hn
        simp only [toolReadBytes, hn, Res.ok.injEq, Prod.mk.injEq] at h1
        rw [← h1.2]
      constructor
      · intro h3
        cases hf2 : f.buffer with
        | none => simp [hnone hf2] at h3
        | some _ => rfl
      · intro h3
        cases hf2 : f1.buffer with
        | none => exact absurd ⟨h3, hf2⟩ hc
        | some _ => rfl

theorem Holding.same {h0 : Heap} {loc : ErrLoc} {s : Mem} {owned : List (Nat × Nat)} {lost : Nat}
    (o : Holding h0 loc s owned lost) : SameError loc s.error := by
  obtain ⟨bl, h1, -⟩ := o
  rcases h1 with ⟨rfl, h, -⟩ | ⟨rfl, h, -⟩ | ⟨x, p, k, rfl, h1, h, -⟩ | ⟨x, p, k, q, n, rfl, h1, h, -⟩ <;>
    rw [h] <;> simp_all [SameError]

theorem Holding.keeps {h0 : Heap} {loc : ErrLoc} {s : Mem} {owned : List (Nat × Nat)} {lost : Nat}
    (o : Holding h0 loc s owned lost) : ∃ new, s.heap = h0 ++ new := by
  obtain ⟨bl, -, h⟩ := o
  exact h.keeps

theorem noErrorYet {s : Mem} (h : NoErrorYet s.error) : Holding s.heap (slotValue s.error) s [] 0 := by
  refine Holding.start ?_
  rcases h with h | h <;> rw [h]
  · exact .inl ⟨rfl, rfl⟩
  · exact .inr ⟨rfl, rfl⟩

theorem AfterCall.sameEnd {h0 : Heap} {got lo : Nat} {other : Prop} {r : ToolOut (Option FileContents)} {e : CallEnd} {s : Mem}
    (h : AfterCall h0 got lo other r e s) : SameEnd r e s.error ∧ (e ≠ .blocked → ∃ new, s.heap = h0 ++ new) := by
  cases r with
  | blocked =>
    obtain rfl : e = .blocked := h
    exact ⟨trivial, by simp⟩
  | failed l =>
    obtain ⟨rfl, lost, h, -⟩ := h
    exact ⟨h.same, fun _ => h.keeps⟩
  | success f l =>
    cases f with
    | none =>
      obtain ⟨rfl, lost, h, -⟩ := h
      exact ⟨h.same, fun _ => h.keeps⟩
    | some f =>
      obtain ⟨p, b, bl, k, lost, rfl, h1, -, h, -⟩ := h
      exact ⟨⟨rfl, Bool.eq_iff_iff.mpr h1, h.same⟩, fun _ => h.keeps⟩

theorem AfterCall.release {h0 : Heap} {got lo : Nat} {other : Prop} {r : ToolOut (Option FileContents)} {e : CallEnd} {s : Mem}
    (h : AfterCall h0 got lo other r e s) (he : e ≠ .blocked) :
    ∃ h' lost, Spec.release e s = .ok h' ∧ KeepsAnd h0 h' lost ∧ lo ≤ lost ∧ lost ≤ 16400 + 2 * got ∧
      (e ≠ .failed ∨ ¬ other → lost ≤ 16400 + got) := by
  have fin : ∀ {h' : Heap} {lost : Nat}, Own h0 h' [] lost → KeepsAnd h0 h' lost := by
    intro h' lost o
    exact ⟨o.keeps, by simpa using o.sum⟩
  cases r with
  | blocked => exact absurd h he
  | failed l =>
    obtain ⟨rfl, lost, h, h1, h2, h5⟩ := h
    obtain ⟨s', h3, h4⟩ := h.freeError
    exact ⟨s'.heap, lost, by simp [Spec.release, h3], fin h4, h1, h2, fun hn => h5 (hn.resolve_left (by simp))⟩
  | success f l =>
    cases f with
    | none =>
      obtain ⟨rfl, lost, h, h1, h2⟩ := h
      obtain ⟨s', h3, h4⟩ := h.freeError
      exact ⟨s'.heap, lost, by simp [Spec.release, h3], fin h4, h1, by omega, fun _ => h2⟩
    | some f =>
      obtain ⟨p, b, bl, k, lost, rfl, hf, hb, h, h1, h2⟩ := h
      obtain ⟨s', h3, h4⟩ := h.freeError
      obtain ⟨h', h5, h6⟩ := contentsFree_spec hb h4
      exact ⟨h', lost, by simp [Spec.release, h3, h5], fin h6, h1, by omega, fun _ => h2⟩

end Semla
