import Verif.Spec.LveHeap
import Verif.Lemmas.ToolHeap
import Verif.Lemmas.LveCases
import Verif.Lemmas.LveInv

/-!
# Lemmas about memory of the vendor executable
-/

namespace Semla

open Semla.Spec

/-- The live blocks of a heap and their sizes. -/
structure Blocks (h : Heap) (bl : List (Nat × Nat)) : Prop where
  nodup : (bl.map (·.1)).Nodup
  live : ∀ a n, h[a]? = some (some n) ↔ (a, n) ∈ bl

theorem Blocks.start : Blocks [] [] := ⟨by simp, by simp⟩

theorem Blocks.perm {h : Heap} {a b : List (Nat × Nat)} (o : Blocks h a) (hp : a.Perm b) : Blocks h b :=
  ⟨(hp.map _).nodup_iff.mp o.nodup, fun x n => (o.live x n).trans hp.mem_iff⟩

theorem Blocks.lt {h : Heap} {bl : List (Nat × Nat)} (o : Blocks h bl) {a n : Nat} (hm : (a, n) ∈ bl) :
    a < h.length := by
  have := (o.live a n).mpr hm
  rw [List.getElem?_eq_some_iff] at this
  exact this.1

theorem Blocks.alloc {h : Heap} {bl : List (Nat × Nat)} (o : Blocks h bl) (n : Nat) :
    Blocks (h ++ [some n]) ((h.length, n) :: bl) := by
  constructor
  · simp only [List.map_cons, List.nodup_cons]
    refine ⟨fun hm => ?_, o.nodup⟩
    obtain ⟨⟨a, k⟩, hx, he⟩ := List.mem_map.mp hm
    have := o.lt hx
    simp only at he
    omega
  · intro a k
    by_cases ha : a < h.length
    · rw [List.getElem?_append_left ha, o.live]
      simp only [List.mem_cons, Prod.mk.injEq]
      exact ⟨.inr, fun h => h.resolve_left (by omega)⟩
    · by_cases he : a = h.length
      · subst he
        simp only [List.getElem?_concat_length, List.mem_cons, Prod.mk.injEq, Option.some.injEq, true_and]
        exact ⟨fun h => .inl h.symm, fun hh => hh.elim Eq.symm fun hm => absurd (o.lt hm) (by omega)⟩
      · rw [List.getElem?_eq_none (by simp; omega)]
        simp only [reduceCtorEq, false_iff, List.mem_cons, Prod.mk.injEq]
        rintro (⟨h1, -⟩ | hm)
        · exact he h1
        · exact ha (o.lt hm)

theorem Blocks.freed {h : Heap} {bl : List (Nat × Nat)} (o : Blocks h bl) (k : Nat) :
    Blocks (h ++ List.replicate k none) bl := by
  refine ⟨o.nodup, fun a n => ?_⟩
  rw [← o.live a n]
  by_cases ha : a < h.length
  · rw [List.getElem?_append_left ha]
  · rw [List.getElem?_append_right (by omega), List.getElem?_eq_none (l := h) (by omega)]
    rw [List.getElem?_replicate]
    split <;> simp

theorem Blocks.free {h : Heap} {x : Nat × Nat} {bl : List (Nat × Nat)} (o : Blocks h (x :: bl)) :
    ∃ h', h.free (some x.1) = .ok h' ∧ Blocks h' bl := by
  have hl := (o.live x.1 x.2).mpr (by simp)
  have hnd := o.nodup
  simp only [List.map_cons, List.nodup_cons] at hnd
  refine ⟨h.set x.1 none, by simp [Heap.free, hl], hnd.2, fun a n => ?_⟩
  by_cases ha : x.1 = a
  · subst ha
    rw [List.getElem?_set]
    have : x.1 < h.length := by
      rw [List.getElem?_eq_some_iff] at hl
      exact hl.1
    simp only [this, if_true, Option.some.injEq, reduceCtorEq, false_iff]
    exact fun hm => hnd.1 (List.mem_map.mpr ⟨_, hm, rfl⟩)
  · rw [List.getElem?_set_ne ha, o.live]
    simp only [List.mem_cons]
    exact ⟨fun hh => hh.resolve_left fun he => ha (by rw [← he]), .inr⟩

/-- A block that is freed later, or none. -/
def OptBlock (p : Option Nat) (bl : List (Nat × Nat)) : Prop :=
  (p = none ∧ bl = []) ∨ ∃ a n, p = some a ∧ bl = [(a, n)]

theorem OptBlock.none : OptBlock none [] := .inl ⟨rfl, rfl⟩
theorem OptBlock.some (a n : Nat) : OptBlock (some a) [(a, n)] := .inr ⟨a, n, rfl, rfl⟩

/-- The blocks of an error object. -/
def ErrBlocks (e : Option (Nat × Option Nat)) (bl : List (Nat × Nat)) : Prop :=
  (e = none ∧ bl = []) ∨ ∃ p q k ql, e = some (p, q) ∧ OptBlock q ql ∧ bl = ql ++ [(p, k)]

theorem ErrBlocks.none : ErrBlocks none [] := .inl ⟨rfl, rfl⟩

/-! ## One step on memory -/

theorem LveMem.free_some {s : LveMem} {x : Nat × Nat} {bl : List (Nat × Nat)} (o : Blocks s.heap (x :: bl)) :
    ∃ h', s.free (some x.1) = .ok { s with heap := h' } ∧ Blocks h' bl := by
  obtain ⟨h', h1, h2⟩ := o.free
  exact ⟨h', by simp [LveMem.free, h1], h2⟩

theorem LveMem.free_opt {s : LveMem} {p : Option Nat} {pb bl : List (Nat × Nat)} (hp : OptBlock p pb)
    (o : Blocks s.heap (pb ++ bl)) : ∃ h', s.free p = .ok { s with heap := h' } ∧ Blocks h' bl := by
  rcases hp with ⟨rfl, rfl⟩ | ⟨a, n, rfl, rfl⟩
  · exact ⟨s.heap, by simp [LveMem.free, Heap.free], o⟩
  · exact LveMem.free_some o

theorem LveMem.free_err {s : LveMem} {e : Option (Nat × Option Nat)} {eb bl : List (Nat × Nat)} (he : ErrBlocks e eb)
    (o : Blocks s.heap (eb ++ bl)) : ∃ h', s.freeErr e = .ok { s with heap := h' } ∧ Blocks h' bl := by
  rcases he with ⟨rfl, rfl⟩ | ⟨p, q, k, ql, rfl, hq, rfl⟩
  · exact ⟨s.heap, rfl, o⟩
  · rw [List.append_assoc] at o
    obtain ⟨h1, e1, o1⟩ := LveMem.free_opt hq o
    obtain ⟨h2, e2, o2⟩ := LveMem.free_some (s := { s with heap := h1 }) (x := (p, k)) o1
    exact ⟨h2, by simp only [LveMem.freeErr, e1, Res.bind_ok]; exact e2, o2⟩

theorem LveMem.newErr_spec {w : World} {s : LveMem} {bl : List (Nat × Nat)} (o : Blocks s.heap bl) :
    ∃ e h' eb, s.newErr w = (e, { s with heap := h' }) ∧ ErrBlocks e eb ∧ Blocks h' (eb ++ bl) := by
  simp only [LveMem.newErr, newError]
  cases w.malloc errStructSize with
  | false => exact ⟨_, _, [], rfl, .none, o⟩
  | true =>
    simp only [if_true, Heap.alloc]
    cases w.malloc defaultMsgSize with
    | false => exact ⟨_, _, _, rfl, .inr ⟨_, _, _, _, rfl, .none, rfl⟩, by simpa using o.alloc errStructSize⟩
    | true =>
      exact ⟨_, _, _, rfl, .inr ⟨_, _, _, _, rfl, .some _ _, rfl⟩, by
        simpa using (o.alloc errStructSize).alloc defaultMsgSize⟩

theorem LveMem.managerErr_spec {s : LveMem} {n : Nat} {bl : List (Nat × Nat)} (o : Blocks s.heap bl) :
    ∃ e h' eb, s.managerErr n = (e, { s with heap := h' }) ∧ ErrBlocks e eb ∧ Blocks h' (eb ++ bl) := by
  refine ⟨_, _, _, rfl, .inr ⟨_, _, errStructSize, _, rfl, .some _ (n + 1), rfl⟩, ?_⟩
  simpa [LveMem.alloc] using (o.alloc errStructSize).alloc (n + 1)

theorem answerHeap_spec {a : LicAnswer} {s : LveMem} {bl : List (Nat × Nat)} (o : Blocks s.heap bl) :
    ∃ e h' eb, answerHeap a s = (e, { s with heap := h' }) ∧ ErrBlocks e eb ∧ Blocks h' (eb ++ bl) ∧
      (a = .success → e = none ∧ h' = s.heap ∧ eb = []) := by
  unfold answerHeap
  split
  · obtain ⟨e, h', eb, h1, h2, h3⟩ := LveMem.managerErr_spec o
    exact ⟨e, h', eb, h1, h2, h3, by simp⟩
  · exact ⟨_, _, [], rfl, .none, o, fun _ => ⟨rfl, rfl, rfl⟩⟩

/-- A block that is allocated and freed again at once. -/
theorem LveMem.scratch {s : LveMem} {n : Nat} {bl : List (Nat × Nat)} (o : Blocks s.heap bl) :
    ∃ h', (s.alloc n).2.free (some (s.alloc n).1) = .ok { s with heap := h' } ∧ Blocks h' bl := by
  obtain ⟨h', h1, h2⟩ := LveMem.free_some (s := (s.alloc n).2) (x := (s.heap.length, n)) (o.alloc n)
  exact ⟨h', h1, h2⟩

theorem sendLengthHeap_spec {w : World} {n : Nat} {s : LveMem} {bl : List (Nat × Nat)} (o : Blocks s.heap bl) :
    ∃ h', sendLengthHeap w n s = .ok { s with heap := h' } ∧ Blocks h' bl := by
  unfold sendLengthHeap
  dsimp only
  split
  · exact LveMem.scratch o
  · exact ⟨s.heap, rfl, o⟩

theorem sendErrorHeap_spec {w : World} {m : Bytes} {s : LveMem} {bl : List (Nat × Nat)} (o : Blocks s.heap bl) :
    ∃ h', sendErrorHeap w m s = .ok { s with heap := h' } ∧ Blocks h' bl := by
  unfold sendErrorHeap
  dsimp only
  split
  · exact LveMem.scratch o
  · exact ⟨s.heap, rfl, o⟩

theorem fileErrorHeap_spec {w : World} {m : Option Bytes} {s : LveMem} {bl : List (Nat × Nat)} (o : Blocks s.heap bl) :
    ∃ h', fileErrorHeap w m s = .ok { s with heap := h' } ∧ Blocks h' bl := by
  unfold fileErrorHeap
  split
  · exact ⟨s.heap, rfl, o⟩
  · exact sendErrorHeap_spec o

theorem readFileHeap_spec {w : World} {path : Bytes} {s : LveMem} {bl : List (Nat × Nat)} (o : Blocks s.heap bl) :
    ∃ p e h' n pb eb, readFileHeap w path s = .ok (p, e, { s with heap := h', streams := n }) ∧ OptBlock p pb ∧
      ErrBlocks e eb ∧ Blocks h' (pb ++ (eb ++ bl)) ∧ (Roomy w → n = s.streams) := by
  unfold readFileHeap
  split
  · obtain ⟨e, h', eb, h1, h2, h3⟩ := LveMem.newErr_spec (w := w) o
    exact ⟨none, e, h', s.streams, [], eb, by simp [h1], .none, h2, h3, fun _ => rfl⟩
  · obtain ⟨e, h', eb, h1, h2, h3⟩ := LveMem.newErr_spec (w := w) o
    exact ⟨none, e, h', s.streams, [], eb, by simp [h1], .none, h2, h3, fun _ => rfl⟩
  · rename_i why hf
    obtain ⟨e, h', eb, h1, h2, h3⟩ := LveMem.newErr_spec (w := w) (s := { s with streams := s.streams + 1 }) o
    exact ⟨none, e, h', s.streams + 1, [], eb, by simp [h1], .none, h2, h3, fun hr => absurd hf (hr.2 _ _).1⟩
  · rename_i size bytes ioError hf
    dsimp only
    by_cases hm : w.malloc (size + 1) = true
    · rw [if_pos hm]
      dsimp only [LveMem.alloc]
      have o1 := o.alloc (size + 1)
      by_cases hio : (bytes.take size).length < size ∧ ioError.isSome
      · rw [if_pos hio]
        obtain ⟨e, h', eb, h1, h2, h3⟩ := LveMem.newErr_spec (w := w)
          (s := { s with heap := s.heap ++ [some (size + 1)], streams := s.streams + 1 }) o1
        rw [h1]
        dsimp only
        obtain ⟨h4, h5, h6⟩ := LveMem.free_some (s := { s with heap := h', streams := s.streams + 1 })
          (x := (s.heap.length, size + 1)) (h3.perm List.perm_middle)
        rw [h5]
        exact ⟨none, e, h4, s.streams, [], eb, by simp, .none, h2, h6, fun _ => rfl⟩
      · rw [if_neg hio]
        exact ⟨_, none, _, s.streams, _, [], by simp, .some _ (size + 1), .none, o1, fun _ => rfl⟩
    · rw [if_neg hm]
      obtain ⟨e, h', eb, h1, h2, h3⟩ := LveMem.newErr_spec (w := w) (s := { s with streams := s.streams + 1 }) o
      exact ⟨none, e, h', s.streams + 1, [], eb, by simp [h1], .none, h2, h3, fun hr => absurd (hr.1 _) hm⟩

/-! ## Decryption -/

/-- Memory afterwards differs by entries of the table of key masks. -/
structure Grown (w : World) (bl : List (Nat × Nat)) (t t' : MaskTable) (s s' : LveMem) (new : List (Nat × Nat)) :
    Prop where
  table : ∃ more, t' = t ++ more ∧ new.map (·.2) = more.map fun d => 104 + d.1.length + 1
  masks : s'.masks = s.masks ++ new.map (·.1)
  libpath : s'.libpath = s.libpath
  context : s'.context = s.context
  text : s'.text = s.text
  blocks : Blocks s'.heap (new ++ bl)
  streams : Roomy w → s'.streams = s.streams

theorem Grown.refl {w : World} {bl : List (Nat × Nat)} {t : MaskTable} {s s' : LveMem} (o : Blocks s'.heap bl)
    (h : s' = { s with heap := s'.heap, streams := s'.streams }) (hs : Roomy w → s'.streams = s.streams) :
    Grown w bl t t s s' [] := by
  obtain ⟨a, b, c, d, e, f⟩ := s'
  simp only [LveMem.mk.injEq, true_and] at h
  obtain ⟨h1, h2, h3, h4⟩ := h
  exact ⟨⟨[], by simp⟩, by simp [h3], h1, h2, h4, o, hs⟩

theorem Grown.trans {w : World} {bl bl' : List (Nat × Nat)} {t t' t'' : MaskTable} {s s' s'' : LveMem}
    {n1 n2 : List (Nat × Nat)} (a : Grown w bl t t' s s' n1) (b : Grown w bl' t' t'' s' s'' n2) {bl2 : List (Nat × Nat)}
    (hb : Blocks s''.heap (n1 ++ n2 ++ bl2)) : Grown w bl2 t t'' s s'' (n1 ++ n2) := by
  obtain ⟨m1, e1, f1⟩ := a.table
  obtain ⟨m2, e2, f2⟩ := b.table
  exact ⟨⟨m1 ++ m2, by rw [e2, e1]; simp, by simp [f1, f2]⟩, by rw [b.masks, a.masks]; simp,
    b.libpath.trans a.libpath, b.context.trans a.context, b.text.trans a.text, hb,
    fun hr => (b.streams hr).trans (a.streams hr)⟩

theorem Grown.heap {w : World} {bl bl' : List (Nat × Nat)} {t t' : MaskTable} {s s' : LveMem} {new : List (Nat × Nat)}
    (a : Grown w bl t t' s s' new) {h : Heap} (o : Blocks h (new ++ bl')) :
    Grown w bl' t t' s { s' with heap := h } new :=
  ⟨a.table, a.masks, a.libpath, a.context, a.text, o, a.streams⟩

/-- The start may have been somewhere else. -/
theorem Grown.before {w : World} {bl : List (Nat × Nat)} {t t' : MaskTable} {s s0 s' : LveMem} {new : List (Nat × Nat)}
    (a : Grown w bl t t' s s' new) {h : Heap} {n : Nat} (hs : s = { s0 with heap := h, streams := n })
    (hn : Roomy w → n = s0.streams) : Grown w bl t t' s0 s' new := by
  subst hs
  exact ⟨a.table, a.masks, a.libpath, a.context, a.text, a.blocks, fun hr => (a.streams hr).trans (hn hr)⟩

theorem decryptTail_table {e : CrEnv} {t t' : MaskTable} {p key content out : Bytes} {flag n : Int}
    (h : decryptTail e t p key flag content = .ok (t', n, out)) :
    (¬ (0 ≤ n ∧ flag ≠ 0) ∧ t' = t) ∨ (0 ≤ n ∧ flag ≠ 0 ∧ ∃ m, storeKeymask t p m = .ok t') := by
  unfold decryptTail at h
  split at h
  · simp at h
  · dsimp only at h
    split at h
    · simp only [Res.ok.injEq, Prod.mk.injEq] at h
      obtain ⟨rfl, rfl, rfl⟩ := h
      exact .inl ⟨by omega, rfl⟩
    · split at h
      · simp only [Res.ok.injEq, Prod.mk.injEq] at h
        obtain ⟨rfl, rfl, rfl⟩ := h
        exact .inl ⟨by omega, rfl⟩
      · split at h
        · rename_i hf
          split at h
          · simp at h
          · obtain ⟨t1, h1, h2⟩ := Res.bind_eq_ok.1 h
            simp only [Res.ok.injEq, Prod.mk.injEq] at h2
            obtain ⟨rfl, rfl, rfl⟩ := h2
            exact .inr ⟨by omega, hf, _, h1⟩
        · rename_i hf
          simp only [Res.ok.injEq, Prod.mk.injEq] at h
          exact .inl ⟨fun hh => hf hh.2, h.1.symm⟩

theorem storeHeap_spec {w : World} {t t' : MaskTable} {p m : Bytes} {s : LveMem} {bl : List (Nat × Nat)}
    (o : Blocks s.heap bl) (h : storeKeymask t p m = .ok t') :
    ∃ new, Grown w bl t t' s (storeHeap t p s) new := by
  unfold storeKeymask at h
  split at h
  · simp at h
  · dsimp only at h
    split at h
    · simp at h
    · unfold storeHeap
      dsimp only
      split at h
      · rename_i x hx
        simp only [Res.ok.injEq] at h
        subst h
        rw [hx]
        exact ⟨[], .refl o rfl fun _ => rfl⟩
      · rename_i hx
        simp only [Res.ok.injEq] at h
        subst h
        rw [hx]
        generalize (if p.length = 11 ∨ p.length - 12 = 0 then b!"/" else p.take (p.length - 12)) = d at *
        exact ⟨[(s.heap.length, 104 + d.length + 1)], ⟨_, rfl, by simp⟩, rfl, rfl, rfl, rfl, by
          simpa [LveMem.alloc, maskItemSize] using o.alloc _, fun _ => rfl⟩

theorem decryptTailHeap_spec {w : World} {e : CrEnv} {t t' : MaskTable} {p key content out : Bytes} {flag n : Int}
    {s : LveMem} {bl : List (Nat × Nat)} (o : Blocks s.heap bl)
    (h : decryptTail e t p key flag content = .ok (t', n, out)) :
    ∃ s' new, decryptTailHeap e t p key flag content s = .ok s' ∧ Grown w bl t t' s s' new := by
  simp only [decryptTailHeap, h, Res.bind_ok]
  have o1 : Blocks (s.alloc 32).2.heap ((s.heap.length, 32) :: bl) := o.alloc 32
  rcases decryptTail_table h with ⟨h1, rfl⟩ | ⟨h1, h2, m, h3⟩
  · rw [if_neg h1]
    obtain ⟨h', h4, h5⟩ := LveMem.free_some (s := (s.alloc 32).2) o1
    exact ⟨_, [], h4, .refl h5 rfl fun _ => rfl⟩
  · rw [if_pos ⟨h1, h2⟩]
    obtain ⟨new, g⟩ := storeHeap_spec (w := w) o1 h3
    obtain ⟨h', h4, h5⟩ := LveMem.free_some (g.blocks.perm List.perm_middle)
    exact ⟨_, new, h4, (g.heap h5).before rfl fun _ => rfl⟩

theorem demaskHeap_spec {e : CrEnv} {w : World} : ∀ (fuel : Nat) {t : MaskTable} {p key : Bytes}
    {r : MaskTable × Bytes × Int} {s : LveMem} {bl : List (Nat × Nat)}, Blocks s.heap bl →
    demaskKey e fuel t p key = .ok r →
    ∃ s' new, demaskHeap e w fuel t p key s = .ok (r, s') ∧ Grown w bl t r.1 s s' new := by
  intro fuel
  induction fuel with
  | zero => intro t p key r s bl o h; simp [demaskKey] at h
  | succ fuel ih =>
    intro t p key r s bl o h
    simp only [demaskKey, demaskHeap] at h ⊢
    split at h
    · rename_i hp
      rw [if_pos hp]
      split at h
      · rename_i h0
        rw [if_pos h0]
        simp only [Res.ok.injEq] at h
        subst h
        exact ⟨s, [], rfl, .refl o rfl fun _ => rfl⟩
      · rename_i h0
        rw [if_neg h0]
        obtain ⟨⟨t1, k1, r1⟩, h1, h2⟩ := Res.bind_eq_ok.1 h
        simp only [Res.ok.injEq] at h2
        subst h2
        obtain ⟨s', new, h3, h4⟩ := ih o h1
        exact ⟨s', new, by simp [h3], h4⟩
    · rename_i hp
      rw [if_neg hp]
      split at h
      · rename_i m hm
        rw [hm]
        simp only [Res.ok.injEq] at h
        subst h
        exact ⟨s, [], rfl, .refl o rfl fun _ => rfl⟩
      · rename_i hm
        rw [hm]
        dsimp only
        split at h
        · simp at h
        · rename_i hl
          rw [if_neg hl]
          generalize (if lastSlash p = 0 then b!"package.moc" else p.take (lastSlash p) ++ b!"/package.moc") = q at h ⊢
          generalize snprintf longFileNameMax (e.basedir ++ b!"/" ++ q) = full at h ⊢
          obtain ⟨pf, err, h1, n1, pb, eb, e1, e2, e3, e4, e5⟩ := readFileHeap_spec (w := w) (path := full) o
          rw [e1]
          simp only [Res.bind_ok]
          cases hr : e.read full with
          | none =>
            rw [hr] at h
            obtain ⟨s2, new, f1, g⟩ := ih (s := { s with heap := h1, streams := n1 }) e4 h
            simp only [f1, Res.bind_ok]
            have o2 : Blocks s2.heap (pb ++ (eb ++ (new ++ bl))) := g.blocks.perm (by
              refine (List.perm_append_comm_assoc new pb (eb ++ bl)).trans (List.Perm.append_left pb ?_)
              exact List.perm_append_comm_assoc new eb bl)
            obtain ⟨h3, f3, o3⟩ := LveMem.free_opt e2 o2
            simp only [f3, Res.bind_ok]
            obtain ⟨h4, f4, o4⟩ := LveMem.free_err (s := { s2 with heap := h3 }) e3 o3
            simp only [f4, Res.bind_ok]
            exact ⟨_, new, rfl, (g.heap o4).before rfl e5⟩
          | some content =>
            rw [hr] at h
            obtain ⟨⟨t1, k1, flag⟩, h2, h⟩ := Res.bind_eq_ok.1 h
            obtain ⟨⟨t2, r2, plain⟩, h3, h⟩ := Res.bind_eq_ok.1 h
            dsimp only at h3 h
            have o1 := e4.alloc content.length
            obtain ⟨s2, new, f1, g⟩ := ih (s := { s with heap := h1 ++ [some content.length], streams := n1 }) o1 h2
            simp only [LveMem.alloc, f1, Res.bind_ok]
            obtain ⟨s3, new2, f2, g2⟩ := decryptTailHeap_spec (w := w) g.blocks h3
            simp only [f2, h3, Res.bind_ok]
            have o2 : Blocks s3.heap (pb ++ ((h1.length, content.length) :: (eb ++ (new ++ new2 ++ bl)))) :=
              g2.blocks.perm (by
                refine (List.perm_append_comm_assoc new2 new _).trans ?_
                rw [← List.append_assoc]
                refine (List.perm_append_comm_assoc (new ++ new2) [(h1.length, content.length)] (pb ++ (eb ++ bl))).trans ?_
                refine ((List.perm_append_comm_assoc (new ++ new2) pb (eb ++ bl)).append_left _).trans ?_
                refine (List.perm_append_comm_assoc [(h1.length, content.length)] pb _).trans (List.Perm.append_left pb ?_)
                exact (List.perm_append_comm_assoc (new ++ new2) eb bl).append_left [(h1.length, content.length)])
            obtain ⟨h4, f3, o3⟩ := LveMem.free_opt e2 o2
            simp only [f3, Res.bind_ok]
            obtain ⟨h5, f4, o4⟩ := LveMem.free_some (s := { s3 with heap := h4 }) o3
            simp only [f4, Res.bind_ok]
            obtain ⟨h6, f5, o5⟩ := LveMem.free_err (s := { s3 with heap := h5 }) e3 o4
            simp only [f5, Res.bind_ok]
            have gg := ((g.trans g2 (bl2 := ((h1.length, content.length) :: (pb ++ (eb ++ bl)))) (g2.blocks.perm (by
              rw [List.append_assoc]
              exact List.perm_append_comm_assoc new2 new _))).heap o5).before (s0 := s) rfl e5
            split at h
            · rename_i h0
              rw [if_pos h0]
              simp only [Res.ok.injEq] at h
              subst h
              exact ⟨_, _, rfl, gg⟩
            · rename_i h0
              rw [if_neg h0]
              simp only [Res.ok.injEq] at h
              subst h
              exact ⟨_, _, rfl, gg⟩

theorem lveDecryptHeap_spec {conf : LveConf} {w : World} {st st' : LveSt} {rel content out : Bytes} {n : Int}
    {s : LveMem} {bl : List (Nat × Nat)} (o : Blocks s.heap bl)
    (h : lveDecrypt conf w st rel content = .ok (st', n, out)) :
    ∃ s' new, lveDecryptHeap conf w st rel content s = .ok s' ∧
      Grown w bl (st.cr.getD []) (st'.cr.getD []) s s' new ∧ (st.cr = none → new = []) ∧
      st'.cr.isSome = st.cr.isSome := by
  unfold lveDecrypt at h
  unfold lveDecryptHeap
  dsimp only
  split at h
  · rename_i t ht
    rw [ht]
    obtain ⟨⟨t1, n1, o1⟩, h1, h2⟩ := Res.bind_eq_ok.1 h
    simp only [Res.ok.injEq, Prod.mk.injEq] at h2
    obtain ⟨rfl, rfl, rfl⟩ := h2
    simp only [crDecrypt] at h1
    obtain ⟨⟨t2, k2, f2⟩, h3, h4⟩ := Res.bind_eq_ok.1 h1
    obtain ⟨s1, new1, e1, g1⟩ := demaskHeap_spec (w := w) _ o h3
    simp only [e1, Res.bind_ok]
    obtain ⟨s2, new2, e2, g2⟩ := decryptTailHeap_spec (w := w) g1.blocks h4
    exact ⟨s2, _, e2, g1.trans g2 (g2.blocks.perm (by
      rw [List.append_assoc]
      exact List.perm_append_comm_assoc new2 new1 _)), by simp, by simp⟩
  · rename_i ht
    rw [ht]
    obtain ⟨⟨n1, o1⟩, h1, h2⟩ := Res.bind_eq_ok.1 h
    simp only [Res.ok.injEq, Prod.mk.injEq] at h2
    obtain ⟨rfl, rfl, rfl⟩ := h2
    simp only [crDecryptNoContext] at h1
    obtain ⟨⟨t2, n2, o2⟩, h3, h4⟩ := Res.bind_eq_ok.1 h1
    obtain ⟨s2, new2, e2, g2⟩ := decryptTailHeap_spec (w := w) o h3
    have ht2 : t2 = [] := by
      rcases decryptTail_table h3 with ⟨-, h⟩ | ⟨-, h, -⟩
      · exact h
      · simp at h
    subst ht2
    obtain ⟨m, hm1, hm2⟩ := g2.table
    simp only [List.nil_append] at hm1
    subst hm1
    have : new2 = [] := by simpa using hm2
    subst this
    exact ⟨s2, [], e2, by rw [ht]; exact g2, fun _ => rfl, by rw [ht]⟩

/-! ## Commands -/

theorem lveFileHeap_spec {conf : LveConf} {w : World} {st st' : LveSt} {cmd : Command} {out : List Bytes} {s : LveMem}
    {bl : List (Nat × Nat)} (o : Blocks s.heap bl) (h : lveFile conf w st cmd = .ok (st', out)) :
    ∃ s' new l, lveFileHeap conf w st cmd s = .ok s' ∧
      Grown w (l ++ bl) (st.cr.getD []) (st'.cr.getD []) s s' new ∧ (st.cr = none → new = []) ∧
      l.length ≤ 1 ∧ (Roomy w → l = []) ∧ (∃ t, st' = { st with cr := t }) ∧ st'.cr.isSome = st.cr.isSome := by
  unfold lveFile at h
  unfold lveFileHeap
  have keep : ∃ t, st = { st with cr := t } := ⟨st.cr, rfl⟩
  by_cases ha : ¬ st.approved = true
  · rw [if_pos ha] at h ⊢
    obtain ⟨out1, h1, h2⟩ := Res.bind_eq_ok.1 h
    simp only [Res.ok.injEq, Prod.mk.injEq] at h2
    obtain ⟨rfl, rfl⟩ := h2
    obtain ⟨h', e1, o1⟩ := fileErrorHeap_spec (w := w) (m := st.toolErrMsg) o
    exact ⟨_, [], [], e1, .refl o1 rfl fun _ => rfl, fun _ => rfl, by simp, fun _ => rfl, keep, rfl⟩
  · rw [if_neg ha] at h ⊢
    dsimp only at h ⊢
    generalize (st.pathSize + cmd.length + 2) % sizeMod = size at h ⊢
    by_cases hm : ¬ w.malloc size = true
    · rw [if_pos hm] at h ⊢
      obtain ⟨out1, h1, h2⟩ := Res.bind_eq_ok.1 h
      simp only [Res.ok.injEq, Prod.mk.injEq] at h2
      obtain ⟨rfl, rfl⟩ := h2
      obtain ⟨h', e1, o1⟩ := fileErrorHeap_spec (w := w) (m := some b!"Couldn't allocate memory") o
      exact ⟨_, [], [], e1, .refl o1 rfl fun _ => rfl, fun _ => rfl, by simp, fun _ => rfl, keep, rfl⟩
    · rw [if_neg hm] at h ⊢
      cases hl : st.libpath with
      | none => rw [hl] at h; simp at h
      | some lib =>
        cases hd : cmd.data with
        | none => rw [hl, hd] at h; simp at h
        | some buf =>
          rw [hl, hd] at h
          dsimp only [LveMem.alloc] at h ⊢
          obtain ⟨rel, h1, h⟩ := Res.bind_eq_ok.1 h
          simp only [h1, Res.bind_ok]
          split at h
          · simp at h
          generalize snprintf size (cstr lib ++ b!"/" ++ rel) = path at h ⊢
          have o1 := o.alloc size
          obtain ⟨pf, err, g1, n1, pb, eb, e1, e2, e3, e4, e5⟩ := readFileHeap_spec (w := w) (path := path)
            (s := { s with heap := s.heap ++ [some size] }) o1
          simp only [e1, Res.bind_ok]
          cases hr : readFile w path with
          | failed er =>
            rw [hr] at h
            obtain ⟨msg, h2, h⟩ := Res.bind_eq_ok.1 h
            obtain ⟨out1, h3, h⟩ := Res.bind_eq_ok.1 h
            simp only [Res.ok.injEq, Prod.mk.injEq] at h
            obtain ⟨rfl, rfl⟩ := h
            simp only [h2, Res.bind_ok]
            obtain ⟨g2, f2, o2⟩ := LveMem.free_opt (s := { s with heap := g1, streams := n1 }) e2 e4
            simp only [f2, Res.bind_ok]
            obtain ⟨g3, f3, o3⟩ := LveMem.free_some (s := { s with heap := g2, streams := n1 })
              (o2.perm List.perm_middle)
            simp only [f3, Res.bind_ok]
            obtain ⟨g4, f4, o4⟩ := fileErrorHeap_spec (w := w) (m := msg) (s := { s with heap := g3, streams := n1 }) o3
            simp only [f4, Res.bind_ok]
            obtain ⟨g5, f5, o5⟩ := LveMem.free_err (s := { s with heap := g4, streams := n1 }) e3 o4
            exact ⟨_, [], [], f5, .refl o5 rfl e5, fun _ => rfl, by simp, fun _ => rfl, hl ▸ keep, trivial⟩
          | contents content =>
            rw [hr] at h
            dsimp only at h ⊢
            by_cases hx : isEncryptedName rel = true
            · rw [if_pos hx] at h ⊢
              by_cases hm2 : ¬ w.malloc (content.length + 1) = true
              · rw [if_pos hm2] at h ⊢
                obtain ⟨out1, h3, h⟩ := Res.bind_eq_ok.1 h
                simp only [Res.ok.injEq, Prod.mk.injEq] at h
                obtain ⟨rfl, rfl⟩ := h
                have hlost : ∃ g l, (if w.malloc (100 + size) = true then
                      ({ s with heap := g1, streams := n1 } : LveMem).alloc (100 + size) |>.2
                    else { s with heap := g1, streams := n1 }) = { s with heap := g, streams := n1 } ∧ l.length ≤ 1 ∧
                    Blocks g (l ++ (pb ++ (eb ++ ((s.heap.length, size) :: bl)))) := by
                  split
                  · exact ⟨_, [_], rfl, by simp, e4.alloc (100 + size)⟩
                  · exact ⟨_, [], rfl, by simp, e4⟩
                obtain ⟨g, l, f1, hl1, o2⟩ := hlost
                simp only [LveMem.alloc] at f1
                simp only [f1]
                obtain ⟨g2, f2, o3⟩ := LveMem.free_opt (s := { s with heap := g, streams := n1 }) e2
                  (o2.perm (List.perm_append_comm_assoc l pb _))
                simp only [f2, Res.bind_ok]
                obtain ⟨g3, f3, o4⟩ := LveMem.free_some (s := { s with heap := g2, streams := n1 })
                  (x := (s.heap.length, size)) (bl := eb ++ (l ++ bl)) (o3.perm (by
                    refine (List.perm_append_comm_assoc l eb _).trans ?_
                    refine (List.Perm.append_left eb List.perm_middle).trans List.perm_middle))
                simp only [f3, Res.bind_ok]
                obtain ⟨g4, f4, o5⟩ := fileErrorHeap_spec (w := w) (m := if w.malloc (100 + size) = true then
                    some (b!"Could not allocate memory to decrypt file " ++ path ++ b!".") else none)
                  (s := { s with heap := g3, streams := n1 }) o4
                simp only [f4, Res.bind_ok]
                obtain ⟨g5, f5, o6⟩ := LveMem.free_err (s := { s with heap := g4, streams := n1 }) e3 o5
                exact ⟨_, [], l, f5, .refl o6 rfl e5, fun _ => rfl, hl1, fun hr => absurd (hr.1 _) hm2, hl ▸ keep, trivial⟩
              · rw [if_neg hm2] at h ⊢
                obtain ⟨⟨st1, n, pl⟩, h3, h⟩ := Res.bind_eq_ok.1 h
                dsimp only at h ⊢
                have o2 := e4.alloc (content.length + 1)
                obtain ⟨s2, new, f1, gr, hnew, hcr⟩ := lveDecryptHeap_spec (conf := conf)
                  (s := { s with heap := g1 ++ [some (content.length + 1)], streams := n1 }) o2 h3
                obtain ⟨t1, rfl⟩ := lveDecrypt_frame h3
                simp only [f1, h3, Res.bind_ok]
                have gb := gr.blocks
                have push : ∀ (x : List (Nat × Nat)) {b : Nat × Nat},
                    (new ++ (b :: (pb ++ (eb ++ (x ++ bl))))).Perm (pb ++ (b :: (x ++ (eb ++ (new ++ bl))))) := by
                  intro x b
                  refine (List.perm_append_comm_assoc new [b] _).trans ?_
                  refine ((List.perm_append_comm_assoc new pb _).append_left [b]).trans ?_
                  refine (List.perm_append_comm_assoc [b] pb _).trans (List.Perm.append_left pb (List.Perm.append_left [b] ?_))
                  refine (List.perm_append_comm_assoc new eb _).trans ?_
                  refine ((List.perm_append_comm_assoc new x bl).append_left eb).trans ?_
                  exact List.perm_append_comm_assoc eb x _
                by_cases hn : n < 0
                · rw [if_pos hn] at h ⊢
                  obtain ⟨out1, h4, h⟩ := Res.bind_eq_ok.1 h
                  simp only [Res.ok.injEq, Prod.mk.injEq] at h
                  obtain ⟨rfl, rfl⟩ := h
                  have hmsg : ∃ msg g ml, (if w.malloc (100 + size) = true then
                        (some s2.heap.length, { s2 with heap := s2.heap ++ [some (100 + size)] })
                      else (none, s2)) = (msg, { s2 with heap := g }) ∧ OptBlock msg ml ∧
                      Blocks g (ml ++ (new ++ ((g1.length, content.length + 1) ::
                        (pb ++ (eb ++ ((s.heap.length, size) :: bl)))))) := by
                    split
                    · exact ⟨_, _, _, rfl, .some _ (100 + size), gb.alloc (100 + size)⟩
                    · exact ⟨_, _, [], rfl, .none, gb⟩
                  obtain ⟨msg, g, ml, f2, hml, o3⟩ := hmsg
                  simp only [f2]
                  obtain ⟨g2, f3, o4⟩ := LveMem.free_opt (s := { s2 with heap := g }) e2 (o3.perm (by
                    refine ((push [(s.heap.length, size)]).append_left ml).trans ?_
                    exact List.perm_append_comm_assoc ml pb _))
                  simp only [f3, Res.bind_ok]
                  obtain ⟨g3, f4, o5⟩ := LveMem.free_some (s := { s2 with heap := g2 })
                    (x := (g1.length, content.length + 1)) (o4.perm List.perm_middle)
                  simp only [f4, Res.bind_ok]
                  obtain ⟨g4, f5, o6⟩ := LveMem.free_some (s := { s2 with heap := g3 })
                    (x := (s.heap.length, size)) (o5.perm List.perm_middle)
                  simp only [f5, Res.bind_ok]
                  obtain ⟨g5, f6, o7⟩ := fileErrorHeap_spec (w := w) (m := if w.malloc (100 + size) = true then
                      some (b!"Failed to decrypt file " ++ path ++ b!", might be corrupted.") else none)
                    (s := { s2 with heap := g4 }) o6
                  simp only [f6, Res.bind_ok]
                  obtain ⟨g6, f7, o8⟩ := LveMem.free_err (s := { s2 with heap := g5 }) e3
                    (o7.perm (List.perm_append_comm_assoc ml eb _))
                  simp only [f7, Res.bind_ok]
                  obtain ⟨g7, f8, o9⟩ := LveMem.free_opt (s := { s2 with heap := g6 }) hml o8
                  exact ⟨_, new, [], f8, (gr.heap o9).before rfl e5, hnew, by simp, fun _ => rfl, ⟨_, by rw [← hl]⟩, hcr⟩
                · rw [if_neg hn] at h ⊢
                  obtain ⟨out1, h4, h⟩ := Res.bind_eq_ok.1 h
                  simp only [Res.ok.injEq, Prod.mk.injEq] at h
                  obtain ⟨rfl, rfl⟩ := h
                  obtain ⟨g, f2, o3⟩ := sendLengthHeap_spec (w := w) (n := n.toNat) gb
                  simp only [f2, Res.bind_ok]
                  obtain ⟨g2, f3, o4⟩ := LveMem.free_opt (s := { s2 with heap := g }) e2 (o3.perm
                    (push [(s.heap.length, size)]))
                  simp only [f3, Res.bind_ok]
                  obtain ⟨g3, f4, o5⟩ := LveMem.free_some (s := { s2 with heap := g2 })
                    (x := (g1.length, content.length + 1)) o4
                  simp only [f4, Res.bind_ok]
                  obtain ⟨g4, f5, o6⟩ := LveMem.free_some (s := { s2 with heap := g3 })
                    (x := (s.heap.length, size)) o5
                  simp only [f5, Res.bind_ok]
                  obtain ⟨g6, f7, o8⟩ := LveMem.free_err (s := { s2 with heap := g4 }) e3 o6
                  exact ⟨_, new, [], f7, (gr.heap o8).before rfl e5, hnew, by simp, fun _ => rfl, ⟨_, by rw [← hl]⟩, hcr⟩
            · rw [if_neg hx] at h ⊢
              obtain ⟨out1, h4, h⟩ := Res.bind_eq_ok.1 h
              simp only [Res.ok.injEq, Prod.mk.injEq] at h
              obtain ⟨rfl, rfl⟩ := h
              obtain ⟨g, f2, o3⟩ := sendLengthHeap_spec (w := w) (n := content.length)
                (s := { s with heap := g1, streams := n1 }) e4
              simp only [f2, Res.bind_ok]
              obtain ⟨g2, f3, o4⟩ := LveMem.free_opt (s := { s with heap := g, streams := n1 }) e2 o3
              simp only [f3, Res.bind_ok]
              obtain ⟨g3, f4, o5⟩ := LveMem.free_some (s := { s with heap := g2, streams := n1 })
                (x := (s.heap.length, size)) (o4.perm List.perm_middle)
              simp only [f4, Res.bind_ok]
              obtain ⟨g4, f5, o6⟩ := LveMem.free_err (s := { s with heap := g3, streams := n1 }) e3 o5
              exact ⟨_, [], [], f5, .refl o6 rfl e5, fun _ => rfl, by simp, fun _ => rfl, hl ▸ keep, trivial⟩

theorem setupHeap_spec {conf : LveConf} {w : World} {st st' : LveSt} {out : List Bytes} {ok : Bool} {s : LveMem}
    {bl : List (Nat × Nat)} (o : Blocks s.heap bl)
    (h : setupLicensingCheckError conf w false st = .ok (st', out, ok)) :
    ∃ h', setupHeap conf w st s = .ok { s with heap := h' } ∧ Blocks h' bl := by
  unfold setupLicensingCheckError at h
  unfold setupHeap
  dsimp only
  rcases ha : setupLicensing conf st with ⟨st1, a⟩
  rw [ha] at h
  dsimp only
  obtain ⟨e, h1, eb, e1, e2, e3, e4⟩ := answerHeap_spec (a := a) o
  rw [e1]
  dsimp only
  rcases a with _ | (_ | m)
  · obtain ⟨rfl, rfl, rfl⟩ := e4 rfl
    exact ⟨_, rfl, o⟩
  · simp at h
  · dsimp only
    obtain ⟨h2, f1, o1⟩ := sendErrorHeap_spec (w := w) (m := m) (s := { s with heap := h1 }) e3
    simp only [f1, Res.bind_ok]
    exact LveMem.free_err (s := { s with heap := h2 }) e2 o1

theorem lveFeatureHeap_spec {conf : LveConf} {w : World} {st st' : LveSt} {cmd : Command} {out : List Bytes}
    {ok : Bool} {s : LveMem} {bl : List (Nat × Nat)} (o : Blocks s.heap bl)
    (h : lveFeature conf w false st cmd = .ok (st', out, ok)) :
    ∃ h', lveFeatureHeap conf w st cmd s = .ok { s with heap := h' } ∧ Blocks h' bl := by
  simp only [lveFeature] at h
  simp only [lveFeatureHeap]
  obtain ⟨⟨st1, out1, ok1⟩, h1, h⟩ := Res.bind_eq_ok.1 h
  obtain ⟨g1, f1, o1⟩ := setupHeap_spec o h1
  simp only [f1, h1, Res.bind_ok] at h ⊢
  by_cases hk : ¬ ok1 = true
  · rw [if_pos hk]
    exact ⟨g1, rfl, o1⟩
  · rw [if_neg hk] at h ⊢
    obtain ⟨f, h2, h⟩ := Res.bind_eq_ok.1 h
    simp only [h2, Res.bind_ok]
    rcases ha : callManager conf st1 (.checkout f) with ⟨st2, a⟩
    rw [ha] at h
    dsimp only
    obtain ⟨e, h1, eb, e1, e2, e3, e4⟩ := answerHeap_spec (a := a) (s := { s with heap := g1 }) o1
    rw [e1]
    dsimp only
    rcases a with _ | (_ | m)
    · obtain ⟨rfl, rfl, rfl⟩ := e4 rfl
      exact ⟨_, rfl, o1⟩
    · simp at h
    · dsimp only
      obtain ⟨h2, f1, o1⟩ := sendLengthHeap_spec (w := w) (n := (cstr m).length) (s := { s with heap := h1 }) e3
      simp only [f1, Res.bind_ok]
      exact LveMem.free_err (s := { s with heap := h2 }) e2 o1

theorem lveReturnFeatureHeap_spec {conf : LveConf} {w : World} {st st' : LveSt} {cmd : Command} {out : List Bytes}
    {s : LveMem} {bl : List (Nat × Nat)} (o : Blocks s.heap bl)
    (h : lveReturnFeature conf w st cmd = .ok (st', out)) :
    ∃ h', lveReturnFeatureHeap conf w st cmd s = .ok { s with heap := h' } ∧ Blocks h' bl := by
  simp only [lveReturnFeature] at h
  simp only [lveReturnFeatureHeap]
  obtain ⟨⟨st1, out1, ok1⟩, h1, h⟩ := Res.bind_eq_ok.1 h
  obtain ⟨g1, f1, o1⟩ := setupHeap_spec o h1
  simp only [f1, h1, Res.bind_ok] at h ⊢
  by_cases hk : ¬ ok1 = true
  · rw [if_pos hk]
    exact ⟨g1, rfl, o1⟩
  · rw [if_neg hk] at h ⊢
    obtain ⟨f, h2, h⟩ := Res.bind_eq_ok.1 h
    simp only [h2, Res.bind_ok]
    rcases ha : callManager conf st1 (.checkin f) with ⟨st2, a⟩
    rw [ha] at h
    dsimp only
    obtain ⟨e, h1, eb, e1, e2, e3, e4⟩ := answerHeap_spec (a := a) (s := { s with heap := g1 }) o1
    rw [e1]
    dsimp only
    rcases a with _ | (_ | m)
    · obtain ⟨rfl, rfl, rfl⟩ := e4 rfl
      exact ⟨_, rfl, o1⟩
    · simp at h
    · dsimp only
      obtain ⟨h2, f1, o1⟩ := sendErrorHeap_spec (w := w) (m := m) (s := { s with heap := h1 }) e3
      simp only [f1, Res.bind_ok]
      exact LveMem.free_err (s := { s with heap := h2 }) e2 o1

/-- Nothing of a library yet. -/
def Fresh (s : LveMem) : Prop := s.libpath = none ∧ s.context = none ∧ s.masks = [] ∧ s.text = none

theorem lveLibpathHeap_spec {conf : LveConf} {w : World} {st st' : LveSt} {cmd : Command} {out : List Bytes}
    {ok : Bool} {s : LveMem} {bl : List (Nat × Nat)} (o : Blocks s.heap bl) (hf : Fresh s)
    (hst : st.libpath = none ∧ st.cr = none)
    (h : lveLibpath conf w false st cmd = .ok (st', out, ok)) :
    ∃ h' lp cx tx lb cb tb, lveLibpathHeap conf w st cmd s = .ok ⟨h', s.streams, lp, cx, [], tx⟩ ∧
      OptBlock lp lb ∧ OptBlock cx cb ∧ OptBlock tx tb ∧ Blocks h' (lb ++ (cb ++ (tb ++ bl))) ∧
      lp.isSome = st'.libpath.isSome ∧ cx.isSome = st'.cr.isSome ∧ st'.cr.getD [] = [] ∧
      (tx.isSome → st'.approved = false) := by
  obtain ⟨hf1, hf2, hf3, hf4⟩ := hf
  obtain ⟨hp, sm, lp, cx, mk, tx⟩ := s
  simp only at hf1 hf2 hf3 hf4 o
  subst hf1 hf2 hf3 hf4
  unfold lveLibpath at h
  unfold lveLibpathHeap
  cases hd : cmd.data with
  | none =>
    rw [hd] at h
    simp only [Res.ok.injEq, Prod.mk.injEq] at h
    obtain ⟨rfl, rfl, rfl⟩ := h
    exact ⟨_, _, _, _, [], [], [], rfl, .none, .none, .none, o, by simp [hst.1], by simp [hst.2], by simp [hst.2], by simp⟩
  | some buf =>
    rw [hd] at h
    dsimp only at h ⊢
    by_cases h0 : cmd.length = 0
    · rw [if_pos h0] at h ⊢
      simp only [Res.ok.injEq, Prod.mk.injEq] at h
      obtain ⟨rfl, rfl, rfl⟩ := h
      exact ⟨_, _, _, _, [], [], [], rfl, .none, .none, .none, o, by simp [hst.1], by simp [hst.2], by simp [hst.2], by simp⟩
    · rw [if_neg h0] at h ⊢
      by_cases hm : ¬ w.malloc ((cmd.length + 1) % sizeMod) = true
      · rw [if_pos hm] at h; simp at h
      · rw [if_neg hm] at h ⊢
        obtain ⟨data, h1, h⟩ := Res.bind_eq_ok.1 h
        simp only [LveMem.alloc, h1, Res.bind_ok]
        generalize trimLoop data data.length = path at h ⊢
        have o1 := o.alloc ((cmd.length + 1) % sizeMod)
        by_cases hm2 : ¬ w.malloc (crContextSize + (cstr path).length) = true
        · rw [if_pos hm2] at h ⊢
          simp only [Res.ok.injEq, Prod.mk.injEq] at h
          obtain ⟨rfl, rfl, rfl⟩ := h
          exact ⟨_, _, _, _, _, [], [], rfl, .some _ _, .none, .none, o1, by simp, by simp, by simp, by simp⟩
        · rw [if_neg hm2] at h ⊢
          have o2 := (o1.alloc (crContextSize + (cstr path).length)).perm (List.Perm.swap _ _ _)
          rcases hg : globalLicense conf { st with libpath := some path, pathSize := path.length, cr := some [] } with
            ⟨st1, a⟩
          rw [hg] at h
          dsimp only
          have hfr : st1.libpath = some path ∧ st1.cr = some [] := by
            rcases global_cases hg with ⟨-, rfl, -⟩ | ⟨m, -, -, -, -, -, rfl⟩ | ⟨g, cs, -, -, -, rfl, -⟩ <;> simp
          obtain ⟨e, g1, eb, e1, e2, e3, e4⟩ := answerHeap_spec (a := a) (s := ⟨hp ++ [some ((cmd.length + 1) % sizeMod)] ++
            [some (crContextSize + (cstr path).length)], sm, some hp.length,
            some (hp ++ [some ((cmd.length + 1) % sizeMod)]).length, [], none⟩) o2
          rw [e1]
          dsimp only
          rcases a with _ | (_ | m)
          · obtain ⟨rfl, rfl, rfl⟩ := e4 rfl
            dsimp only at h ⊢
            rcases hv : validateDirectory w st1 with ⟨st2, b⟩
            rw [hv] at h
            simp only [Res.ok.injEq, Prod.mk.injEq] at h
            obtain ⟨rfl, rfl, rfl⟩ := h
            have hfr2 : st2.libpath = some path ∧ st2.cr = some [] := by
              rcases validateDirectory_cases hv with ⟨-, rfl, -⟩ | ⟨m, -, -, rfl⟩ <;> simpa using hfr
            refine ⟨_, _, _, none, _, _, [], by dsimp only; rw [ite_self], .some _ _, .some _ _, .none, o2, by simp [hfr2.1],
              by simp [hfr2.2], by simp [hfr2.2], by simp⟩
          · simp at h
          · dsimp only at h ⊢
            simp only [Bool.false_eq_true, if_false] at h
            obtain ⟨out1, h2, h⟩ := Res.bind_eq_ok.1 h
            simp only [Res.ok.injEq, Prod.mk.injEq] at h
            obtain ⟨rfl, rfl, rfl⟩ := h
            by_cases hm3 : w.malloc ((cstr m).length + 1) = true
            · rw [if_neg (fun hh => hh hm3)]
              have o3 := e3.alloc ((cstr m).length + 1)
              obtain ⟨g2, f1, o4⟩ := sendErrorHeap_spec (w := w) (m := m) (s := ⟨g1 ++ [some ((cstr m).length + 1)], sm,
                some hp.length, some (hp ++ [some ((cmd.length + 1) % sizeMod)]).length, [], some g1.length⟩) o3
              simp only [f1, Res.bind_ok]
              obtain ⟨g3, f2, o5⟩ := LveMem.free_err (s := ⟨g2, sm,
                some hp.length, some (hp ++ [some ((cmd.length + 1) % sizeMod)]).length, [], some g1.length⟩) e2
                (o4.perm List.perm_middle.symm)
              refine ⟨g3, _, _, _, _, _, _, f2, .some _ ((cmd.length + 1) % sizeMod), .some _ (crContextSize + (cstr path).length),
                .some _ ((cstr m).length + 1), o5.perm ?_, by simp [hfr.1],
                by simp [hfr.2], by simp [hfr.2], by simp⟩
              exact (List.Perm.swap _ _ _).trans ((List.Perm.swap _ _ _).cons _)
            · rw [if_neg hm3] at h2
              simp [reply, sendError] at h2

/-! ## Rounds -/

/-- Blocks of the context, blocks that nobody points to any more, and other ones. -/
structure Held (st : LveSt) (s : LveMem) (lost extra : List (Nat × Nat)) : Prop where
  blocks : ∃ lb cb mb tb, OptBlock s.libpath lb ∧ OptBlock s.context cb ∧ s.masks = mb.map (·.1) ∧
    (mb.map (·.2) = (st.cr.getD []).map fun d => 104 + d.1.length + 1) ∧ OptBlock s.text tb ∧
    Blocks s.heap (lb ++ (cb ++ (mb ++ (tb ++ (lost ++ extra)))))
  libpath : s.libpath.isSome = st.libpath.isSome
  context : s.context.isSome = st.cr.isSome
  text : s.text.isSome → st.approved = false
  before : st.proto ≠ .license → Fresh s ∧ st.libpath = none ∧ st.cr = none

theorem Held.start {conf : LveConf} {k : Option Bytes} {st : LveSt} (h : lveStart conf k = .ok st) :
    Held st .initial [] [] := by
  have hst : st.libpath = none ∧ st.cr = none := by
    unfold lveStart validatePubkey at h
    obtain ⟨b, -, h⟩ := Res.bind_eq_ok.1 h
    split at h <;> simp only [Res.ok.injEq] at h <;> subst h <;> simp [LveSt.initial]
  exact ⟨⟨[], [], [], [], .none, .none, rfl, by simp [hst.2], .none, Blocks.start⟩, by simp [LveMem.initial, hst.1],
    by simp [LveMem.initial, hst.2], by simp [LveMem.initial], fun _ => ⟨⟨rfl, rfl, rfl, rfl⟩, hst⟩⟩

/-- All blocks at once. -/
theorem Held.all {st : LveSt} {s : LveMem} {lost extra : List (Nat × Nat)} (o : Held st s lost extra) :
    ∃ bl, Blocks s.heap (bl ++ (lost ++ extra)) ∧
      ∀ h, Blocks h (bl ++ (lost ++ extra)) → ∀ n, Held st { s with heap := h, streams := n } lost extra := by
  obtain ⟨lb, cb, mb, tb, h1, h2, h3, h4, h5, h6⟩ := o.blocks
  refine ⟨lb ++ (cb ++ (mb ++ tb)), by simpa using h6, fun h hb n => ?_⟩
  exact ⟨⟨lb, cb, mb, tb, h1, h2, h3, h4, h5, by simpa using hb⟩, o.libpath, o.context, o.text, o.before⟩

/-- Another block is allocated. -/
theorem Held.alloc {st : LveSt} {s : LveMem} {lost extra : List (Nat × Nat)} (o : Held st s lost extra) (n : Nat) :
    Held st (s.alloc n).2 lost ((s.heap.length, n) :: extra) := by
  obtain ⟨lb, cb, mb, tb, h1, h2, h3, h4, h5, h6⟩ := o.blocks
  refine ⟨⟨lb, cb, mb, tb, h1, h2, h3, h4, h5, (h6.alloc n).perm ?_⟩, o.libpath, o.context, o.text, o.before⟩
  have := List.perm_middle (a := (s.heap.length, n)) (l₁ := lb ++ (cb ++ (mb ++ (tb ++ lost)))) (l₂ := extra)
  simpa using this.symm

/-- And freed. -/
theorem Held.free {st : LveSt} {s : LveMem} {lost pb extra : List (Nat × Nat)} {p : Option Nat} (hp : OptBlock p pb)
    (o : Held st s lost (pb ++ extra)) : ∃ h, s.free p = .ok { s with heap := h } ∧ Held st { s with heap := h } lost extra := by
  obtain ⟨lb, cb, mb, tb, h1, h2, h3, h4, h5, h6⟩ := o.blocks
  obtain ⟨h, e1, e2⟩ := LveMem.free_opt hp (bl := lb ++ (cb ++ (mb ++ (tb ++ (lost ++ extra))))) (h6.perm (by
    have := List.perm_append_comm_assoc (lb ++ (cb ++ (mb ++ (tb ++ lost)))) pb extra
    simpa using this))
  exact ⟨h, e1, ⟨lb, cb, mb, tb, h1, h2, h3, h4, h5, e2⟩, o.libpath, o.context, o.text, o.before⟩

/-- Only what the blocks depend on matters. -/
theorem Held.state {st st' : LveSt} {s : LveMem} {lost extra : List (Nat × Nat)} (o : Held st s lost extra)
    (h1 : st'.libpath = st.libpath) (h2 : st'.cr = st.cr) (h3 : st'.approved = st.approved)
    (h4 : st'.proto ≠ .license → st.proto ≠ .license) : Held st' s lost extra :=
  ⟨by rw [h2]; exact o.blocks, by rw [h1]; exact o.libpath, by rw [h2]; exact o.context, by rw [h3]; exact o.text,
    fun hp => by rw [h1, h2]; exact o.before (h4 hp)⟩

theorem Held.file {conf : LveConf} {w : World} {st st' : LveSt} {cmd : Command} {out : List Bytes} {s : LveMem}
    {lost extra : List (Nat × Nat)} (o : Held st s lost extra) (h : lveFile conf w st cmd = .ok (st', out)) :
    ∃ s' l, lveFileHeap conf w st cmd s = .ok s' ∧ Held st' s' (l ++ lost) extra ∧ l.length ≤ 1 ∧
      (Roomy w → l = [] ∧ s'.streams = s.streams) := by
  obtain ⟨lb, cb, mb, tb, h1, h2, h3, h4, h5, h6⟩ := o.blocks
  obtain ⟨s', new, l, e1, g, e2, e3, e4, ⟨t, e5⟩, e6⟩ := lveFileHeap_spec h6 h
  refine ⟨s', l, e1, ⟨⟨lb, cb, mb ++ new, tb, ?_, ?_, ?_, ?_, ?_, ?_⟩, ?_, ?_, ?_, ?_⟩, e3, fun hr => ⟨e4 hr, g.streams hr⟩⟩
  · rw [g.libpath]; exact h1
  · rw [g.context]; exact h2
  · rw [g.masks, h3]; simp
  · obtain ⟨more, f1, f2⟩ := g.table
    rw [f1]
    simp [h4, f2]
  · rw [g.text]; exact h5
  · refine g.blocks.perm ?_
    refine (List.Perm.append_left new (List.perm_append_comm_assoc l lb _)).trans ?_
    refine (List.perm_append_comm_assoc new lb _).trans (List.Perm.append_left lb ?_)
    refine (List.Perm.append_left new (List.perm_append_comm_assoc l cb _)).trans ?_
    refine (List.perm_append_comm_assoc new cb _).trans (List.Perm.append_left cb ?_)
    refine (List.Perm.append_left new (List.perm_append_comm_assoc l mb _)).trans ?_
    refine (List.perm_append_comm_assoc new mb _).trans ?_
    rw [List.append_assoc]
    refine List.Perm.append_left mb (List.Perm.append_left new ?_)
    rw [List.append_assoc]
    exact List.perm_append_comm_assoc l tb _
  · rw [g.libpath, o.libpath, e5]
  · rw [g.context, o.context, e6]
  · rw [g.text, e5]; exact o.text
  · intro hp
    have hp' : st.proto ≠ .license := by rw [e5] at hp; exact hp
    obtain ⟨⟨f1, f2, f3, f4⟩, f5, f6⟩ := o.before hp'
    have hnew := e2 f6
    refine ⟨⟨by rw [g.libpath, f1], by rw [g.context, f2], by rw [g.masks, f3, hnew]; rfl, by rw [g.text, f4]⟩, by
      rw [e5]; exact f5, ?_⟩
    rw [f6] at e6
    simpa using e6

theorem Held.lib {conf : LveConf} {w : World} {st st' : LveSt} {cmd : Command} {out : List Bytes} {ok : Bool}
    {s : LveMem} {lost extra : List (Nat × Nat)} (o : Held st s lost extra) (hp : st.proto ≠ .license)
    (h : lveLibpath conf w false st cmd = .ok (st', out, ok)) :
    ∃ s', lveLibpathHeap conf w st cmd s = .ok s' ∧ Held { st' with proto := .license } s' lost extra ∧
      s'.streams = s.streams := by
  obtain ⟨hf, hst⟩ := o.before hp
  obtain ⟨lb, cb, mb, tb, h1, h2, h3, h4, h5, h6⟩ := o.blocks
  have hnil : lb = [] ∧ cb = [] ∧ mb = [] ∧ tb = [] := by
    obtain ⟨f1, f2, f3, f4⟩ := hf
    rw [f1] at h1
    rw [f2] at h2
    rw [f3] at h3
    rw [f4] at h5
    refine ⟨?_, ?_, by simpa using h3.symm, ?_⟩
    · rcases h1 with ⟨-, h⟩ | ⟨_, _, h, -⟩
      · exact h
      · simp at h
    · rcases h2 with ⟨-, h⟩ | ⟨_, _, h, -⟩
      · exact h
      · simp at h
    · rcases h5 with ⟨-, h⟩ | ⟨_, _, h, -⟩
      · exact h
      · simp at h
  obtain ⟨rfl, rfl, rfl, rfl⟩ := hnil
  simp only [List.nil_append] at h6
  obtain ⟨h', lp, cx, tx, lb, cb, tb, e1, e2, e3, e4, e5, e6, e7, e8, e9⟩ := lveLibpathHeap_spec h6 hf hst h
  exact ⟨_, e1, ⟨⟨lb, cb, [], tb, e2, e3, rfl, by simp [e8], e4, by simpa using e5⟩, e6, e7, e9, fun hh => absurd rfl hh⟩, rfl⟩

/-- What a round does to memory. -/
def AfterRound (w : World) (st' : LveSt) (s s' : LveMem) (lost extra : List (Nat × Nat)) : Prop :=
  ∃ l, Held st' s' (l ++ lost) extra ∧ l.length ≤ 1 ∧ (Roomy w → l = [] ∧ s'.streams = s.streams)

theorem Held.after {w : World} {st : LveSt} {s s' : LveMem} {lost extra : List (Nat × Nat)} (o : Held st s' lost extra)
    (h : s'.streams = s.streams) : AfterRound w st s s' lost extra := ⟨[], o, by simp, fun _ => ⟨rfl, h⟩⟩

theorem dispatchHeap_spec {conf : LveConf} {w : World} {st st' : LveSt} {next : LveState} {cmd : Command}
    {out : List Bytes} {s : LveMem} {lost extra : List (Nat × Nat)} (o : Held st s lost extra)
    (hn : validNext cmd.id st.proto = some next) (h : dispatch conf w st next cmd = .ok (st', out)) :
    ∃ s', dispatchHeap conf w st cmd s = .ok s' ∧ AfterRound w st' s s' lost extra := by
  obtain ⟨bl, hb, hheld⟩ := o.all
  have same : ∀ {h' : Heap} {s2 : LveSt}, Blocks h' (bl ++ (lost ++ extra)) → s2.libpath = st.libpath → s2.cr = st.cr →
      s2.approved = st.approved → (s2.proto ≠ .license → st.proto ≠ .license) →
      AfterRound w s2 s { s with heap := h' } lost extra := fun h1 h2 h3 h4 h5 =>
    ((hheld _ h1 s.streams).state h2 h3 h4 h5).after rfl
  unfold dispatch at h
  unfold dispatchHeap
  cases hp : st.proto with
  | version =>
    rw [hp] at h
    dsimp only at h ⊢
    by_cases hv : cmd.number < 1
    · rw [if_pos hv] at h ⊢
      obtain ⟨out1, h1, h⟩ := Res.bind_eq_ok.1 h
      simp only [Res.ok.injEq, Prod.mk.injEq] at h
      obtain ⟨rfl, rfl⟩ := h
      obtain ⟨h', e1, e2⟩ := sendErrorHeap_spec (w := w)
        (m := snprintf lveErrorSize b!"Minimum supported protocol version is 1") hb
      exact ⟨_, e1, same e2 rfl rfl rfl (by simp [hp])⟩
    · rw [if_neg hv] at h ⊢
      simp only [Res.ok.injEq, Prod.mk.injEq] at h
      obtain ⟨rfl, rfl⟩ := h
      exact ⟨_, rfl, same (h' := s.heap) hb rfl rfl rfl (by simp [hp])⟩
  | tools =>
    rw [hp] at h
    dsimp only at h ⊢
    by_cases hv : cmd.id = .tools
    · rw [if_pos hv] at h ⊢
      simp only [Res.ok.injEq, Prod.mk.injEq] at h
      obtain ⟨rfl, rfl⟩ := h
      exact ⟨_, rfl, same (h' := s.heap) hb rfl rfl rfl (by simp [hp])⟩
    · rw [if_neg hv] at h ⊢
      obtain ⟨⟨st1, out1, ok⟩, h1, h⟩ := Res.bind_eq_ok.1 h
      simp only [Res.ok.injEq, Prod.mk.injEq] at h
      obtain ⟨rfl, rfl⟩ := h
      have : next = .license := by
        rw [hp] at hn
        cases hc : cmd.id <;> rw [hc] at hn hv <;> simp [validNext] at hn hv; exact hn.symm
      subst this
      obtain ⟨s', e1, e2, e3⟩ := o.lib (by simp [hp]) h1
      exact ⟨s', e1, e2.after e3⟩
  | lib =>
    rw [hp] at h
    dsimp only at h ⊢
    obtain ⟨⟨st1, out1, ok⟩, h1, h⟩ := Res.bind_eq_ok.1 h
    simp only [Res.ok.injEq, Prod.mk.injEq] at h
    obtain ⟨rfl, rfl⟩ := h
    have : next = .license := by
      rw [hp] at hn
      cases hc : cmd.id <;> rw [hc] at hn <;> simp [validNext] at hn; exact hn.symm
    subst this
    obtain ⟨s', e1, e2, e3⟩ := o.lib (by simp [hp]) h1
    exact ⟨s', e1, e2.after e3⟩
  | license =>
    rw [hp] at h
    dsimp only at h ⊢
    have hnext : next = .license := by
      rw [hp] at hn
      cases hc : cmd.id <;> rw [hc] at hn <;> simp [validNext] at hn <;> exact hn.symm
    subst hnext
    have hcall : ∀ {s2 : LveSt} {hm : Bool} {cs : List LicCall}, s2 = { st with hasMgr := hm, calls := cs } →
        s2.libpath = st.libpath ∧ s2.cr = st.cr ∧ s2.approved = st.approved := by
      rintro s2 hm cs rfl; simp
    by_cases hv : cmd.id = .feature
    · rw [if_pos hv] at h ⊢
      obtain ⟨⟨st1, out1, ok⟩, h1, h⟩ := Res.bind_eq_ok.1 h
      simp only [Res.ok.injEq, Prod.mk.injEq] at h
      obtain ⟨rfl, rfl⟩ := h
      obtain ⟨h', e1, e2⟩ := lveFeatureHeap_spec hb h1
      obtain ⟨cs, hm, f1⟩ := feature_frame h1
      obtain ⟨f1, f2, f3⟩ := hcall f1
      exact ⟨_, e1, same e2 f1 f2 f3 (by simp)⟩
    · rw [if_neg hv] at h ⊢
      by_cases hv2 : cmd.id = .returnFeature
      · rw [if_pos hv2] at h ⊢
        obtain ⟨⟨st1, out1⟩, h1, h⟩ := Res.bind_eq_ok.1 h
        simp only [Res.ok.injEq, Prod.mk.injEq] at h
        obtain ⟨rfl, rfl⟩ := h
        obtain ⟨h', e1, e2⟩ := lveReturnFeatureHeap_spec hb h1
        obtain ⟨cs, hm, f1⟩ := returnFeature_frame h1
        obtain ⟨f1, f2, f3⟩ := hcall f1
        exact ⟨_, e1, same e2 f1 f2 f3 (by simp)⟩
      · rw [if_neg hv2] at h ⊢
        by_cases hv3 : cmd.id = .license ∨ cmd.id = .returnLicense
        · rw [if_pos hv3] at h ⊢
          simp only [Res.ok.injEq, Prod.mk.injEq] at h
          obtain ⟨rfl, rfl⟩ := h
          exact ⟨_, rfl, same (h' := s.heap) hb rfl rfl rfl (by simp)⟩
        · rw [if_neg hv3] at h ⊢
          obtain ⟨⟨st1, out1⟩, h1, h⟩ := Res.bind_eq_ok.1 h
          simp only [Res.ok.injEq, Prod.mk.injEq] at h
          obtain ⟨rfl, rfl⟩ := h
          obtain ⟨s', l, e1, e2, e3, e4⟩ := o.file h1
          exact ⟨s', e1, l, e2.state rfl rfl rfl (by simp), e3, e4⟩

theorem lveStepHeap_spec {conf : LveConf} {w : World} {st st' : LveSt} {msg : Bytes} {out : List Bytes} {s : LveMem}
    {lost extra : List (Nat × Nat)} (o : Held st s lost extra) (h : lveStep conf w st msg = .ok (st', out)) :
    ∃ s', lveStepHeap conf w st msg s = .ok s' ∧ AfterRound w st' s s' lost extra := by
  unfold lveStep at h
  unfold lveStepHeap
  by_cases hm : ¬ w.malloc (msg.length + 1) = true
  · rw [if_pos hm] at h; simp at h
  · rw [if_neg hm] at h ⊢
    obtain ⟨⟨g, cmd, em⟩, h1, h⟩ := Res.bind_eq_ok.1 h
    simp only [h1, Res.bind_ok]
    obtain ⟨g1, f1, o1⟩ := (o.alloc (msg.length + 1)).free (OptBlock.some s.heap.length (msg.length + 1))
    have f1' : (s.alloc (msg.length + 1)).2.free (some (s.alloc (msg.length + 1)).1) =
        .ok { s with heap := g1 } := f1
    simp only [f1', Res.bind_ok]
    have o2 : Held { st with errMsg := em } { s with heap := g1 } lost extra := o1.state rfl rfl rfl id
    by_cases hv : g = .valid
    · simp only [hv, if_true] at h ⊢
      unfold handleCommand at h
      unfold handleHeap
      obtain ⟨⟨next, em2⟩, h2, h⟩ := Res.bind_eq_ok.1 h
      simp only [h2, Res.bind_ok]
      cases next with
      | none =>
        dsimp only at h ⊢
        obtain ⟨out1, h3, h⟩ := Res.bind_eq_ok.1 h
        simp only [Res.ok.injEq, Prod.mk.injEq] at h
        obtain ⟨rfl, rfl⟩ := h
        obtain ⟨bl, hb, hheld⟩ := o2.all
        obtain ⟨h', e1, e2⟩ := sendErrorHeap_spec (w := w) (m := em2) hb
        exact ⟨_, e1, ((hheld _ e2 s.streams).state (st' := { st with errMsg := em2 }) rfl rfl rfl id).after rfl⟩
      | some next =>
        dsimp only at h ⊢
        have hn : validNext cmd.id st.proto = some next := by
          unfold nextState at h2
          split at h2
          · simp at h2
          · split at h2
            · rename_i x hx
              simp only [Res.ok.injEq, Prod.mk.injEq, Option.some.injEq] at h2
              rw [← h2.1]; exact hx
            · split at h2
              · obtain ⟨y, -, h2⟩ := Res.bind_eq_ok.1 h2
                simp at h2
              · simp at h2
        have key : ∀ cmd1 : Command, cmd1.id = cmd.id →
            dispatch conf w { st with errMsg := em } next cmd1 = .ok (st', out) →
            ∃ s', (do
              let (data, s) := if cmd1.data = none then ((none : Option Nat), { s with heap := g1 }) else
                let (d, s) := LveMem.alloc { s with heap := g1 } ((cmd1.length + 1) % sizeMod)
                (some d, s)
              let s ← dispatchHeap conf w { st with errMsg := em } cmd1 s
              s.free data) = .ok s' ∧ AfterRound w st' s s' lost extra := by
          intro cmd1 hid h
          rw [← hid] at hn
          by_cases hd : cmd1.data = none
          · rw [if_pos hd]
            dsimp only
            obtain ⟨s', e1, l, e2, e3, e4⟩ := dispatchHeap_spec (st := { st with errMsg := em }) o2 hn h
            simp only [e1, Res.bind_ok]
            exact ⟨s', by simp [LveMem.free, Heap.free], l, e2, e3, e4⟩
          · rw [if_neg hd]
            dsimp only
            have o3 := o2.alloc ((cmd1.length + 1) % sizeMod)
            obtain ⟨s', e1, l, e2, e3, e4⟩ := dispatchHeap_spec (st := { st with errMsg := em }) o3 hn h
            simp only [e1, Res.bind_ok]
            obtain ⟨g2, f2, o4⟩ := e2.free (OptBlock.some g1.length ((cmd1.length + 1) % sizeMod))
            exact ⟨_, f2, l, o4, e3, fun hr => ⟨(e4 hr).1, (e4 hr).2⟩⟩
        by_cases hform : cmd.id.form = .length
        · simp only [hform, if_true] at h ⊢
          obtain ⟨⟨cmd1, k⟩, h3, h⟩ := Res.bind_eq_ok.1 h
          simp only [h3, Res.bind_ok]
          exact key cmd1 (extractData_keeps h3).1 h
        · simp only [hform, if_false, Res.bind_ok] at h ⊢
          exact key cmd rfl h
    · simp only [hv, if_false] at h ⊢
      obtain ⟨out1, h3, h⟩ := Res.bind_eq_ok.1 h
      simp only [Res.ok.injEq, Prod.mk.injEq] at h
      obtain ⟨rfl, rfl⟩ := h
      obtain ⟨bl, hb, hheld⟩ := o2.all
      obtain ⟨h', e1, e2⟩ := sendErrorHeap_spec (w := w)
        (m := if g = .unknownError then b!"Internal error in parsing." else em) hb
      exact ⟨_, e1, (hheld _ e2 s.streams).after rfl⟩

theorem lveReceiveHeap_spec {conf : LveConf} : ∀ (turns : List (World × Bool)) {st st' : LveSt} {c : Conn}
    {outs : List (List Bytes)} {s : LveMem} {lost : List (Nat × Nat)}, Held st s lost [] →
    lveReceive conf st turns c = .ok (st', outs) →
    ∃ s' l, lveReceiveHeap conf st turns c s = .ok s' ∧ Held st' s' (l ++ lost) [] ∧ l.length ≤ outs.length ∧
      ((∀ x ∈ turns, Roomy x.1) → l = [] ∧ s'.streams = s.streams) := by
  intro turns
  induction turns with
  | nil =>
    intro st st' c outs s lost o h
    simp only [lveReceive, Res.ok.injEq, Prod.mk.injEq] at h
    obtain ⟨rfl, rfl⟩ := h
    exact ⟨s, [], rfl, o, by simp, fun _ => ⟨rfl, rfl⟩⟩
  | cons x rest ih =>
    obtain ⟨w, stop⟩ := x
    intro st st' c outs s lost o h
    simp only [lveReceive] at h
    simp only [lveReceiveHeap]
    obtain ⟨r, c1, h1, h2⟩ := sslReadHeap_spec w.malloc c s.heap
    rw [h1] at h
    simp only [Res.bind_ok] at h
    rcases h2 with ⟨cells, n, fr, k, rfl, hn, h2, -⟩ | ⟨h2, h3, -⟩
    · simp only [h2, h1, Res.bind_ok]
      obtain ⟨msg, h4, h⟩ := Res.bind_eq_ok.1 h
      obtain ⟨⟨st1, out1⟩, h5, h⟩ := Res.bind_eq_ok.1 h
      dsimp only at h
      have o1 : Held st { s with heap := s.heap ++ List.replicate k none ++ [some n] } lost [(s.heap.length + k, n)] := by
        obtain ⟨bl, hb, hheld⟩ := o.all
        have := (hheld _ (hb.freed k) s.streams).alloc n
        simpa [LveMem.alloc] using this
      obtain ⟨s1, e1, l, e2, e3, e4⟩ := lveStepHeap_spec o1 h5
      simp only [h4, e1, h5, Res.bind_ok]
      obtain ⟨g2, f2, o2⟩ := e2.free (extra := []) (OptBlock.some (s.heap.length + k) n)
      simp only [f2, Res.bind_ok]
      cases stop with
      | true =>
        simp only [if_true, Res.ok.injEq, Prod.mk.injEq] at h ⊢
        obtain ⟨rfl, rfl⟩ := h
        exact ⟨_, l, rfl, o2, by simpa using e3, fun hr => e4 (hr (w, true) (by simp))⟩
      | false =>
        simp only [Bool.false_eq_true, if_false] at h ⊢
        obtain ⟨⟨st2, outs2⟩, h6, h⟩ := Res.bind_eq_ok.1 h
        simp only [Res.ok.injEq, Prod.mk.injEq] at h
        obtain ⟨rfl, rfl⟩ := h
        obtain ⟨s', l2, i1, i2, i3, i4⟩ := ih o2 h6
        refine ⟨s', l2 ++ l, i1, by simpa using i2, by simp; omega, fun hr => ?_⟩
        obtain ⟨j1, j2⟩ := i4 fun x hx => hr x (by simp [hx])
        obtain ⟨j3, j4⟩ := e4 (hr (w, false) (by simp))
        exact ⟨by simp [j1, j3], j2.trans j4⟩
    · simp only [h3, h1, Res.bind_ok]
      cases r with
      | message a b d => exact absurd rfl (h2 a b d)
      | blocked =>
        simp only [Res.ok.injEq, Prod.mk.injEq] at h
        obtain ⟨rfl, rfl⟩ := h
        exact ⟨s, [], rfl, o, by simp, fun _ => ⟨rfl, rfl⟩⟩
      | failed a b =>
        simp only [Res.ok.injEq, Prod.mk.injEq] at h
        obtain ⟨rfl, rfl⟩ := h
        exact ⟨s, [], rfl, o, by simp, fun _ => ⟨rfl, rfl⟩⟩

/-! ## From blocks to addresses -/

theorem OptBlock.toList {p : Option Nat} {bl : List (Nat × Nat)} (h : OptBlock p bl) : bl.map (·.1) = p.toList := by
  rcases h with ⟨rfl, rfl⟩ | ⟨a, n, rfl, rfl⟩ <;> rfl

theorem Held.live {st : LveSt} {s : LveMem} {lost : List (Nat × Nat)} (o : Held st s lost []) :
    (kept s ++ lost.map (·.1)).Nodup ∧ (∀ a, Live s.heap a ↔ a ∈ kept s ++ lost.map (·.1)) ∧ PointsTo st s := by
  obtain ⟨lb, cb, mb, tb, h1, h2, h3, h4, h5, h6⟩ := o.blocks
  have hk : (lb ++ (cb ++ (mb ++ (tb ++ (lost ++ []))))).map (fun x : Nat × Nat => x.1) = kept s ++ lost.map (·.1) := by
    unfold kept
    rw [h3, ← h1.toList, ← h2.toList, ← h5.toList]
    simp
  refine ⟨hk ▸ h6.1, fun a => ?_, o.libpath, o.context, ?_, o.text⟩
  · rw [← hk, List.mem_map]
    constructor
    · rintro ⟨n, hn⟩
      exact ⟨(a, n), (h6.2 a n).1 hn, rfl⟩
    · rintro ⟨⟨a', n⟩, hm, rfl⟩
      exact ⟨n, (h6.2 _ n).2 hm⟩
  · unfold MaskBlocks
    rw [h3, List.map_map]
    have e : mb.map ((fun a => s.heap[a]?) ∘ (·.1)) = (mb.map (·.2)).map fun n => some (some n) := by
      rw [List.map_map]
      refine List.map_congr_left fun x hx => ?_
      exact (h6.2 x.1 x.2).2 (by simp [hx])
    rw [e, h4, List.map_map]
    rfl

theorem Held.shutdown {st : LveSt} {s : LveMem} {lost : List (Nat × Nat)} (o : Held st s lost []) :
    ∃ h, lveShutdownHeap s = .ok { s with heap := h } ∧
      ∀ a, Live h a ↔ Live s.heap a ∧ s.libpath ≠ some a := by
  obtain ⟨lb, cb, mb, tb, h1, h2, h3, h4, h5, h6⟩ := o.blocks
  obtain ⟨h, e1, e2⟩ := LveMem.free_opt h1 h6
  refine ⟨h, e1, fun a => ?_⟩
  have live : ∀ {g : Heap} {bl : List (Nat × Nat)}, Blocks g bl → (Live g a ↔ a ∈ bl.map (·.1)) := by
    intro g bl hb
    rw [List.mem_map]
    constructor
    · rintro ⟨n, hn⟩
      exact ⟨(a, n), (hb.2 a n).1 hn, rfl⟩
    · rintro ⟨⟨a', n⟩, hm, rfl⟩
      exact ⟨n, (hb.2 _ n).2 hm⟩
  rw [live e2, live h6]
  have hnd := h6.1
  have hsplit : (lb ++ (cb ++ (mb ++ (tb ++ (lost ++ []))))).map (fun x : Nat × Nat => x.1) =
      s.libpath.toList ++ (cb ++ (mb ++ (tb ++ (lost ++ [])))).map (fun x : Nat × Nat => x.1) := by
    rw [List.map_append, h1.toList]
  rw [hsplit] at hnd ⊢
  generalize (cb ++ (mb ++ (tb ++ (lost ++ [])))).map (fun x : Nat × Nat => x.1) = others at hnd ⊢
  cases hl : s.libpath with
  | none => simp
  | some p =>
    rw [hl] at hnd
    simp only [Option.toList_some, List.singleton_append, List.nodup_cons] at hnd
    simp only [Option.toList_some, List.singleton_append, List.mem_cons, ne_eq, Option.some.injEq]
    constructor
    · intro hm
      exact ⟨.inr hm, fun hp => hnd.1 (hp ▸ hm)⟩
    · rintro ⟨rfl | hm, hp⟩
      · exact absurd rfl hp
      · exact hm

/-! ## Streams -/

theorem LveMem.free_streams {s s' : LveMem} {p : Option Nat} (h : s.free p = .ok s') : s'.streams = s.streams := by
  unfold LveMem.free at h
  obtain ⟨g, -, h⟩ := Res.bind_eq_ok.1 h
  simp only [Res.ok.injEq] at h
  rw [← h]

theorem LveMem.freeErr_streams {s s' : LveMem} {e : Option (Nat × Option Nat)} (h : s.freeErr e = .ok s') :
    s'.streams = s.streams := by
  unfold LveMem.freeErr at h
  split at h
  · simp only [Res.ok.injEq] at h
    rw [h]
  · obtain ⟨g, h1, h⟩ := Res.bind_eq_ok.1 h
    exact (LveMem.free_streams h).trans (LveMem.free_streams h1)

theorem fileErrorHeap_streams {w : World} {m : Option Bytes} {s s' : LveMem} (h : fileErrorHeap w m s = .ok s') :
    s'.streams = s.streams := by
  unfold fileErrorHeap sendErrorHeap at h
  split at h
  · simp only [Res.ok.injEq] at h
    rw [h]
  · dsimp only [LveMem.alloc] at h
    split at h
    · exact (LveMem.free_streams h).trans rfl
    · simp only [Res.ok.injEq] at h
      rw [h]

/-- A file that is too big for memory can't be read, and the stream stays open. -/
theorem readFileHeap_big {w : World} {path : Bytes} {size : Nat} {bytes : Bytes} {io : Option Bytes} {s : LveMem}
    (hf : w.files path = .stream size bytes io) (hm : w.malloc (size + 1) = false) :
    ∃ e h', readFileHeap w path s = .ok (none, e, { s with heap := h', streams := s.streams + 1 }) := by
  unfold readFileHeap
  rw [hf]
  exact ⟨(LveMem.newErr w { s with streams := s.streams + 1 }).1,
    (LveMem.newErr w { s with streams := s.streams + 1 }).2.heap, by simp [hm, LveMem.newErr]⟩

theorem lveFileHeap_big {conf : LveConf} {w : World} {st : LveSt} {cmd : Command} {lib rel : Bytes} {buf : Buf}
    {size : Nat} {bytes : Bytes} {io : Option Bytes} {s s' : LveMem} (ha : st.approved = true)
    (hs : w.malloc ((st.pathSize + cmd.length + 2) % sizeMod) = true) (hl : st.libpath = some lib)
    (hd : cmd.data = some buf) (hr : readCStr buf.cells = .ok rel)
    (hf : w.files (snprintf ((st.pathSize + cmd.length + 2) % sizeMod) (cstr lib ++ b!"/" ++ rel)) =
      .stream size bytes io) (hm : w.malloc (size + 1) = false)
    (h : lveFileHeap conf w st cmd s = .ok s') : s'.streams = s.streams + 1 := by
  unfold lveFileHeap at h
  simp only [ha, not_true_eq_false, if_false, hs, hl, hd, LveMem.alloc, hr, Res.bind_ok] at h
  obtain ⟨e, h', e1⟩ := readFileHeap_big (s := { s with heap := s.heap ++ [some ((st.pathSize + cmd.length + 2) % sizeMod)] })
    hf hm
  simp only [e1, Res.bind_ok] at h
  unfold readFile at h
  simp only [hf, hm, Bool.false_eq_true, if_false] at h
  obtain ⟨msg, -, h⟩ := Res.bind_eq_ok.1 h
  obtain ⟨s1, f1, h⟩ := Res.bind_eq_ok.1 h
  obtain ⟨s2, f2, h⟩ := Res.bind_eq_ok.1 h
  obtain ⟨s3, f3, h⟩ := Res.bind_eq_ok.1 h
  rw [LveMem.freeErr_streams h, fileErrorHeap_streams f3, LveMem.free_streams f2, LveMem.free_streams f1]

/-- A short message in a record of its own. -/
theorem sslReadMessage_short {m : Nat → Bool} {b : Bytes} (hb : b ≠ []) (hl : b.length ≤ readMax)
    (hm : m b.length = true) (rest : List Ev) :
    sslReadMessage m ⟨[], [], .record b [] :: rest⟩ = .ok (.message (b.map some) b.length [], ⟨[], [], rest⟩) := by
  have hk : chunkSize readMax [] b = b.length := by unfold chunkSize; simp; omega
  unfold sslReadMessage readLoop
  simp [sslRead, sslReadEvs, hb, hk, Conn.inRecord, hm, Conn.weight]

theorem sslReadHeap_short {m : Nat → Bool} {b : Bytes} (hb : b ≠ []) (hl : b.length ≤ readMax)
    (hm : m b.length = true) (rest : List Ev) (h : Heap) :
    sslReadHeap m ⟨[], [], .record b [] :: rest⟩ h = .ok (some h.length, h ++ [some b.length]) := by
  have hk : chunkSize readMax [] b = b.length := by unfold chunkSize; simp; omega
  unfold sslReadHeap readLoopHeap
  simp [sslRead, sslReadEvs, hb, hk, Conn.inRecord, hm, Conn.weight, Heap.alloc, Heap.free]

end Semla
