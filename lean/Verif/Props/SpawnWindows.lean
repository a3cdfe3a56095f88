import Verif.Lemmas.Dec
import Verif.Spec.SpawnWindows
import Mathlib.Data.List.Perm.Subperm

/-!
# C80: starting a vendor executable on Windows
-/

namespace Semla

open Semla.Spec

theorem WinFds.firstFree_some {limit : Nat} {t : WinFds} {n : Nat} (h : t.firstFree limit = some n) :
    t n = .free ∧ n < limit := by
  unfold WinFds.firstFree at h
  have h1 := List.find?_some h
  have h2 := List.mem_of_find?_eq_some h
  exact ⟨by simpa using h1, by simpa using h2⟩

theorem WinFds.set_same (t : WinFds) (n : Nat) (s : WinSlot) : t.set n s n = s := by simp [WinFds.set]

theorem WinFds.set_ne (t : WinFds) {n m : Nat} (s : WinSlot) (h : m ≠ n) : t.set n s m = t m := by simp [WinFds.set, h]

theorem WinFds.pipe_some {limit : Nat} {t t' : WinFds} {b : Bool} {r w : Nat} (h : t.pipe limit b = some (r, w, t')) :
    t r = .free ∧ t w = .free ∧ r ≠ w ∧
      t' = (t.set r (.opened (.pipe b false) false)).set w (.opened (.pipe b true) false) := by
  unfold WinFds.pipe at h
  split at h
  · cases h
  · rename_i r' hr
    dsimp only at h
    split at h
    · cases h
    · rename_i w' hw
      simp only [Option.some.injEq, Prod.mk.injEq] at h
      obtain ⟨rfl, rfl, rfl⟩ := h
      have h1 := (WinFds.firstFree_some hr).1
      have h2 := (WinFds.firstFree_some hw).1
      have hne : r' ≠ w' := by
        intro he
        subst he
        rw [WinFds.set_same] at h2
        cases h2
      refine ⟨h1, ?_, hne, rfl⟩
      rwa [WinFds.set_ne _ _ (Ne.symm hne)] at h2

theorem winSave_opened {limit : Nat} {t : WinFds} {n : Nat} {name : Bytes} {o : WinObj} {i : Bool} {r : Option Nat × WinFds}
    (hn : t n = .opened o i) (h : winSave limit t n name = .ok r) :
    ∃ m, r = (some m, t.set m (.opened o true)) ∧ t m = .free := by
  unfold winSave WinFds.dup at h
  rw [hn] at h
  dsimp only at h
  cases hf : t.firstFree limit with
  | none => rw [hf] at h; simp [WinFds.emfile, WinFds.ebadf] at h
  | some m =>
    rw [hf] at h
    simp only [Except.ok.injEq] at h
    exact ⟨m, h.symm, (WinFds.firstFree_some hf).1⟩

theorem winDup2_ok {bad : Option Nat} {t t' : WinFds} {old new : Nat} {o : WinObj} {i : Bool} (hn : t old = .opened o i)
    (h : winDup2 bad t old new = .ok t') : bad = none ∧ t' = if old = new then t else t.set new (.opened o true) := by
  unfold winDup2 WinFds.dup2 at h
  cases bad with
  | some e => cases h
  | none =>
    dsimp only at h
    rw [hn] at h
    exact ⟨rfl, (Except.ok.inj h).symm⟩

theorem winRestore_ok {bad : Option Nat} {t t' : WinFds} {m n : Nat} {name : Bytes} {o : WinObj} {i : Bool}
    (hm : t m = .opened o i) (hne : m ≠ n) (h : winRestore bad t (some m) n name = .ok t') :
    t' = (t.set n (.opened o true)).close m := by
  unfold winRestore at h
  dsimp only at h
  cases h1 : winDup2 bad t m n with
  | error e => simp [h1] at h
  | ok u =>
    obtain ⟨_, h2⟩ := winDup2_ok hm h1
    rw [if_neg hne] at h2
    simp only [h1, Except.ok.injEq] at h
    rw [← h, h2]

theorem winSpawn_link {limit : Nat} {env : WinEnv} {exec : Bytes} {t : WinFds} {l : WinLink}
    (h : (winSpawn limit env exec t).out = .link l) :
    ∃ toR toW t1 fromR fromW t2 si t3 so t4, t.pipe limit true = some (toR, toW, t1) ∧
      t1.pipe limit false = some (fromR, fromW, t2) ∧ winSave limit t2 0 b!"STDIN" = .ok (si, t3) ∧
      winSave limit t3 1 b!"STDOUT" = .ok (so, t4) ∧
      winSpawn limit env exec t = winConnect env exec toR toW fromR fromW si so t4 := by
  unfold winSpawn at h ⊢
  cases hb : env.pipeTo with
  | false => simp [hb] at h
  | true =>
    simp only [hb, if_true] at h ⊢
    cases hp1 : t.pipe limit true with
    | none => simp [hp1] at h
    | some x =>
      obtain ⟨toR, toW, t1⟩ := x
      simp only [hp1] at h ⊢
      cases hb2 : env.pipeFrom with
      | false => simp [hb2] at h
      | true =>
        simp only [hb2, if_true] at h ⊢
        cases hp2 : t1.pipe limit false with
        | none => simp [hp2] at h
        | some y =>
          obtain ⟨fromR, fromW, t2⟩ := y
          simp only [hp2] at h ⊢
          cases hs1 : winSave limit t2 0 b!"STDIN" with
          | error m => simp [hs1] at h
          | ok z =>
            obtain ⟨si, t3⟩ := z
            simp only [hs1] at h ⊢
            cases hs2 : winSave limit t3 1 b!"STDOUT" with
            | error m => simp [hs2] at h
            | ok z2 =>
              obtain ⟨so, t4⟩ := z2
              exact ⟨toR, toW, t1, fromR, fromW, t2, si, t3, so, t4, rfl, hp2, hs1, hs2, rfl⟩

theorem winConnect_link {env : WinEnv} {exec : Bytes} {toR toW fromR fromW : Nat} {si so : Option Nat} {t : WinFds}
    {l : WinLink} (h : (winConnect env exec toR toW fromR fromW si so t).out = .link l) :
    ∃ t1 t2 t3 t4, winDup2 env.toIn t toR 0 = .ok t1 ∧ winDup2 env.toOut t1 fromW 1 = .ok t2 ∧
      winRestore env.backIn ((t2.close toR).close fromW) si 0 b!"STDIN" = .ok t3 ∧
      winRestore env.backOut t3 so 1 b!"STDOUT" = .ok t4 ∧ winStart env exec = none ∧ env.calloc = true ∧
      l = ⟨toW, fromR⟩ ∧
      winConnect env exec toR toW fromR fromW si so t = ⟨.link l, t4, some ((t2.close toR).close fromW).inherit⟩ := by
  unfold winConnect at h ⊢
  cases h1 : winDup2 env.toIn t toR 0 with
  | error m => simp [h1] at h
  | ok t1 =>
    simp only [h1] at h ⊢
    cases h2 : winDup2 env.toOut t1 fromW 1 with
    | error m => simp [h2] at h
    | ok t2 =>
      simp only [h2] at h ⊢
      cases h3 : winStart env exec with
      | some m => simp [h3] at h
      | none =>
        simp only [h3] at h ⊢
        unfold winFinish at h ⊢
        cases h4 : winRestore env.backIn ((t2.close toR).close fromW) si 0 b!"STDIN" with
        | error m => simp [h4] at h
        | ok t3 =>
          simp only [h4] at h ⊢
          cases h5 : winRestore env.backOut t3 so 1 b!"STDOUT" with
          | error m => simp [h5] at h
          | ok t4 =>
            simp only [h5] at h ⊢
            cases h6 : env.calloc with
            | false => simp [h6] at h
            | true =>
              simp only [h6, if_true, WinOut.link.injEq] at h ⊢
              exact ⟨t1, t2, t3, t4, rfl, h2, h4, h5, trivial, trivial, h.symm, by rw [h]⟩

end Semla

namespace Semla.Props

open Semla Semla.Spec

/-- **C80.** If `mlle_spawn` returns a connection, and both standard streams of the tool were open: they are what they
were; exactly two descriptors are new, one to write to the standard input of the vendor executable and one to read from
its standard output; and the vendor executable has nothing else but what any process gets that the tool starts, and the
standard streams of the tool. -/
theorem c80_streams_partial {limit : Nat} {env : WinEnv} {exec : Bytes} {t : WinFds} {a b : WinObj} {i j : Bool}
    {r : WinRes} {l : WinLink} (h0 : t 0 = .opened a i) (h1 : t 1 = .opened b j)
    (hr : winSpawn limit env exec t = r) (hl : r.out = .link l) :
    ∃ child, r.child = some child ∧ behind (r.tool 0) = some a ∧ behind (r.tool 1) = some b ∧
      l.fdTo ≠ l.fdFrom ∧ t l.fdTo = .free ∧ t l.fdFrom = .free ∧
      r.tool l.fdTo = .opened (.pipe true true) false ∧ r.tool l.fdFrom = .opened (.pipe false false) false ∧
      (∀ n, 2 ≤ n → n ≠ l.fdTo → n ≠ l.fdFrom → r.tool n = t n) ∧
      child 0 = .opened (.pipe true false) true ∧ child 1 = .opened (.pipe false true) true ∧
      ∀ n o k, 2 ≤ n → child n = .opened o k → t n = .opened o true ∨ o = a ∨ o = b := by
  obtain ⟨toR, toW, t1, fromR, fromW, t2, si, t3, so, t4, e1, e2, hs1, hs2, hc⟩ := winSpawn_link (hr ▸ hl)
  rw [hc] at hr
  rw [← hr] at hl
  obtain ⟨t5, t6, t7, t8, d1, d2, d3, d4, _, _, rfl, hc1⟩ := winConnect_link hl
  rw [hr] at hc1
  subst hc1
  obtain ⟨f1, f2, f3, rfl⟩ := WinFds.pipe_some e1
  obtain ⟨f4, f5, f6, rfl⟩ := WinFds.pipe_some e2
  have n1 : toR ≠ 0 := by rintro rfl; rw [h0] at f1; cases f1
  have n2 : toR ≠ 1 := by rintro rfl; rw [h1] at f1; cases f1
  have n3 : toW ≠ 0 := by rintro rfl; rw [h0] at f2; cases f2
  have n4 : toW ≠ 1 := by rintro rfl; rw [h1] at f2; cases f2
  have set_free : ∀ {u : WinFds} {m n : Nat} {o : WinObj} {k : Bool}, u.set m (.opened o k) n = .free → n ≠ m ∧ u n = .free := by
    intro u m n o k h
    have : n ≠ m := by rintro rfl; rw [WinFds.set_same] at h; cases h
    exact ⟨this, by rwa [WinFds.set_ne _ _ this] at h⟩
  obtain ⟨a2, k⟩ := set_free f4
  obtain ⟨a1, a3⟩ := set_free k
  obtain ⟨b2, k⟩ := set_free f5
  obtain ⟨b1, b3⟩ := set_free k
  have a4 : fromR ≠ 0 := by rintro rfl; rw [h0] at a3; cases a3
  have a5 : fromR ≠ 1 := by rintro rfl; rw [h1] at a3; cases a3
  have b4 : fromW ≠ 0 := by rintro rfl; rw [h0] at b3; cases b3
  have b5 : fromW ≠ 1 := by rintro rfl; rw [h1] at b3; cases b3
  obtain ⟨mi, e3, f7⟩ := winSave_opened (o := a) (i := i) (by
    simp only [WinFds.set, n1.symm, n3.symm, a4.symm, b4.symm, if_false]; exact h0) hs1
  obtain ⟨rfl, rfl⟩ := Prod.mk.inj e3
  obtain ⟨c1, k⟩ := set_free f7
  obtain ⟨c2, k⟩ := set_free k
  obtain ⟨c3, k⟩ := set_free k
  obtain ⟨c4, c5⟩ := set_free k
  have c6 : mi ≠ 0 := by rintro rfl; rw [h0] at c5; cases c5
  have c7 : mi ≠ 1 := by rintro rfl; rw [h1] at c5; cases c5
  obtain ⟨mo, e4, f8⟩ := winSave_opened (o := b) (i := j) (by
    simp only [WinFds.set, n2.symm, n4.symm, a5.symm, b5.symm, c7.symm, if_false]; exact h1) hs2
  obtain ⟨rfl, rfl⟩ := Prod.mk.inj e4
  obtain ⟨g0, k⟩ := set_free f8
  obtain ⟨g1, k⟩ := set_free k
  obtain ⟨g2, k⟩ := set_free k
  obtain ⟨g3, k⟩ := set_free k
  obtain ⟨g4, g5⟩ := set_free k
  have g6 : mo ≠ 0 := by rintro rfl; rw [h0] at g5; cases g5
  have g7 : mo ≠ 1 := by rintro rfl; rw [h1] at g5; cases g5
  obtain ⟨_, e5⟩ := winDup2_ok (o := .pipe true false) (i := false) (by
    simp [WinFds.set, g4.symm, c4.symm, b1.symm, a1.symm, f3]) d1
  rw [if_neg n1] at e5
  subst e5
  obtain ⟨_, e6⟩ := winDup2_ok (o := .pipe false true) (i := false) (by
    simp [WinFds.set, b4, g1.symm, c1.symm]) d2
  rw [if_neg b5] at e6
  subst e6
  have e7 := winRestore_ok (o := a) (i := true) (by
    simp [WinFds.set, WinFds.close, c1, c4, c6, c7, g0.symm]) c6 d3
  subst e7
  have e8 := winRestore_ok (o := b) (i := true) (by
    simp [WinFds.set, WinFds.close, g0, g1, g4, g6, g7]) g7 d4
  subst e8
  refine ⟨_, rfl, ?_, ?_, ?_, f2, a3, ?_, ?_, ?_, ?_, ?_, ?_⟩
  · simp [WinFds.set, WinFds.close, behind, c6.symm, g6.symm]
  · simp [WinFds.set, WinFds.close, behind, g7.symm]
  · exact a2.symm
  · simp [WinFds.set, WinFds.close, n3, n4, g3.symm, c3.symm, f3.symm, b2.symm, a2.symm]
  · simp [WinFds.set, WinFds.close, a4, a5, g2.symm, c2.symm, a1, f6]
  · intro n hn k1 k2
    have z0 : n ≠ 0 := by omega
    have z1 : n ≠ 1 := by omega
    simp only [WinFds.set, WinFds.close, z0, z1, if_false]
    by_cases q1 : n = mo
    · subst q1; simp [g5]
    by_cases q2 : n = mi
    · subst q2; simp [q1, c5]
    by_cases q3 : n = fromW
    · subst q3; simp [q1, q2, b3]
    by_cases q4 : n = toR
    · subst q4; simp [q1, q2, q3, f1]
    simp only at k1 k2
    simp [q1, q2, q3, q4, k1, k2]
  · simp [WinFds.inherit, WinFds.set, WinFds.close, n1.symm, b4.symm]
  · simp [WinFds.inherit, WinFds.set, WinFds.close, n2.symm, b5.symm]
  · intro n o k hn hch
    have z0 : n ≠ 0 := by omega
    have z1 : n ≠ 1 := by omega
    simp only [WinFds.inherit, WinFds.set, WinFds.close, z0, z1, if_false] at hch
    by_cases q3 : n = fromW
    · subst q3; simp at hch
    by_cases q4 : n = toR
    · subst q4; simp [q3] at hch
    by_cases q1 : n = mo
    · subst q1
      simp [q3, q4] at hch
      exact Or.inr (Or.inr hch.1.symm)
    by_cases q2 : n = mi
    · subst q2
      simp [q3, q4, q1] at hch
      exact Or.inr (Or.inl hch.1.symm)
    by_cases q5 : n = fromR
    · subst q5; simp [q3, q4, q1, q2] at hch
    by_cases q6 : n = toW
    · subst q6; simp [q3, q4, q1, q2, q5] at hch
    simp only [q1, q2, q3, q4, q5, q6, if_false] at hch
    left
    cases ht : t n with
    | free => rw [ht] at hch; cases hch
    | noHandle => rw [ht] at hch; cases hch
    | opened o' i' =>
      rw [ht] at hch
      cases i'
      · cases hch
      · simp only [WinSlot.opened.injEq] at hch
        rw [hch.1]

/-- **C80, the ends of the pipes.** In the same situation each of the four ends of the two pipes is open at exactly one
place: the tool has no second way to read what it writes, nor to keep the stream of answers open when the vendor
executable has ended. -/
theorem c80_ends_partial {limit : Nat} {env : WinEnv} {exec : Bytes} {t : WinFds} {a b : WinObj} {i j : Bool}
    {r : WinRes} {l : WinLink} (h0 : t 0 = .opened a i) (h1 : t 1 = .opened b j) (hp : NoPipes t)
    (hr : winSpawn limit env exec t = r) (hl : r.out = .link l) :
    (∀ n toChild write, behind (r.tool n) = some (.pipe toChild write) →
      (n = l.fdTo ∧ toChild = true ∧ write = true) ∨ (n = l.fdFrom ∧ toChild = false ∧ write = false)) ∧
    ∃ child, r.child = some child ∧ ∀ n toChild write, behind (child n) = some (.pipe toChild write) →
      (n = 0 ∧ toChild = true ∧ write = false) ∨ (n = 1 ∧ toChild = false ∧ write = true) := by
  obtain ⟨child, k1, k2, k3, _, _, _, k4, k5, k6, k7, k8, k9⟩ := c80_streams_partial h0 h1 hr hl
  have ha : ∀ x y, a ≠ .pipe x y := fun x y he => hp 0 x y i (he ▸ h0)
  have hb : ∀ x y, b ≠ .pipe x y := fun x y he => hp 1 x y j (he ▸ h1)
  refine ⟨?_, child, k1, ?_⟩
  · intro n x y h
    by_cases q1 : n = l.fdTo
    · subst q1
      rw [k4] at h
      cases h
      exact Or.inl ⟨rfl, rfl, rfl⟩
    by_cases q2 : n = l.fdFrom
    · subst q2
      rw [k5] at h
      cases h
      exact Or.inr ⟨rfl, rfl, rfl⟩
    by_cases z0 : n = 0
    · subst z0; rw [k2] at h; exact absurd (Option.some.inj h) (ha x y)
    by_cases z1 : n = 1
    · subst z1; rw [k3] at h; exact absurd (Option.some.inj h) (hb x y)
    rw [k6 n (by omega) q1 q2] at h
    cases ht : t n with
    | free => rw [ht] at h; cases h
    | noHandle => rw [ht] at h; cases h
    | opened o q =>
      rw [ht] at h
      cases h
      exact absurd ht (hp n x y q)
  · intro n x y h
    by_cases z0 : n = 0
    · subst z0; rw [k7] at h; cases h; exact Or.inl ⟨rfl, rfl, rfl⟩
    by_cases z1 : n = 1
    · subst z1; rw [k8] at h; cases h; exact Or.inr ⟨rfl, rfl, rfl⟩
    cases ht : child n with
    | free => rw [ht] at h; cases h
    | noHandle => rw [ht] at h; cases h
    | opened o q =>
      rw [ht] at h
      cases h
      rcases k9 n _ q (by omega) ht with h | h | h
      · exact absurd h (hp n x y true)
      · exact absurd h.symm (ha x y)
      · exact absurd h.symm (hb x y)

theorem win_names {limit : Nat} {t t1 t2 t3 t4 : WinFds} {a b : WinObj} {i j : Bool} {toR toW fromR fromW : Nat}
    {si so : Option Nat} {n0 n1 : Bytes} (h0 : t 0 = .opened a i) (h1 : t 1 = .opened b j)
    (e1 : t.pipe limit true = some (toR, toW, t1)) (e2 : t1.pipe limit false = some (fromR, fromW, t2))
    (hs1 : winSave limit t2 0 n0 = .ok (si, t3)) (hs2 : winSave limit t3 1 n1 = .ok (so, t4)) :
    ∃ mi mo, si = some mi ∧ so = some mo ∧ t4 toR = .opened (.pipe true false) false ∧
      t4 fromW = .opened (.pipe false true) false ∧ t4 mi = .opened a true ∧ t4 mo = .opened b true ∧ toR ≠ 0 ∧ fromW ≠ 0 ∧
      fromW ≠ 1 ∧ mi ≠ 0 ∧ mi ≠ 1 ∧ mi ≠ toR ∧ mi ≠ fromW ∧ mo ≠ 0 ∧ mo ≠ 1 ∧ mo ≠ toR ∧ mo ≠ fromW ∧ mo ≠ mi ∧
      [mo, mi, fromW, fromR, toW, toR].Nodup ∧ ∀ n ∈ [mo, mi, fromW, fromR, toW, toR], t n = .free := by
  obtain ⟨f1, f2, f3, rfl⟩ := WinFds.pipe_some e1
  obtain ⟨f4, f5, f6, rfl⟩ := WinFds.pipe_some e2
  have n1 : toR ≠ 0 := by rintro rfl; rw [h0] at f1; cases f1
  have n2 : toR ≠ 1 := by rintro rfl; rw [h1] at f1; cases f1
  have n3 : toW ≠ 0 := by rintro rfl; rw [h0] at f2; cases f2
  have n4 : toW ≠ 1 := by rintro rfl; rw [h1] at f2; cases f2
  have set_free : ∀ {u : WinFds} {m n : Nat} {o : WinObj} {k : Bool}, u.set m (.opened o k) n = .free → n ≠ m ∧ u n = .free := by
    intro u m n o k h
    have : n ≠ m := by rintro rfl; rw [WinFds.set_same] at h; cases h
    exact ⟨this, by rwa [WinFds.set_ne _ _ this] at h⟩
  obtain ⟨a2, k⟩ := set_free f4
  obtain ⟨a1, a3⟩ := set_free k
  obtain ⟨b2, k⟩ := set_free f5
  obtain ⟨b1, b3⟩ := set_free k
  have a4 : fromR ≠ 0 := by rintro rfl; rw [h0] at a3; cases a3
  have a5 : fromR ≠ 1 := by rintro rfl; rw [h1] at a3; cases a3
  have b4 : fromW ≠ 0 := by rintro rfl; rw [h0] at b3; cases b3
  have b5 : fromW ≠ 1 := by rintro rfl; rw [h1] at b3; cases b3
  obtain ⟨mi, e3, f7⟩ := winSave_opened (o := a) (i := i) (by
    simp only [WinFds.set, n1.symm, n3.symm, a4.symm, b4.symm, if_false]; exact h0) hs1
  obtain ⟨rfl, rfl⟩ := Prod.mk.inj e3
  obtain ⟨c1, k⟩ := set_free f7
  obtain ⟨c2, k⟩ := set_free k
  obtain ⟨c3, k⟩ := set_free k
  obtain ⟨c4, c5⟩ := set_free k
  have c6 : mi ≠ 0 := by rintro rfl; rw [h0] at c5; cases c5
  have c7 : mi ≠ 1 := by rintro rfl; rw [h1] at c5; cases c5
  obtain ⟨mo, e4, f8⟩ := winSave_opened (o := b) (i := j) (by
    simp only [WinFds.set, n2.symm, n4.symm, a5.symm, b5.symm, c7.symm, if_false]; exact h1) hs2
  obtain ⟨rfl, rfl⟩ := Prod.mk.inj e4
  obtain ⟨g0, k⟩ := set_free f8
  obtain ⟨g1, k⟩ := set_free k
  obtain ⟨g2, k⟩ := set_free k
  obtain ⟨g3, k⟩ := set_free k
  obtain ⟨g4, g5⟩ := set_free k
  have g6 : mo ≠ 0 := by rintro rfl; rw [h0] at g5; cases g5
  have g7 : mo ≠ 1 := by rintro rfl; rw [h1] at g5; cases g5
  refine ⟨mi, mo, rfl, rfl, ?_, ?_, ?_, ?_, n1, b4, b5, c6, c7, c4, c1, g6, g7, g4, g1, g0, ?_, ?_⟩
  · simp [WinFds.set, g4.symm, c4.symm, b1.symm, a1.symm, f3]
  · simp [WinFds.set, g1.symm, c1.symm]
  · simp [WinFds.set, g0.symm]
  · simp [WinFds.set]
  · simp [g0, g1, g2, g3, g4, c1, c2, c3, c4, b1, b2, f6.symm, a1, a2, f3.symm]
  · simp [g5, c5, b3, a3, f2, f1]

theorem room_firstFree {k limit : Nat} {t : WinFds} (h : Room (k + 1) limit t) :
    ∃ n, t.firstFree limit = some n ∧ ∀ o i, Room k limit (t.set n (.opened o i)) := by
  obtain ⟨m, h1, h2⟩ := h
  cases hf : t.firstFree limit with
  | none =>
    unfold WinFds.firstFree at hf
    rw [List.find?_eq_none] at hf
    exact absurd (h2 m (Nat.le_refl _)) (by simpa using hf m (List.mem_range.2 (by omega)))
  | some n =>
    refine ⟨n, rfl, fun o i => ⟨m + 1, by omega, fun q hq => ?_⟩⟩
    have : n ≤ m := by
      unfold WinFds.firstFree at hf
      refine Nat.not_lt.1 fun hlt => ?_
      obtain ⟨_, as, bs, e, hall⟩ := List.find?_eq_some_iff_append.1 hf
      have hn : n < limit := by
        have := List.mem_of_find?_eq_some hf
        simpa using this
      have hm : m ∈ as := by
        have e1 : as = List.range n := by
          have := congrArg (List.take as.length) e
          rw [List.take_left] at this
          have hl : as.length = n := by
            have h3 : (List.range limit)[as.length]? = some n := by rw [e]; simp
            rw [List.getElem?_range (by
              have := congrArg List.length e; simp at this; omega)] at h3
            simpa using h3
          rw [← this, hl, List.take_range]
          congr 1
          omega
        rw [e1]
        exact List.mem_range.2 hlt
      have := hall m hm
      rw [h2 m (Nat.le_refl _)] at this
      simp at this
    rw [WinFds.set_ne _ _ (by omega)]
    exact h2 q (by omega)

theorem room_pipe {k limit : Nat} {t : WinFds} (b : Bool) (h : Room (k + 2) limit t) :
    ∃ r w t', t.pipe limit b = some (r, w, t') ∧ Room k limit t' := by
  obtain ⟨r, h1, h2⟩ := room_firstFree h
  obtain ⟨w, h3, h4⟩ := room_firstFree (h2 (.pipe b false) false)
  refine ⟨r, w, _, ?_, h4 (.pipe b true) false⟩
  unfold WinFds.pipe
  simp only [h1, h3]

/-- How `mlle_spawn` ends when the streams are in order and there are descriptors. -/
def winOutcome (env : WinEnv) (exec : Bytes) (l : WinLink) : WinOut :=
  if env.pipeTo = false ∨ env.pipeFrom = false then .failed b!"_pipe() failed."
  else
    match env.toIn, env.toOut, winStart env exec, env.backIn, env.backOut with
    | some e, _, _, _, _ => .failed (b!"Failed to duplicate (and close) STDIN stream (errno: " ++ decNat e ++ b!").")
    | none, some e, _, _, _ =>
      .failed (b!"Failed to duplicate (and close) STDOUT stream (errno: " ++ decNat e ++ b!").")
    | none, none, some m, _, _ => .failed m
    | none, none, none, some e, _ =>
      .failed (b!"Failed to reassociate STDIN stream (errno: " ++ decNat e ++ b!").")
    | none, none, none, none, some e =>
      .failed (b!"Failed to reassociate STDOUT stream (errno: " ++ decNat e ++ b!").")
    | none, none, none, none, none => if env.calloc then .link l else .failed b!"Out of memory."

theorem winSpawn_outcome {limit : Nat} {env : WinEnv} {exec : Bytes} {t : WinFds} {a b : WinObj} {i j : Bool}
    (h0 : t 0 = .opened a i) (h1 : t 1 = .opened b j) (hroom : Room 6 limit t) :
    ∃ l, (winSpawn limit env exec t).out = winOutcome env exec l := by
  obtain ⟨toR, toW, t1, p1, r1⟩ := room_pipe true hroom
  obtain ⟨fromR, fromW, t2, p2, r2⟩ := room_pipe false r1
  obtain ⟨mi, q1, r3⟩ := room_firstFree r2
  have keep : ∀ {u u' : WinFds} {bb : Bool} {x y n : Nat} {o : WinObj} {k : Bool}, u.pipe limit bb = some (x, y, u') →
      u n = .opened o k → u' n = .opened o k := by
    intro u u' bb x y n o k hu hn
    obtain ⟨z1, z2, _, rfl⟩ := WinFds.pipe_some hu
    have w1 : n ≠ x := by rintro rfl; rw [hn] at z1; cases z1
    have w2 : n ≠ y := by rintro rfl; rw [hn] at z2; cases z2
    rw [WinFds.set_ne _ _ w2, WinFds.set_ne _ _ w1, hn]
  have hs1 : winSave limit t2 0 b!"STDIN" = .ok (some mi, t2.set mi (.opened a true)) := by
    unfold winSave WinFds.dup
    rw [keep p2 (keep p1 h0)]
    simp only [q1]
  obtain ⟨mo, q2, _⟩ := room_firstFree (r3 a true)
  have hm1 : mi ≠ 1 := by
    rintro rfl
    have := (WinFds.firstFree_some q1).1
    rw [keep p2 (keep p1 h1)] at this
    cases this
  have hs2 : winSave limit (t2.set mi (.opened a true)) 1 b!"STDOUT" =
      .ok (some mo, (t2.set mi (.opened a true)).set mo (.opened b true)) := by
    unfold winSave WinFds.dup
    rw [WinFds.set_ne _ _ hm1.symm, keep p2 (keep p1 h1)]
    simp only [q2]
  refine ⟨⟨toW, fromR⟩, ?_⟩
  by_cases e1 : env.pipeTo = true
  rotate_left
  · rw [Bool.not_eq_true] at e1
    simp [winSpawn, winOutcome, e1]
  by_cases e2 : env.pipeFrom = true
  rotate_left
  · rw [Bool.not_eq_true] at e2
    simp [winSpawn, winOutcome, e1, e2, p1]
  have hsp : winSpawn limit env exec t = winConnect env exec toR toW fromR fromW (some mi) (some mo)
      ((t2.set mi (.opened a true)).set mo (.opened b true)) := by
    unfold winSpawn
    simp only [e1, e2, if_true, p1, p2, hs1, hs2]
  obtain ⟨mi', mo', g1, g2, k1, k2, k3, k4, d1, d2, d3, d4, d5, d6, d7, d8, d9, d10, d11, d12, _, _⟩ :=
    win_names h0 h1 p1 p2 hs1 hs2
  cases g1
  cases g2
  generalize (t2.set mi (.opened a true)).set mo (.opened b true) = t4 at *
  rw [hsp]
  unfold winOutcome winConnect
  rw [if_neg (by simp [e1, e2])]
  cases e3 : env.toIn with
  | some e => simp only [winDup2]
  | none =>
  have x1 : winDup2 none t4 toR 0 = .ok (t4.set 0 (.opened (.pipe true false) true)) := by
    simp only [winDup2, WinFds.dup2, k1, if_neg d1]
  simp only [x1]
  cases e4 : env.toOut with
  | some e => simp only [winDup2]
  | none =>
  have x2 : winDup2 none (t4.set 0 (.opened (.pipe true false) true)) fromW 1 =
      .ok ((t4.set 0 (.opened (.pipe true false) true)).set 1 (.opened (.pipe false true) true)) := by
    simp only [winDup2, WinFds.dup2, WinFds.set_ne _ _ d2, k2, if_neg d3]
  simp only [x2]
  cases e5 : winStart env exec with
  | some m => simp only
  | none =>
  simp only [winFinish]
  cases e6 : env.backIn with
  | some e => simp [winRestore, winDup2]
  | none =>
  have x3 : ∃ t7, winRestore none
      ((((t4.set 0 (.opened (.pipe true false) true)).set 1 (.opened (.pipe false true) true)).close toR).close fromW)
      (some mi) 0 b!"STDIN" = .ok t7 ∧ t7 mo = .opened b true := by
    refine ⟨_, by simp only [winRestore, winDup2, WinFds.dup2, WinFds.close, WinFds.set_ne _ _ d7,
      WinFds.set_ne _ _ d6, WinFds.set_ne _ _ d5, WinFds.set_ne _ _ d4, k3, if_neg d4]; rfl, ?_⟩
    simp only [WinFds.set_ne _ _ d12, WinFds.set_ne _ _ d11, WinFds.set_ne _ _ d10, WinFds.set_ne _ _ d9,
      WinFds.set_ne _ _ d8, k4]
  obtain ⟨t7, x3, x4⟩ := x3
  simp only [x3]
  cases e7 : env.backOut with
  | some e => simp [winRestore, winDup2]
  | none =>
  have x5 : winRestore none t7 (some mo) 1 b!"STDOUT" = .ok ((t7.set 1 (.opened b true)).close mo) := by
    simp only [winRestore, winDup2, WinFds.dup2, x4, if_neg d9]
  simp only [x5]

theorem winStart_none {env : WinEnv} {exec : Bytes} (hlen : exec.length < 4091) : winStart env exec = none ↔
    env.runs exec = true ∨ 255 < exec.length ∧
      env.runs (b!"\\\\?\\" ++ exec.map fun c => if c = 47 then 92 else c) = true := by
  have hln : longName exec = b!"\\\\?\\" ++ exec.map fun c => if c = 47 then 92 else c := by
    unfold longName
    rw [if_pos (show exec.length < winLongMax - 5 from hlen)]
  unfold winStart
  rw [hln]
  by_cases c1 : env.runs exec = true
  · simp [c1]
  · by_cases c2 : exec.length > 255
    · by_cases c3 : env.runs (b!"\\\\?\\" ++ exec.map fun c => if c = 47 then 92 else c) = true
      · simp only [c1, c2, c3]; simp
      · simp only [c1, c2, c3]; simp
    · simp only [c1, c2]; simp

/-- **C80, which programs start.** If there are descriptors left and the system refuses nothing, there is a connection
exactly if the file can be started by its name, or, if the name has more than 255 bytes, by its name behind `\\?\` with
backslashes. -/
theorem c80_starts {limit : Nat} {env : WinEnv} {exec : Bytes} {t : WinFds} {a b : WinObj} {i j : Bool}
    (h0 : t 0 = .opened a i) (h1 : t 1 = .opened b j) (hroom : Room 6 limit t) (e1 : env.pipeTo = true)
    (e2 : env.pipeFrom = true) (e3 : env.toIn = none) (e4 : env.toOut = none) (e5 : env.backIn = none)
    (e6 : env.backOut = none) (e7 : env.calloc = true) (hlen : exec.length < 4091) :
    (∃ l, (winSpawn limit env exec t).out = .link l) ↔
      env.runs exec = true ∨ 255 < exec.length ∧
        env.runs (b!"\\\\?\\" ++ exec.map fun c => if c = 47 then 92 else c) = true := by
  obtain ⟨l, hl⟩ := winSpawn_outcome (env := env) (exec := exec) h0 h1 hroom
  rw [hl, ← winStart_none hlen]
  unfold winOutcome
  rw [if_neg (by simp [e1, e2]), e3, e4, e5, e6, e7]
  cases winStart env exec with
  | some m => simp
  | none => simp

theorem mentions_three {m p x q y r z s : Bytes} (h : m = p ++ (x ++ (q ++ (y ++ (r ++ (z ++ s)))))) :
    Mentions m [x, y, z] := by
  subst h
  intro w hw
  simp only [List.mem_cons, List.not_mem_nil, or_false] at hw
  rcases hw with rfl | rfl | rfl
  · exact ⟨p, q ++ y ++ r ++ z ++ s, by simp⟩
  · exact ⟨p ++ x ++ q, r ++ z ++ s, by simp⟩
  · exact ⟨p ++ x ++ q ++ y ++ r, s, by simp⟩

/-- **C80, messages.** When the streams are in order and there are descriptors, a start that fails has a reason, and the
message mentions it: the call or the stream that failed with its error number, or the file with the reason of the
system.  (Missing in the other theorems about failures: that they say why.) -/
theorem c80_says_why {limit : Nat} {env : WinEnv} {exec : Bytes} {t : WinFds} {a b : WinObj} {i j : Bool} {m : Bytes}
    (h0 : t 0 = .opened a i) (h1 : t 1 = .opened b j) (hroom : Room 6 limit t) (hlen : exec.length < 4091)
    (h : (winSpawn limit env exec t).out = .failed m) : ∃ ws, StartProblem env exec ws ∧ Mentions m ws := by
  obtain ⟨l, hl⟩ := winSpawn_outcome (env := env) (exec := exec) h0 h1 hroom
  rw [hl] at h
  unfold winOutcome at h
  split at h
  · rename_i hp
    cases h
    exact ⟨_, .pipe hp, fun w hw => ⟨[], b!"() failed.", by simp at hw; subst hw; rfl⟩⟩
  · rename_i hp
    have hp1 : env.pipeTo = true := by simpa using fun q => hp (.inl q)
    have hp2 : env.pipeFrom = true := by simpa using fun q => hp (.inr q)
    split at h
    · rename_i e1
      cases h
      exact ⟨_, .input ⟨hp1, hp2⟩ e1 (decNat_numeral _),
        mentions_three (p := b!"Failed to ") (q := b!" (and close) ") (r := b!" stream (errno: ") (s := b!").") (by simp)⟩
    · rename_i e1 e2
      cases h
      exact ⟨_, .output ⟨hp1, hp2, e1⟩ e2 (decNat_numeral _),
        mentions_three (p := b!"Failed to ") (q := b!" (and close) ") (r := b!" stream (errno: ") (s := b!").") (by simp)⟩
    · rename_i m' e1 e2 e3
      cases h
      have hn : ¬ winStart env exec = none := by rw [e3]; simp
      rw [winStart_none hlen] at hn
      refine ⟨_, .program ⟨hp1, hp2, e1, e2⟩ (by simpa using fun q => hn (.inl q))
        (fun q => by simpa using fun q' => hn (.inr ⟨q, q'⟩)), ?_⟩
      unfold winStart at e3
      split at e3
      · cases e3
      · split at e3
        · split at e3
          · cases e3
          · cases e3
            have := mentions_three (m := b!"Failed to start the process (" ++ env.reason ++
                b!"). Potentially due to too long executable file name (" ++ exec ++ b!")")
              (p := b!"Failed to start the ") (x := b!"process") (q := b!" (") (y := env.reason)
              (r := b!"). Potentially due to too long executable file name (") (z := exec) (s := b!")") (by simp)
            intro w hw
            refine this w ?_
            simp only [List.mem_cons, List.not_mem_nil, or_false] at hw ⊢
            rcases hw with h | h | h
            · exact .inl h
            · exact .inr (.inr h)
            · exact .inr (.inl h)
        · cases e3
          exact mentions_three (p := b!"Failed to create a new ") (q := b!" (") (r := b!", ") (s := b!").") (by simp)
    · rename_i e1 e2 e3 e4
      cases h
      exact ⟨_, .backIn ⟨hp1, hp2, e1, e2⟩ ((winStart_none hlen).1 e3) e4 (decNat_numeral _),
        mentions_three (p := b!"Failed to ") (q := b!" ") (r := b!" stream (errno: ") (s := b!").") (by simp)⟩
    · rename_i e1 e2 e3 e4 e5
      cases h
      exact ⟨_, .backOut ⟨hp1, hp2, e1, e2, e4⟩ ((winStart_none hlen).1 e3) e5 (decNat_numeral _),
        mentions_three (p := b!"Failed to ") (q := b!" ") (r := b!" stream (errno: ") (s := b!").") (by simp)⟩
    · rename_i e1 e2 e3 e4 e5
      split at h
      · cases h
      · rename_i e6
        cases h
        exact ⟨_, .memory ⟨hp1, hp2, e1, e2, e4, e5⟩ ((winStart_none hlen).1 e3) (by simpa using e6),
          fun w hw => ⟨b!"Out of ", b!".", by simp at hw; subst hw; rfl⟩⟩

theorem WinFds.pipe_lt {limit : Nat} {u : WinFds} {bb : Bool} {x y : Nat} {u' : WinFds}
    (hu : u.pipe limit bb = some (x, y, u')) : x < limit ∧ y < limit := by
  unfold WinFds.pipe at hu
  split at hu
  · cases hu
  · rename_i r hr
    dsimp only at hu
    split at hu
    · cases hu
    · rename_i w hw
      simp only [Option.some.injEq, Prod.mk.injEq] at hu
      obtain ⟨rfl, rfl, _⟩ := hu
      exact ⟨(WinFds.firstFree_some hr).2, (WinFds.firstFree_some hw).2⟩

theorem winSave_lt {limit : Nat} {t t' : WinFds} {n m : Nat} {name : Bytes}
    (h : winSave limit t n name = .ok (some m, t')) : m < limit := by
  unfold winSave WinFds.dup at h
  split at h
  · rename_i heq
    split at heq
    · split at heq
      · rename_i hf
        simp only [Except.ok.injEq, Prod.mk.injEq, Option.some.injEq] at heq h
        rw [← h.1, ← heq.1]
        exact (WinFds.firstFree_some hf).2
      · cases heq
    · cases heq
  · split at h <;> simp at h

/-- **C80, failure.** If the pipes cannot be made, or there are fewer than six descriptors left, so that the standard
streams cannot be saved, or the first of them cannot be replaced, the start fails and they are what they were. -/
theorem c80_early_failure_partial {limit : Nat} {env : WinEnv} {exec : Bytes} {t : WinFds} {a b : WinObj} {i j : Bool}
    (h0 : t 0 = .opened a i) (h1 : t 1 = .opened b j)
    (h : env.pipeTo = false ∨ env.pipeFrom = false ∨ ((List.range limit).filter fun n => t n = .free).length < 6 ∨
      env.toIn ≠ none) :
    (winSpawn limit env exec t).tool 0 = t 0 ∧ (winSpawn limit env exec t).tool 1 = t 1 ∧
      (winSpawn limit env exec t).child = none ∧ ∃ m, (winSpawn limit env exec t).out = .failed m := by
  have keep : ∀ {u u' : WinFds} {bb : Bool} {x y n : Nat} {o : WinObj} {k : Bool}, u.pipe limit bb = some (x, y, u') →
      u n = .opened o k → u' n = .opened o k := by
    intro u u' bb x y n o k hu hn
    obtain ⟨z1, z2, _, rfl⟩ := WinFds.pipe_some hu
    have w1 : n ≠ x := by rintro rfl; rw [hn] at z1; cases z1
    have w2 : n ≠ y := by rintro rfl; rw [hn] at z2; cases z2
    rw [WinFds.set_ne _ _ w2, WinFds.set_ne _ _ w1, hn]
  have keep2 : ∀ {u : WinFds} {m n : Nat} {o o' : WinObj} {k : Bool}, u m = .free → u n = .opened o k →
      u.set m (.opened o' true) n = .opened o k := by
    intro u m n o o' k hm hn
    have : n ≠ m := by rintro rfl; rw [hm] at hn; cases hn
    rw [WinFds.set_ne _ _ this, hn]
  unfold winSpawn
  cases hb : env.pipeTo with
  | false => exact ⟨rfl, rfl, rfl, _, rfl⟩
  | true =>
    simp only [if_true]
    cases hp1 : t.pipe limit true with
    | none => exact ⟨rfl, rfl, rfl, _, rfl⟩
    | some x =>
      obtain ⟨toR, toW, t1⟩ := x
      have k10 := keep hp1 h0
      have k11 := keep hp1 h1
      simp only
      cases hb2 : env.pipeFrom with
      | false => exact ⟨k10.trans h0.symm, k11.trans h1.symm, rfl, _, rfl⟩
      | true =>
        simp only [if_true]
        cases hp2 : t1.pipe limit false with
        | none => exact ⟨k10.trans h0.symm, k11.trans h1.symm, rfl, _, rfl⟩
        | some y =>
          obtain ⟨fromR, fromW, t2⟩ := y
          have k20 := keep hp2 k10
          have k21 := keep hp2 k11
          simp only
          cases hs1 : winSave limit t2 0 b!"STDIN" with
          | error m => exact ⟨k20.trans h0.symm, k21.trans h1.symm, rfl, _, rfl⟩
          | ok z =>
            obtain ⟨mi, e3, f3⟩ := winSave_opened k20 hs1
            subst e3
            have k30 := keep2 (o' := a) f3 k20
            have k31 := keep2 (o' := a) f3 k21
            simp only
            cases hs2 : winSave limit (t2.set mi (.opened a true)) 1 b!"STDOUT" with
            | error m => exact ⟨k30.trans h0.symm, k31.trans h1.symm, rfl, _, rfl⟩
            | ok z2 =>
              obtain ⟨mo, e4, f4⟩ := winSave_opened k31 hs2
              subst e4
              have k40 := keep2 (o' := b) f4 k30
              have k41 := keep2 (o' := b) f4 k31
              simp only
              obtain ⟨mi', mo', g1, g2, _, _, _, _, _, _, _, _, _, _, _, _, _, _, _, _, hnd, hfr⟩ :=
                win_names h0 h1 hp1 hp2 hs1 hs2
              cases g1
              cases g2
              rcases h with h | h | h | h
              · rw [hb] at h; cases h
              · rw [hb2] at h; cases h
              · exfalso
                have hsub : [mo, mi, fromW, fromR, toW, toR] ⊆ (List.range limit).filter fun n => t n = .free := by
                  intro n hn
                  refine List.mem_filter.2 ⟨List.mem_range.2 ?_, by simpa using hfr n hn⟩
                  simp only [List.mem_cons, List.not_mem_nil, or_false] at hn
                  rcases hn with rfl | rfl | rfl | rfl | rfl | rfl
                  · exact winSave_lt hs2
                  · exact winSave_lt hs1
                  · exact (WinFds.pipe_lt hp2).2
                  · exact (WinFds.pipe_lt hp2).1
                  · exact (WinFds.pipe_lt hp1).2
                  · exact (WinFds.pipe_lt hp1).1
                have := (hnd.subperm hsub).length_le
                simp only [List.length_cons, List.length_nil] at this
                omega
              · cases hti : env.toIn with
                | none => exact absurd hti h
                | some e =>
                  unfold winConnect
                  rw [hti]
                  exact ⟨k40.trans h0.symm, k41.trans h1.symm, rfl, _, rfl⟩

/-! ### A console program -/

/-- Standard input, output and error; the first one would not be inherited. -/
def console : WinFds := fun n =>
  match n with
  | 0 => .opened (.other 0) false
  | 1 => .opened (.other 1) true
  | 2 => .opened (.other 2) true
  | _ => .free

example : ∃ r l child, winSpawn 2048 { runs := fun e => e = b!"C:/lve.exe" } b!"C:/lve.exe" console = r ∧
    r.out = .link l ∧ r.child = some child ∧ behind (r.tool 0) = some (.other 0) ∧ l = ⟨4, 5⟩ := by
  have h : (winSpawn 2048 { runs := fun e => e = b!"C:/lve.exe" } b!"C:/lve.exe" console).out = .link ⟨4, 5⟩ := by
    decide +kernel
  obtain ⟨c, h1, h2, _⟩ := c80_streams_partial (t := console) rfl rfl rfl h
  exact ⟨_, _, c, rfl, h, h1, h2, rfl⟩

theorem console_noPipes : NoPipes console := by
  intro n b c i h
  match n, h with
  | 0, h => cases h
  | 1, h => cases h
  | 2, h => cases h
  | n + 3, h => cases h

theorem console_room : Room 6 2048 console := by
  refine ⟨3, by decide, fun n hn => ?_⟩
  match n, hn with
  | n + 3, _ => rfl

example : ∃ l, (winSpawn 2048 { runs := fun e => e = b!"C:/lve.exe" } b!"C:/lve.exe" console).out = .link l :=
  (c80_starts rfl rfl console_room rfl rfl rfl rfl rfl rfl rfl (by decide)).2 (Or.inl (by decide))

example : (winSpawn 8 { runs := fun _ => true } b!"C:/lve.exe" console).tool 0 = .opened (.other 0) false :=
  (c80_early_failure_partial rfl rfl (Or.inr (Or.inr (Or.inl (by decide +kernel))))).1

/-! ### What goes wrong -/

/-- **C80 does not hold: failure.** If the vendor executable cannot be started, the standard streams of the tool are
the pipes afterwards, and four more descriptors stay open. -/
theorem c80_failure_not :
    ∃ limit env exec t m, t 0 = .opened (.other 0) false ∧ t 1 = .opened (.other 1) true ∧ NoPipes t ∧ Room 6 limit t ∧
      (winSpawn limit env exec t).out = .failed m ∧
      (winSpawn limit env exec t).tool 0 = .opened (.pipe true false) true ∧
      (winSpawn limit env exec t).tool 1 = .opened (.pipe false true) true ∧
      ∃ l : List Nat, l.Nodup ∧ l.length = 4 ∧
        ∀ n ∈ l, t n = .free ∧ (winSpawn limit env exec t).tool n ≠ .free :=
  ⟨2048, { runs := fun _ => false, reason := b!"No such file or directory" }, b!"C:/lve.exe", console,
    b!"Failed to create a new process (C:/lve.exe, No such file or directory).", rfl, rfl, console_noPipes, console_room,
    by decide +kernel, by decide +kernel, by decide +kernel, [4, 5, 7, 8], by decide, rfl, by decide +kernel⟩

/-- A start that fails because standard output cannot be replaced. -/
example : (winSpawn 2048 { runs := fun _ => true, toOut := some 24 } b!"C:/lve.exe" console).out =
    .failed b!"Failed to duplicate (and close) STDOUT stream (errno: 24)." := by decide +kernel

/-- **C80 does not hold: programs without console.** The tool keeps the ends of the pipes that belong to the vendor
executable. -/
theorem c80_window_not :
    ∃ limit env exec t l, NoPipes t ∧ Room 6 limit t ∧ (winSpawn limit env exec t).out = .link l ∧
      (winSpawn limit env exec t).tool 0 = .opened (.pipe true false) true ∧
      (winSpawn limit env exec t).tool 1 = .opened (.pipe false true) true :=
  ⟨2048, { runs := fun _ => true }, b!"C:/lve.exe", fun n => if n < 3 then .noHandle else .free, ⟨4, 5⟩,
    (by intro n b c i h; dsimp only at h; split at h <;> cases h),
    ⟨3, by decide, fun n hn => if_neg (by omega)⟩, by decide +kernel, by decide +kernel, by decide +kernel⟩

/-- **C80 does not hold: standard input closed.** Then the pipe takes its place, and is closed before the vendor
executable starts; this has no standard input, and the tool has a connection to nobody. -/
theorem c80_closed_not :
    ∃ limit env exec t l, t 0 = .free ∧ NoPipes t ∧ Room 6 limit t ∧ (winSpawn limit env exec t).out = .link l ∧
      (winSpawn limit env exec t).child.map (· 0) = some .free :=
  ⟨2048, { runs := fun _ => true }, b!"C:/lve.exe", console.close 0, ⟨3, 4⟩, rfl,
    (by
      intro n b c i h
      by_cases hn : n = 0
      · subst hn; cases h
      · rw [WinFds.close, WinFds.set_ne _ _ hn] at h
        exact console_noPipes n b c i h),
    ⟨3, by decide, fun n hn => by
      rw [WinFds.close, WinFds.set_ne _ _ (by omega)]; match n, hn with | n + 3, _ => rfl⟩, by decide +kernel, by decide +kernel⟩

/-- **C80 does not hold: streams of the tool.** The vendor executable gets the standard input of the tool, also if this is
not to be inherited. -/
theorem c80_inherit_not :
    ∃ limit env exec t l n, t 0 = .opened (.other 0) false ∧ t 1 = .opened (.other 1) true ∧ NoPipes t ∧
      Room 6 limit t ∧ (∀ n, t n ≠ .opened (.other 0) true) ∧ (winSpawn limit env exec t).out = .link l ∧
      (winSpawn limit env exec t).child.map (· n) = some (.opened (.other 0) true) :=
  ⟨2048, { runs := fun _ => true }, b!"C:/lve.exe", console, ⟨4, 5⟩, 7, rfl, rfl, console_noPipes, console_room,
    (by
      intro n h
      match n, h with
      | 0, h => cases h
      | 1, h => cases h
      | 2, h => cases h
      | n + 3, h => cases h), by decide +kernel, by decide +kernel⟩

/-- **C80 does not hold: long names.** A file with a name of 4091 bytes is not started by its long name; the file `\\?\` is
tried instead. -/
theorem c80_long_not :
    ∃ limit env exec t, t 0 = .opened (.other 0) false ∧ t 1 = .opened (.other 1) true ∧ Room 6 limit t ∧
      exec.length = 4091 ∧ env.runs (b!"\\\\?\\" ++ exec) = true ∧ (winSpawn limit env exec t).child.isNone = true :=
  ⟨2048, { runs := fun e => e.length = 4095 }, List.replicate 4091 97, console, rfl, rfl,
    console_room, List.length_replicate, by decide +kernel, by decide +kernel⟩

end Semla.Props
