import Verif.Spec.Process

/-! # Lemmas about processes and pipes -/

namespace Semla

open Spec

theorem firstFree_some {limit : Nat} {t : Fds} {n : Nat} (h : t.firstFree limit = some n) :
    n < limit ∧ t n = none ∧ ∀ m < n, t m ≠ none := by
  unfold Fds.firstFree at h
  rw [List.find?_range_eq_some] at h
  obtain ⟨h1, h2, h3⟩ := h
  refine ⟨List.mem_range.mp h2, by simpa using h1, fun m hm hn => ?_⟩
  have := h3 m hm
  simp [hn] at this

theorem firstFree_none {limit : Nat} {t : Fds} (h : t.firstFree limit = none) :
    ∀ n < limit, t n ≠ none := by
  unfold Fds.firstFree at h
  intro n hn h0
  rw [List.find?_eq_none] at h
  exact h n (List.mem_range.mpr hn) (by simp [h0])

theorem pipe_some {limit : Nat} {t : Fds} {k : Nat} {d : Bool} {r w : Nat} {t' : Fds}
    (h : t.pipe limit k d = some (r, w, t')) :
    r < w ∧ w < limit ∧ t r = none ∧ t w = none ∧ (∀ m < w, m ≠ r → t m ≠ none) ∧
      t' = fun n => if n = w then some (.pipe k d true) else if n = r then some (.pipe k d false)
        else t n := by
  unfold Fds.pipe at h
  split at h
  · cases h
  · rename_i r' hr
    dsimp only at h
    split at h
    · cases h
    · rename_i w' hw
      cases h
      obtain ⟨h1, h2, h3⟩ := firstFree_some hr
      obtain ⟨h4, h5, h6⟩ := firstFree_some hw
      have hne : r ≠ w := by
        rintro rfl
        simp [Fds.set] at h5
      have hlt : r < w := by
        rcases Nat.lt_or_gt_of_ne hne with h | h
        · exact h
        · refine absurd ?_ (h3 w h)
          simpa [Fds.set, Ne.symm hne] using h5
      refine ⟨hlt, h4, h2, ?_, fun m hm hmr => ?_, rfl⟩
      · simpa [Fds.set, Ne.symm hne] using h5
      · have := h6 m hm
        simpa [Fds.set, hmr] using this

theorem childSetup_some {t u : Fds} {k toR toW fromR fromW : Nat}
    (h1 : toR < toW) (h2 : toW < fromR) (h3 : fromR < fromW)
    (hR : t toR = some (.pipe k true false)) (hW : t fromW = some (.pipe k false true))
    (h : childSetup t toR toW fromR fromW = some u) :
    toR ≠ 0 ∧ u = fun n => if n = 0 then some (.pipe k true false) else if n = 1 then some (.pipe k false true)
      else if n = toR ∨ n = toW ∨ n = fromR ∨ n = fromW then none else t n := by
  have h0 : toR ≠ 0 := by
    rintro rfl
    simp [childSetup, Fds.dup2, Fds.close] at h
  refine ⟨h0, ?_⟩
  have e1 : toR ≠ toW := by omega
  have e2 : fromW ≠ toR := by omega
  have e3 : fromW ≠ toW := by omega
  have e4 : fromW ≠ fromR := by omega
  have e5 : fromW ≠ 0 := by omega
  have e6 : fromW ≠ 1 := by omega
  simp [childSetup, Fds.dup2, Fds.close, Fds.set, h0, hR, hW, e1, e2, e3, e4, e5, e6] at h
  rw [← h]
  funext n
  simp only [Fds.close, Fds.set]
  by_cases n0 : n = 0
  · subst n0
    simp [Ne.symm e5, Ne.symm h0, show (0 : Nat) ≠ fromR by omega]
  · by_cases n1 : n = 1
    · subst n1
      simp [Ne.symm e6]
    · by_cases n2 : n = fromW
      · simp [n2, e5, e6]
      · by_cases n3 : n = fromR
        · simp [n3, show fromR ≠ 0 by omega, show fromR ≠ 1 by omega]
        · by_cases n4 : n = toR
          · simp only [n4] at *
            simp [n0, n1]
          · by_cases n5 : n = toW
            · simp only [n5] at *
              simp [n0, n1, n2, n3]
            · simp [n0, n1, n2, n3, n4, n5]

theorem childSetup_isSome {t : Fds} {k toR toW fromR fromW : Nat} (h0 : toR ≠ 0)
    (h1 : toR < toW) (h2 : toW < fromR) (h3 : fromR < fromW)
    (hR : t toR = some (.pipe k true false)) (hW : t fromW = some (.pipe k false true)) :
    ∃ u, childSetup t toR toW fromR fromW = some u := by
  have e1 : toR ≠ toW := by omega
  have e2 : fromW ≠ toR := by omega
  have e3 : fromW ≠ toW := by omega
  have e4 : fromW ≠ fromR := by omega
  have e5 : fromW ≠ 0 := by omega
  have e6 : fromW ≠ 1 := by omega
  exact ⟨_, by simp [childSetup, Fds.dup2, Fds.close, Fds.set, h0, hR, hW, e1, e2, e3, e4, e5, e6]; rfl⟩

/-- Descriptors of the four ends of the pipes of a start, and the tool's table with all of them. -/
structure Ends (limit : Nat) (s : Sys) (t : Fds) (toR toW fromR fromW : Nat) : Prop where
  o1 : toR < toW
  o2 : toW < fromR
  o3 : fromR < fromW
  o4 : fromW < limit
  f1 : s.tool toR = none
  f2 : s.tool toW = none
  f3 : s.tool fromR = none
  f4 : s.tool fromW = none
  low : ∀ m < toR, s.tool m ≠ none
  eq : t = fun n => if n = fromW then some (.pipe s.next false true)
    else if n = fromR then some (.pipe s.next false false)
    else if n = toW then some (.pipe s.next true true)
    else if n = toR then some (.pipe s.next true false) else s.tool n

theorem ends_of_pipes {limit : Nat} {s : Sys} {toR toW fromR fromW : Nat} {t t' : Fds}
    (h1 : s.tool.pipe limit s.next true = some (toR, toW, t))
    (h2 : t.pipe limit s.next false = some (fromR, fromW, t')) :
    Ends limit s t' toR toW fromR fromW := by
  obtain ⟨a1, a2, a3, a4, a5, a6⟩ := pipe_some h1
  obtain ⟨b1, b2, b3, b4, b5, b6⟩ := pipe_some h2
  have hlow : ∀ m ≤ toW, t m ≠ none := by
    intro m hm
    rw [a6]
    by_cases e1 : m = toW
    · simp [e1]
    · by_cases e2 : m = toR
      · simp [e2, Nat.ne_of_lt a1]
      · simp [e1, e2]
        exact a5 m (by omega) e2
  have c1 : toW < fromR := by
    rcases Nat.lt_or_ge toW fromR with h | h
    · exact h
    · exact absurd b3 (hlow _ h)
  have c2 : toW < fromW := by omega
  refine ⟨a1, c1, b1, b2, a3, a4, ?_, ?_, fun m hm => a5 m (by omega) (by omega), ?_⟩
  · rw [a6] at b3
    simpa [show fromR ≠ toW by omega, show fromR ≠ toR by omega] using b3
  · rw [a6] at b4
    simpa [show fromW ≠ toW by omega, show fromW ≠ toR by omega] using b4
  · rw [b6, a6]

/-- The ways `mlle_spawn` can end. -/
theorem spawn_cases (limit : Nat) (env : SpawnEnv) (s : Sys) :
    ((spawn limit env s).2 = s ∧ ∀ l, (spawn limit env s).1 ≠ .link l) ∨
    (∃ toR toW t, s.tool.pipe limit s.next true = some (toR, toW, t) ∧
      spawn limit env s = (.pipeFailed, { s with tool := t, next := s.next + 1 })) ∨
    (∃ toR toW fromR fromW t, Ends limit s t toR toW fromR fromW ∧
      spawn limit env s = (.forkFailed, { s with tool := t, next := s.next + 1 })) ∨
    (∃ toR toW fromR fromW t, Ends limit s t toR toW fromR fromW ∧ env.fork = true ∧
      spawn limit env s = (if env.calloc then .link ⟨toW, fromR, s.next⟩ else .noMemory,
        ⟨t.close toR, s.children ++ forkChild env s.next t toR toW fromR fromW, s.links, s.next + 1⟩)) := by
  unfold spawn
  split
  · exact .inl ⟨rfl, by simp⟩
  · split
    · exact .inl ⟨rfl, by simp⟩
    · split
      · exact .inl ⟨rfl, by simp⟩
      · rename_i toR toW t h1
        have h1' : s.tool.pipe limit s.next true = some (toR, toW, t) := by
          split at h1
          · exact h1
          · cases h1
        dsimp only
        split
        · exact .inr (.inl ⟨toR, toW, t, h1', rfl⟩)
        · rename_i fromR fromW t' h2
          have h2' : t.pipe limit s.next false = some (fromR, fromW, t') := by
            split at h2
            · exact h2
            · cases h2
          have he := ends_of_pipes h1' h2'
          split
          · exact .inr (.inr (.inl ⟨toR, toW, fromR, fromW, t', he, rfl⟩))
          · rename_i hf
            refine .inr (.inr (.inr ⟨toR, toW, fromR, fromW, t', he, by simpa using hf, ?_⟩))
            split <;> simp

/-- What holds in all states a tool can get into. -/
structure SysInv (s : Sys) : Prop where
  bound : ∀ n k a w, s.tool n = some (.pipe k a w) → k < s.next
  linkBound : ∀ l ∈ s.links, l.k < s.next
  toW : ∀ l ∈ s.links, s.tool l.fdTo = some (.pipe l.k true true)
  fromR : ∀ l ∈ s.links, s.tool l.fdFrom = some (.pipe l.k false false)
  uniqW : ∀ l ∈ s.links, ∀ n, s.tool n = some (.pipe l.k true true) → n = l.fdTo
  uniqR : ∀ l ∈ s.links, ∀ n, s.tool n = some (.pipe l.k false false) → n = l.fdFrom
  noR : ∀ l ∈ s.links, ∀ n, s.tool n ≠ some (.pipe l.k true false)
  leak : ∀ l ∈ s.links, Has s.tool (.pipe l.k false true)
  distinct : ∀ l ∈ s.links, ∀ l' ∈ s.links, l.k = l'.k → l = l'
  childBound : ∀ c ∈ s.children, c.k < s.next
  childUniq : ∀ c ∈ s.children, ∀ c' ∈ s.children, c.k = c'.k → c = c'
  childBefore : ∀ c ∈ s.children, ∀ n k a w, c.fds n = some (.pipe k a w) → k ≤ c.k
  childOwn : ∀ c ∈ s.children, ∀ n a w, c.fds n = some (.pipe c.k a w) ↔
    (n = 0 ∧ a = true ∧ w = false) ∨ (n = 1 ∧ a = false ∧ w = true)
  childR : ∀ l ∈ s.links, ∀ c ∈ s.children, Has c.fds (.pipe l.k true false) → c.k = l.k
  inherits : ∀ l ∈ s.links, ∀ c ∈ s.children, l.k < c.k → ∀ n ≥ 2, (n = l.fdTo ∨ n = l.fdFrom) →
    c.fds n = s.tool n
  inheritsLeak : ∀ l ∈ s.links, ∀ c ∈ s.children, l.k < c.k → ∀ n ≥ 2,
    s.tool n = some (.pipe l.k false true) → c.fds n = some (.pipe l.k false true)

theorem inv_init {t : Fds} (h : Fresh t) : SysInv (Sys.init t) := by
  refine ⟨fun n k a w hn => ?_, ?_, ?_, ?_, ?_, ?_, ?_, ?_, ?_, ?_, ?_, ?_, ?_, ?_, ?_, ?_⟩
  · have := h n _ hn
    cases this
  all_goals simp [Sys.init]

/-- Ends of new pipes at descriptors that were free. -/
theorem inv_grow {s : Sys} {t : Fds} (h : SysInv s)
    (ht : ∀ n, t n = s.tool n ∨ (s.tool n = none ∧ ∃ a w, t n = some (.pipe s.next a w))) :
    SysInv ⟨t, s.children, s.links, s.next + 1⟩ := by
  have key : ∀ n k a w, k < s.next → (t n = some (.pipe k a w) ↔ s.tool n = some (.pipe k a w)) := by
    intro n k a w hk
    rcases ht n with h1 | ⟨h1, a', w', h2⟩
    · rw [h1]
    · rw [h1, h2]
      simp
      intro e
      omega
  have keep : ∀ n o, s.tool n = some o → t n = some o := by
    intro n o ho
    rcases ht n with h1 | ⟨h1, _⟩
    · rw [h1, ho]
    · rw [h1] at ho; cases ho
  constructor
  · intro n k a w hn
    dsimp only at hn ⊢
    rcases ht n with h1 | ⟨h1, a', w', h2⟩
    · rw [h1] at hn
      exact Nat.lt_succ_of_lt (h.bound _ _ _ _ hn)
    · rw [h2] at hn
      cases hn
      omega
  · intro l hl
    exact Nat.lt_succ_of_lt (h.linkBound l hl)
  · intro l hl
    exact keep _ _ (h.toW l hl)
  · intro l hl
    exact keep _ _ (h.fromR l hl)
  · intro l hl n hn
    exact h.uniqW l hl n ((key _ _ _ _ (h.linkBound l hl)).mp hn)
  · intro l hl n hn
    exact h.uniqR l hl n ((key _ _ _ _ (h.linkBound l hl)).mp hn)
  · intro l hl n hn
    exact h.noR l hl n ((key _ _ _ _ (h.linkBound l hl)).mp hn)
  · intro l hl
    obtain ⟨n, hn⟩ := h.leak l hl
    exact ⟨n, keep _ _ hn⟩
  · exact h.distinct
  · intro c hc
    exact Nat.lt_succ_of_lt (h.childBound c hc)
  · exact h.childUniq
  · exact h.childBefore
  · exact h.childOwn
  · exact h.childR
  · intro l hl c hc hk n hn he
    rw [h.inherits l hl c hc hk n hn he]
    dsimp only
    rcases he with rfl | rfl
    · rw [h.toW l hl, keep _ _ (h.toW l hl)]
    · rw [h.fromR l hl, keep _ _ (h.fromR l hl)]
  · intro l hl c hc hk n hn he
    exact h.inheritsLeak l hl c hc hk n hn ((key _ _ _ _ (h.linkBound l hl)).mp he)

/-- Closing what belongs to no connection. -/
theorem inv_close {s : Sys} {n : Nat} (h : SysInv s)
    (h1 : ∀ l ∈ s.links, n ≠ l.fdTo ∧ n ≠ l.fdFrom) (h2 : ∀ k, s.tool n ≠ some (.pipe k false true)) :
    SysInv { s with tool := s.tool.close n } := by
  have sub : ∀ m o, s.tool.close n m = some o → s.tool m = some o := by
    intro m o hm
    unfold Fds.close at hm
    split at hm
    · cases hm
    · exact hm
  have keep : ∀ m, m ≠ n → s.tool.close n m = s.tool m := by
    intro m hm
    simp [Fds.close, hm]
  constructor
  · intro m k a w hm
    exact h.bound m k a w (sub _ _ hm)
  · exact h.linkBound
  · intro l hl
    show s.tool.close n _ = _
    rw [keep _ (Ne.symm (h1 l hl).1)]
    exact h.toW l hl
  · intro l hl
    show s.tool.close n _ = _
    rw [keep _ (Ne.symm (h1 l hl).2)]
    exact h.fromR l hl
  · intro l hl m hm
    exact h.uniqW l hl m (sub _ _ hm)
  · intro l hl m hm
    exact h.uniqR l hl m (sub _ _ hm)
  · intro l hl m hm
    exact h.noR l hl m (sub _ _ hm)
  · intro l hl
    obtain ⟨m, hm⟩ := h.leak l hl
    refine ⟨m, ?_⟩
    show s.tool.close n _ = _
    rw [keep m ?_]
    · exact hm
    · rintro rfl
      exact h2 _ hm
  · exact h.distinct
  · exact h.childBound
  · exact h.childUniq
  · exact h.childBefore
  · exact h.childOwn
  · exact h.childR
  · intro l hl c hc hk m hm he
    rw [h.inherits l hl c hc hk m hm he]
    show _ = s.tool.close n _
    rw [keep]
    rcases he with rfl | rfl
    · exact Ne.symm (h1 l hl).1
    · exact Ne.symm (h1 l hl).2
  · intro l hl c hc hk m hm he
    exact h.inheritsLeak l hl c hc hk m hm (sub _ _ he)

/-- Fewer connections. -/
theorem inv_links {s : Sys} {ls : List Link} (h : SysInv s) (hs : ∀ l ∈ ls, l ∈ s.links) :
    SysInv { s with links := ls } := by
  constructor
  · exact h.bound
  · exact fun l hl => h.linkBound l (hs l hl)
  · exact fun l hl => h.toW l (hs l hl)
  · exact fun l hl => h.fromR l (hs l hl)
  · exact fun l hl => h.uniqW l (hs l hl)
  · exact fun l hl => h.uniqR l (hs l hl)
  · exact fun l hl => h.noR l (hs l hl)
  · exact fun l hl => h.leak l (hs l hl)
  · exact fun l hl l' hl' => h.distinct l (hs l hl) l' (hs l' hl')
  · exact h.childBound
  · exact h.childUniq
  · exact h.childBefore
  · exact h.childOwn
  · exact fun l hl => h.childR l (hs l hl)
  · exact fun l hl => h.inherits l (hs l hl)
  · exact fun l hl => h.inheritsLeak l (hs l hl)

/-- Fewer vendor executables. -/
theorem inv_children {s : Sys} {cs : List Child} (h : SysInv s) (hs : ∀ c ∈ cs, c ∈ s.children) :
    SysInv { s with children := cs } := by
  constructor
  · exact h.bound
  · exact h.linkBound
  · exact h.toW
  · exact h.fromR
  · exact h.uniqW
  · exact h.uniqR
  · exact h.noR
  · exact h.leak
  · exact h.distinct
  · exact fun c hc => h.childBound c (hs c hc)
  · exact fun c hc c' hc' => h.childUniq c (hs c hc) c' (hs c' hc')
  · exact fun c hc => h.childBefore c (hs c hc)
  · exact fun c hc => h.childOwn c (hs c hc)
  · exact fun l hl c hc => h.childR l hl c (hs c hc)
  · exact fun l hl c hc => h.inherits l hl c (hs c hc)
  · exact fun l hl c hc => h.inheritsLeak l hl c (hs c hc)

/-- The tool's table after `fork`. -/
theorem ends_grow {limit : Nat} {s : Sys} {t : Fds} {toR toW fromR fromW : Nat}
    (he : Ends limit s t toR toW fromR fromW) (n : Nat) :
    (t.close toR) n = s.tool n ∨ (s.tool n = none ∧ ∃ a w, (t.close toR) n = some (.pipe s.next a w)) := by
  have o1 := he.o1; have o2 := he.o2; have o3 := he.o3
  rw [he.eq]
  unfold Fds.close
  by_cases n1 : n = toR
  · left; simp [n1, he.f1]
  · by_cases n2 : n = toW
    · right; simp [n1, n2, he.f2, show toW ≠ fromR by omega, show toW ≠ fromW by omega, show toW ≠ toR by omega]
    · by_cases n3 : n = fromR
      · right; simp [n3, he.f3, show fromR ≠ fromW by omega, show fromR ≠ toR by omega]
      · by_cases n4 : n = fromW
        · right; simp [n4, he.f4, show fromW ≠ toR by omega]
        · left; simp [n1, n2, n3, n4]

theorem forkChild_mem {limit : Nat} {s : Sys} {env : SpawnEnv} {t : Fds} {toR toW fromR fromW : Nat}
    (he : Ends limit s t toR toW fromR fromW) {c : Child}
    (hc : c ∈ forkChild env s.next t toR toW fromR fromW) :
    toR ≠ 0 ∧ c.k = s.next ∧ c.fds = fun n => if n = 0 then some (.pipe s.next true false)
      else if n = 1 then some (.pipe s.next false true)
      else if n = toR ∨ n = toW ∨ n = fromR ∨ n = fromW then none else s.tool n := by
  have o1 := he.o1; have o2 := he.o2; have o3 := he.o3
  unfold forkChild at hc
  split at hc
  · cases hc
  · rename_i u hu
    split at hc
    · rw [List.mem_singleton] at hc
      subst hc
      have hR : t toR = some (.pipe s.next true false) := by
        rw [he.eq]
        simp [show toR ≠ toW by omega, show toR ≠ fromR by omega, show toR ≠ fromW by omega]
      have hW : t fromW = some (.pipe s.next false true) := by
        rw [he.eq]
        simp
      obtain ⟨h0, h1⟩ := childSetup_some he.o1 he.o2 he.o3 hR hW hu
      refine ⟨h0, rfl, ?_⟩
      rw [h1]
      funext n
      dsimp only
      split
      · rfl
      · split
        · rfl
        · split
          · rfl
          · rename_i hn
            rw [he.eq]
            have hn' : n ≠ toR ∧ n ≠ toW ∧ n ≠ fromR ∧ n ≠ fromW := by
              refine ⟨fun e => hn (.inl e), fun e => hn (.inr (.inl e)), fun e => hn (.inr (.inr (.inl e))),
                fun e => hn (.inr (.inr (.inr e)))⟩
            simp [hn'.1, hn'.2.1, hn'.2.2.1, hn'.2.2.2]
    · cases hc

/-- After `fork`. -/
theorem inv_fork {limit : Nat} {s : Sys} {env : SpawnEnv} {t : Fds} {toR toW fromR fromW : Nat}
    (h : SysInv s) (he : Ends limit s t toR toW fromR fromW) :
    SysInv ⟨t.close toR, s.children ++ forkChild env s.next t toR toW fromR fromW, s.links, s.next + 1⟩ := by
  have hg := inv_grow h (ends_grow he)
  have hfree : ∀ n o, s.tool n = some o → ¬ (n = toR ∨ n = toW ∨ n = fromR ∨ n = fromW) := by
    intro n o ho hn
    rcases hn with rfl | rfl | rfl | rfl
    · rw [he.f1] at ho; cases ho
    · rw [he.f2] at ho; cases ho
    · rw [he.f3] at ho; cases ho
    · rw [he.f4] at ho; cases ho
  have hown : ∀ c ∈ forkChild env s.next t toR toW fromR fromW, ∀ n k a w,
      c.fds n = some (.pipe k a w) → k ≤ s.next ∧ (k = s.next ∨ s.tool n = some (.pipe k a w)) := by
    intro c hc n k a w hn
    obtain ⟨h0, h1, h2⟩ := forkChild_mem he hc
    rw [h2] at hn
    dsimp only at hn
    split at hn
    · cases hn; exact ⟨Nat.le_refl _, .inl rfl⟩
    · split at hn
      · cases hn; exact ⟨Nat.le_refl _, .inl rfl⟩
      · split at hn
        · cases hn
        · exact ⟨Nat.le_of_lt (h.bound _ _ _ _ hn), .inr hn⟩
  constructor
  · exact hg.bound
  · exact hg.linkBound
  · exact hg.toW
  · exact hg.fromR
  · exact hg.uniqW
  · exact hg.uniqR
  · exact hg.noR
  · exact hg.leak
  · exact hg.distinct
  · intro c hc
    rcases List.mem_append.mp hc with hc | hc
    · exact hg.childBound c hc
    · rw [(forkChild_mem he hc).2.1]; exact Nat.lt_succ_self _
  · intro c hc c' hc' e
    rcases List.mem_append.mp hc with hc | hc <;> rcases List.mem_append.mp hc' with hc' | hc'
    · exact hg.childUniq c hc c' hc' e
    · have := h.childBound c hc
      rw [(forkChild_mem he hc').2.1] at e
      omega
    · have := h.childBound c' hc'
      rw [(forkChild_mem he hc).2.1] at e
      omega
    · unfold forkChild at hc hc'
      split at hc
      · cases hc
      · split at hc
        · rename_i hu hx
          rw [hu] at hc'
          simp [hx] at hc'
          rw [List.mem_singleton] at hc
          rw [hc, hc']
        · cases hc
  · intro c hc n k a w hn
    rcases List.mem_append.mp hc with hc | hc
    · exact hg.childBefore c hc n k a w hn
    · rw [(forkChild_mem he hc).2.1]
      exact (hown c hc n k a w hn).1
  · intro c hc n a w
    rcases List.mem_append.mp hc with hc | hc
    · exact hg.childOwn c hc n a w
    · obtain ⟨h0, h1, h2⟩ := forkChild_mem he hc
      rw [h1, h2]
      dsimp only
      by_cases n0 : n = 0
      · subst n0; cases a <;> cases w <;> simp
      · by_cases n1 : n = 1
        · subst n1; cases a <;> cases w <;> simp
        · simp [n0, n1]
          intro _ _ _ _ hn
          exact absurd (h.bound _ _ _ _ hn) (Nat.lt_irrefl _)
  · intro l hl c hc hh
    rcases List.mem_append.mp hc with hc | hc
    · exact hg.childR l hl c hc hh
    · obtain ⟨n, hn⟩ := hh
      rcases (hown c hc _ _ _ _ hn).2 with e | e
      · exact absurd (h.linkBound l hl) (by omega)
      · exact absurd e (h.noR l hl n)
  · intro l hl c hc hk n hn hm
    rcases List.mem_append.mp hc with hc | hc
    · exact hg.inherits l hl c hc hk n hn hm
    · obtain ⟨h0, h1, h2⟩ := forkChild_mem he hc
      have hs : ∃ o, s.tool n = some o := by
        rcases hm with rfl | rfl
        · exact ⟨_, h.toW l hl⟩
        · exact ⟨_, h.fromR l hl⟩
      obtain ⟨o, ho⟩ := hs
      have hf := hfree n o ho
      have hr : (t.close toR) n = s.tool n := by
        rcases ends_grow he n with e | ⟨e, _⟩
        · exact e
        · rw [e] at ho; cases ho
      rw [h2]
      dsimp only
      rw [if_neg (by omega), if_neg (by omega), if_neg hf, hr]
  · intro l hl c hc hk n hn hm
    rcases List.mem_append.mp hc with hc | hc
    · exact hg.inheritsLeak l hl c hc hk n hn hm
    · obtain ⟨h0, h1, h2⟩ := forkChild_mem he hc
      have hs : s.tool n = some (.pipe l.k false true) := by
        rcases ends_grow he n with e | ⟨e, a, w, ha⟩
        · dsimp only at hm; rw [← e]; exact hm
        · dsimp only at hm
          rw [ha] at hm
          injection hm with hm
          injection hm with hm
          have := h.linkBound l hl
          omega
      rw [h2]
      dsimp only
      rw [if_neg (by omega), if_neg (by omega), if_neg (hfree n _ hs)]
      exact hs

/-- The new connection's ends after `fork`. -/
theorem ends_tool {limit : Nat} {s : Sys} {t : Fds} {toR toW fromR fromW : Nat}
    (h : SysInv s) (he : Ends limit s t toR toW fromR fromW) (n : Nat) (a w : Bool) :
    (t.close toR) n = some (.pipe s.next a w) ↔
      (n = toW ∧ a = true ∧ w = true) ∨ (n = fromR ∧ a = false ∧ w = false) ∨
        (n = fromW ∧ a = false ∧ w = true) := by
  have o1 := he.o1; have o2 := he.o2; have o3 := he.o3
  rw [he.eq]
  unfold Fds.close
  by_cases n1 : n = toR
  · simp [n1, show toR ≠ toW by omega, show toR ≠ fromR by omega, show toR ≠ fromW by omega]
  · by_cases n2 : n = toW
    · cases a <;> cases w <;> simp [n2, show toW ≠ fromR by omega, show toW ≠ fromW by omega, show toW ≠ toR by omega]
    · by_cases n3 : n = fromR
      · cases a <;> cases w <;> simp [n3, show fromR ≠ fromW by omega, show fromR ≠ toR by omega, show fromR ≠ toW by omega]
      · by_cases n4 : n = fromW
        · cases a <;> cases w <;> simp [n4, show fromW ≠ toR by omega, show fromW ≠ toW by omega, show fromW ≠ fromR by omega]
        · simp [n1, n2, n3, n4]
          intro hn
          exact absurd (h.bound _ _ _ _ hn) (Nat.lt_irrefl _)

theorem inv_addLink {limit : Nat} {s : Sys} {env : SpawnEnv} {t : Fds} {toR toW fromR fromW : Nat}
    (h : SysInv s) (he : Ends limit s t toR toW fromR fromW) :
    SysInv ⟨t.close toR, s.children ++ forkChild env s.next t toR toW fromR fromW,
      s.links ++ [⟨toW, fromR, s.next⟩], s.next + 1⟩ := by
  have hf := inv_fork (env := env) h he
  have ht := ends_tool h he
  have o1 := he.o1; have o2 := he.o2; have o3 := he.o3
  constructor
  · exact hf.bound
  · intro l hl
    rcases List.mem_append.mp hl with hl | hl
    · exact hf.linkBound l hl
    · rw [List.mem_singleton] at hl; subst hl; exact Nat.lt_succ_self _
  · intro l hl
    rcases List.mem_append.mp hl with hl | hl
    · exact hf.toW l hl
    · rw [List.mem_singleton] at hl; subst hl; exact (ht _ _ _).mpr (.inl ⟨rfl, rfl, rfl⟩)
  · intro l hl
    rcases List.mem_append.mp hl with hl | hl
    · exact hf.fromR l hl
    · rw [List.mem_singleton] at hl; subst hl; exact (ht _ _ _).mpr (.inr (.inl ⟨rfl, rfl, rfl⟩))
  · intro l hl n hn
    rcases List.mem_append.mp hl with hl | hl
    · exact hf.uniqW l hl n hn
    · rw [List.mem_singleton] at hl; subst hl
      rcases (ht _ _ _).mp hn with e | e | e
      · exact e.1
      · simp at e
      · simp at e
  · intro l hl n hn
    rcases List.mem_append.mp hl with hl | hl
    · exact hf.uniqR l hl n hn
    · rw [List.mem_singleton] at hl; subst hl
      rcases (ht _ _ _).mp hn with e | e | e
      · simp at e
      · exact e.1
      · simp at e
  · intro l hl n hn
    rcases List.mem_append.mp hl with hl | hl
    · exact hf.noR l hl n hn
    · rw [List.mem_singleton] at hl; subst hl
      rcases (ht _ _ _).mp hn with e | e | e <;> simp at e
  · intro l hl
    rcases List.mem_append.mp hl with hl | hl
    · exact hf.leak l hl
    · rw [List.mem_singleton] at hl; subst hl
      exact ⟨fromW, (ht _ _ _).mpr (.inr (.inr ⟨rfl, rfl, rfl⟩))⟩
  · intro l hl l' hl' e
    rcases List.mem_append.mp hl with hl | hl <;> rcases List.mem_append.mp hl' with hl' | hl'
    · exact hf.distinct l hl l' hl' e
    · rw [List.mem_singleton] at hl'; subst hl'
      have := h.linkBound l hl
      simp at e; omega
    · rw [List.mem_singleton] at hl; subst hl
      have := h.linkBound l' hl'
      simp at e; omega
    · rw [List.mem_singleton] at hl hl'; rw [hl, hl']
  · exact hf.childBound
  · exact hf.childUniq
  · exact hf.childBefore
  · exact hf.childOwn
  · intro l hl c hc hh
    rcases List.mem_append.mp hl with hl | hl
    · exact hf.childR l hl c hc hh
    · rw [List.mem_singleton] at hl; subst hl
      obtain ⟨n, hn⟩ := hh
      have h1 := hf.childBefore c hc _ _ _ _ hn
      have h2 := hf.childBound c hc
      dsimp only at h1 h2 ⊢
      omega
  · intro l hl c hc hk
    rcases List.mem_append.mp hl with hl | hl
    · exact hf.inherits l hl c hc hk
    · rw [List.mem_singleton] at hl; subst hl
      have h2 := hf.childBound c hc
      dsimp only at hk h2
      omega
  · intro l hl c hc hk
    rcases List.mem_append.mp hl with hl | hl
    · exact hf.inheritsLeak l hl c hc hk
    · rw [List.mem_singleton] at hl; subst hl
      have h2 := hf.childBound c hc
      dsimp only at hk h2
      omega

/-- Releasing a connection that the tool has or has just opened. -/
theorem inv_closeLink {s : Sys} {ls : List Link} {l : Link} (h : SysInv s) (hl : l ∈ s.links)
    (hs : ∀ m ∈ ls, m ∈ s.links ∧ m ≠ l) : SysInv { s.closeLink l with links := ls } := by
  have h0 : SysInv { s with links := ls } := inv_links h fun m hm => (hs m hm).1
  have ht := h.toW l hl
  have hf := h.fromR l hl
  have hne : ∀ m ∈ ls, l.k ≠ m.k := fun m hm e => (hs m hm).2 (h.distinct _ (hs m hm).1 _ hl e.symm)
  have d1 : ∀ m ∈ ls, l.fdTo ≠ m.fdTo ∧ l.fdTo ≠ m.fdFrom := by
    intro m hm
    constructor
    · intro e
      have := h.toW m (hs m hm).1
      rw [← e, ht] at this
      injection this with this
      injection this with this
      exact hne m hm this
    · intro e
      have := h.fromR m (hs m hm).1
      rw [← e, ht] at this
      simp at this
  have d2 : ∀ m ∈ ls, l.fdFrom ≠ m.fdTo ∧ l.fdFrom ≠ m.fdFrom := by
    intro m hm
    constructor
    · intro e
      have := h.toW m (hs m hm).1
      rw [← e, hf] at this
      simp at this
    · intro e
      have := h.fromR m (hs m hm).1
      rw [← e, hf] at this
      injection this with this
      injection this with this
      exact hne m hm this
  have h1 := inv_close h0 (n := l.fdTo) d1 (by intro k; show s.tool _ ≠ _; rw [ht]; simp)
  have h2 := inv_close h1 (n := l.fdFrom) d2 (by
    intro k hk
    have : s.tool l.fdFrom = some (.pipe k false true) := by
      have hk' : s.tool.close l.fdTo l.fdFrom = some (.pipe k false true) := hk
      unfold Fds.close at hk'
      split at hk'
      · cases hk'
      · exact hk'
    rw [hf] at this
    cases this)
  exact h2

theorem inv_start {limit : Nat} {s : Sys} (h : SysInv s) (env : SpawnEnv) (tls : Bool) :
    SysInv (s.step limit (.start env tls)) := by
  simp only [Sys.step, startLink]
  rcases spawn_cases limit env s with ⟨h1, h2⟩ | ⟨toR, toW, t, h1, h2⟩ | ⟨toR, toW, fromR, fromW, t, h1, h2⟩ |
      ⟨toR, toW, fromR, fromW, t, h1, _, h2⟩
  · generalize spawn limit env s = r at h1 h2
    obtain ⟨o, s'⟩ := r
    dsimp only at h1 h2
    subst h1
    cases o <;> first | exact h | exact absurd rfl (h2 _)
  · rw [h2]
    obtain ⟨b1, b2, b3, b4, b5, b6⟩ := pipe_some h1
    refine inv_grow h fun n => ?_
    rw [b6]
    by_cases n1 : n = toW
    · right; simp [n1, b4]
    · by_cases n2 : n = toR
      · right; simp [n2, b3, Nat.ne_of_lt b1]
      · left; simp [n1, n2]
  · rw [h2]
    refine inv_grow h fun n => ?_
    have o1 := h1.o1; have o2 := h1.o2; have o3 := h1.o3
    rw [h1.eq]
    by_cases n4 : n = fromW
    · right; simp [n4, h1.f4]
    · by_cases n3 : n = fromR
      · right; simp [n3, h1.f3, show fromR ≠ fromW by omega]
      · by_cases n2 : n = toW
        · right; simp [n2, h1.f2, show toW ≠ fromR by omega, show toW ≠ fromW by omega]
        · by_cases n1 : n = toR
          · right; simp [n1, h1.f1, show toR ≠ fromR by omega, show toR ≠ fromW by omega, show toR ≠ toW by omega]
          · left; simp [n1, n2, n3, n4]
  · rw [h2]
    cases env.calloc
    · exact inv_fork h h1
    · have ha := inv_addLink (env := env) h h1
      cases tls
      · have hl : (⟨toW, fromR, s.next⟩ : Link) ∈ s.links ++ [⟨toW, fromR, s.next⟩] := by simp
        have := inv_closeLink (ls := s.links) ha hl (by
          intro m hm
          refine ⟨List.mem_append_left _ hm, ?_⟩
          rintro rfl
          exact absurd (h.linkBound _ hm) (Nat.lt_irrefl _))
        exact this
      · exact ha

theorem inv_step {limit : Nat} {s : Sys} (h : SysInv s) (e : Event) : SysInv (s.step limit e) := by
  cases e with
  | start env tls => exact inv_start h env tls
  | free l =>
    show SysInv (if l ∈ s.links then _ else _)
    split
    · rename_i hl
      exact inv_closeLink h hl (by
        intro m hm
        rw [List.mem_filter] at hm
        exact ⟨hm.1, by simpa using hm.2⟩)
    · exact h
  | exit k => exact inv_children h fun c hc => (List.mem_filter.mp hc).1
  | openFile =>
    unfold Sys.step
    dsimp only
    split
    · rename_i n hn
      obtain ⟨h1, h2, h3⟩ := firstFree_some hn
      have key : ∀ m k a w, s.tool.set n .other m = some (.pipe k a w) ↔ s.tool m = some (.pipe k a w) := by
        intro m k a w
        by_cases e : m = n
        · subst e; simp [Fds.set, h2]
        · simp [Fds.set, e]
      constructor
      · exact fun m k a w hm => h.bound m k a w ((key _ _ _ _).mp hm)
      · exact h.linkBound
      · exact fun l hl => (key _ _ _ _).mpr (h.toW l hl)
      · exact fun l hl => (key _ _ _ _).mpr (h.fromR l hl)
      · exact fun l hl m hm => h.uniqW l hl m ((key _ _ _ _).mp hm)
      · exact fun l hl m hm => h.uniqR l hl m ((key _ _ _ _).mp hm)
      · exact fun l hl m hm => h.noR l hl m ((key _ _ _ _).mp hm)
      · exact fun l hl => (h.leak l hl).imp fun m hm => (key _ _ _ _).mpr hm
      · exact h.distinct
      · exact h.childBound
      · exact h.childUniq
      · exact h.childBefore
      · exact h.childOwn
      · exact h.childR
      · intro l hl c hc hk m hm he
        rw [h.inherits l hl c hc hk m hm he]
        dsimp only
        rcases he with rfl | rfl
        · rw [h.toW l hl]; exact ((key _ _ _ _).mpr (h.toW l hl)).symm
        · rw [h.fromR l hl]; exact ((key _ _ _ _).mpr (h.fromR l hl)).symm
      · exact fun l hl c hc hk m hm he => h.inheritsLeak l hl c hc hk m hm ((key _ _ _ _).mp he)
    · exact h
  | closeFile n =>
    show SysInv (if s.tool n = some .other then _ else _)
    split
    · rename_i ho
      refine inv_close h (fun l hl => ⟨?_, ?_⟩) (by simp [ho])
      · rintro rfl
        rw [h.toW l hl] at ho
        cases ho
      · rintro rfl
        rw [h.fromR l hl] at ho
        cases ho
    · exact h

theorem inv_run {limit : Nat} {s : Sys} (h : SysInv s) (evs : List Event) : SysInv (s.run limit evs) := by
  induction evs generalizing s with
  | nil => exact h
  | cons e es ih => exact ih (inv_step h e)

theorem inv_reached {limit : Nat} {s : Sys} (h : Reached limit s) : SysInv s := by
  obtain ⟨t, evs, ht, rfl⟩ := h
  exact inv_run (inv_init ht) evs

end Semla
