import Verif.Lemmas.Process

/-!
# Properties C59 to C62: processes and pipes of a connection

Hypothesis `Reached limit s`: the tool had some files open, then any sequence of starts (successful or
not), releases, ends of vendor executables, opening and closing of files led to `s`.
-/

namespace Semla.Props

open Semla Spec

/-- A tool with standard input, output and error. -/
def stdTool : Fds := fun n => if n < 3 then some .other else none

theorem stdTool_fresh : Fresh stdTool := by
  intro n o h
  unfold stdTool at h
  split at h
  · cases h; rfl
  · cases h

/-- States for the examples: one connection, and two connections. -/
def oneLink : Sys := (Sys.init stdTool).run 16 [.openFile, .start {} true]
def twoLinks : Sys := (Sys.init stdTool).run 16 [.openFile, .start {} true, .start {} true]

theorem oneLink_reached : Reached 16 oneLink := ⟨_, _, stdTool_fresh, rfl⟩
theorem twoLinks_reached : Reached 16 twoLinks := ⟨_, _, stdTool_fresh, rfl⟩

theorem reached_start {limit : Nat} {s s' : Sys} (hs : Reached limit s) {env : SpawnEnv} {tls : Bool} {l : Link}
    (h : startLink limit env tls s = (some l, s')) : Reached limit { s' with links := s'.links ++ [l] } := by
  obtain ⟨t, evs, ht, rfl⟩ := hs
  refine ⟨t, evs ++ [.start env tls], ht, ?_⟩
  simp only [Sys.run, List.foldl_append, List.foldl_cons, List.foldl_nil]
  simp only [Sys.step]
  unfold Sys.run at h
  rw [h]

/-- What a successful start did. -/
theorem startLink_some {limit : Nat} {s s' : Sys} {env : SpawnEnv} {tls : Bool} {l : Link}
    (h : startLink limit env tls s = (some l, s')) :
    ∃ toR fromW t, Ends limit s t toR l.fdTo l.fdFrom fromW ∧ l.k = s.next ∧
      s' = ⟨t.close toR, s.children ++ forkChild env s.next t toR l.fdTo l.fdFrom fromW, s.links,
        s.next + 1⟩ := by
  unfold startLink at h
  rcases spawn_cases limit env s with ⟨h1, h2⟩ | ⟨toR, toW, t, h1, h2⟩ | ⟨toR, toW, fromR, fromW, t, h1, h2⟩ |
      ⟨toR, toW, fromR, fromW, t, h1, _, h2⟩
  · generalize spawn limit env s = r at h h1 h2
    obtain ⟨o, s''⟩ := r
    cases o <;> first | (simp at h; done) | exact absurd rfl (h2 _)
  · rw [h2] at h; simp at h
  · rw [h2] at h; simp at h
  · rw [h2] at h
    cases hc : env.calloc
    · rw [hc] at h; simp at h
    · rw [hc] at h
      cases tls
      · simp at h
      · simp at h
        obtain ⟨rfl, rfl⟩ := h
        exact ⟨toR, fromW, t, h1, rfl, rfl⟩

/-! ## C59 -/

theorem countP_one_less {p q : Nat → Bool} {m : Nat} : ∀ {l : List Nat}, l.Nodup → m ∈ l → p m = true → q m = false →
    (∀ n, n ≠ m → q n = p n) → l.countP q + 1 = l.countP p
  | [], _, hm, _, _, _ => by cases hm
  | a :: l, hn, hm, hp, hq, he => by
    rw [List.nodup_cons] at hn
    by_cases ha : a = m
    · subst ha
      have : l.countP q = l.countP p := by
        apply List.countP_congr
        intro n hn'
        have : n ≠ a := by rintro rfl; exact hn.1 hn'
        rw [he n this]
      rw [List.countP_cons_of_neg (by simp [hq]), List.countP_cons_of_pos hp, this]
    · have hm' : m ∈ l := by
        rcases List.mem_cons.1 hm with h | h
        · exact absurd h.symm ha
        · exact h
      have ih := countP_one_less hn.2 hm' hp hq he
      rw [List.countP_cons, List.countP_cons, he a ha]
      omega

theorem firstFree_count {limit : Nat} {t : Fds} :
    (t.firstFree limit = none ∧ freeBelow limit t = 0) ∨
    ∃ n, t.firstFree limit = some n ∧ ∀ o, freeBelow limit (t.set n o) + 1 = freeBelow limit t := by
  cases h : t.firstFree limit with
  | none =>
    left
    refine ⟨rfl, ?_⟩
    unfold Fds.firstFree at h
    rw [List.find?_eq_none] at h
    exact List.countP_eq_zero.2 h
  | some n =>
    right
    refine ⟨n, rfl, fun o => ?_⟩
    unfold Fds.firstFree at h
    have h1 := List.find?_some h
    have h2 := List.mem_of_find?_eq_some h
    refine countP_one_less List.nodup_range h2 h1 (by simp [Fds.set]) ?_
    intro m hm
    simp [Fds.set, hm]

theorem pipe_count {limit : Nat} {t : Fds} {k : Nat} {b : Bool} :
    (t.pipe limit k b = none ∧ freeBelow limit t < 2) ∨
    ∃ r w t', t.pipe limit k b = some (r, w, t') ∧ freeBelow limit t' + 2 = freeBelow limit t := by
  rcases firstFree_count (limit := limit) (t := t) with ⟨h1, h2⟩ | ⟨r, h1, h2⟩
  · left; exact ⟨by simp [Fds.pipe, h1], by omega⟩
  · rcases firstFree_count (limit := limit) (t := t.set r (.pipe k b false)) with ⟨h3, h4⟩ | ⟨w, h3, h4⟩
    · left
      have := h2 (.pipe k b false)
      exact ⟨by simp [Fds.pipe, h1, h3], by omega⟩
    · right
      refine ⟨r, w, _, by simp only [Fds.pipe, h1, h3]; rfl, ?_⟩
      have := h2 (.pipe k b false)
      have := h4 (.pipe k b true)
      omega

/-- **C59, which starts succeed.** There is a connection exactly if the file is there and may be executed, no call
of the system fails, the handshake works and four descriptors are free.  (`execl` may fail: the tool notices this by
the handshake only.) -/
theorem c59_succeeds_iff (limit : Nat) (env : SpawnEnv) (tls : Bool) (s : Sys) :
    (∃ l, (startLink limit env tls s).1 = some l) ↔
      env.found = true ∧ env.executable = true ∧ env.pipeTo = true ∧ env.pipeFrom = true ∧ env.fork = true ∧
      env.calloc = true ∧ tls = true ∧ 4 ≤ freeBelow limit s.tool := by
  obtain ⟨f1, f2, f3, f4, f5, f6, f7⟩ := env
  unfold startLink spawn
  cases f1 <;> simp only [Bool.false_eq_true, not_false_eq_true, if_true, not_true, if_false, reduceCtorEq,
    exists_false, false_and, true_and]
  cases f2 <;> simp only [Bool.false_eq_true, not_false_eq_true, if_true, not_true, if_false, reduceCtorEq,
    exists_false, false_and, true_and]
  cases f3 <;> simp only [Bool.false_eq_true, if_true, if_false, reduceCtorEq,
    exists_false, false_and, true_and]
  rcases pipe_count (limit := limit) (t := s.tool) (k := s.next) (b := true) with ⟨h1, h2⟩ | ⟨toR, toW, t, h1, h2⟩
  · simp only [h1]
    constructor
    · rintro ⟨l, h⟩; cases h
    · intro h; omega
  · simp only [h1]
    cases f4 <;> simp only [Bool.false_eq_true, if_true, if_false, reduceCtorEq, exists_false, false_and, true_and]
    rcases pipe_count (limit := limit) (t := t) (k := s.next + 1 - 1) (b := false) with ⟨h3, h4⟩ | ⟨fR, fW, t', h3, h4⟩
    · simp only [h3]
      constructor
      · rintro ⟨l, h⟩; cases h
      · intro h; omega
    · simp only [h3]
      have : 4 ≤ freeBelow limit s.tool := by omega
      cases f5 <;> cases f6 <;> cases tls <;> simp [this]

-- with four free descriptors a start works, with three it does not
example : (∃ l, (startLink 7 {} true (Sys.init stdTool)).1 = some l) ∧ ¬ ∃ l, (startLink 6 {} true (Sys.init stdTool)).1 = some l :=
  ⟨(c59_succeeds_iff _ _ _ _).2 (by decide), fun h => absurd ((c59_succeeds_iff _ _ _ _).1 h) (by decide)⟩

/-- **C59.** Whatever happened before: if standard input of the tool is open, a successful start leaves the
vendor executable running, connected with the tool in both directions, and no other process has an end of
the pipes. -/
theorem c59_start_partial {limit : Nat} {s s' : Sys} (hs : Reached limit s) (hin : s.tool 0 ≠ none)
    {env : SpawnEnv} (hx : env.exec = true) {tls : Bool} {l : Link}
    (h : startLink limit env tls s = (some l, s')) :
    ∃ c ∈ s'.children, c.k = l.k ∧ Wired s' l c ∧ Private s' l.k ∧
      s.tool l.fdTo = none ∧ s.tool l.fdFrom = none := by
  have hi := inv_reached (reached_start hs h)
  obtain ⟨toR, fromW, t, he, hk, rfl⟩ := startLink_some h
  have h0 : toR ≠ 0 := by
    rintro rfl
    exact hin he.f1
  have o1 := he.o1; have o2 := he.o2; have o3 := he.o3
  have hR : t toR = some (.pipe s.next true false) := by
    rw [he.eq]
    simp [show toR ≠ l.fdTo by omega, show toR ≠ l.fdFrom by omega, show toR ≠ fromW by omega]
  have hW : t fromW = some (.pipe s.next false true) := by
    rw [he.eq]
    simp
  obtain ⟨u, hu⟩ := childSetup_isSome h0 he.o1 he.o2 he.o3 hR hW
  have hc : (⟨s.next, u⟩ : Child) ∈
      s.children ++ forkChild env s.next t toR l.fdTo l.fdFrom fromW := by
    simp [forkChild, hu, hx]
  have hl : l ∈ s.links ++ [l] := by simp
  refine ⟨_, hc, hk.symm, ⟨true, false, by simp, hi.toW l hl, ?_, ?_, hi.fromR l hl⟩, ?_, he.f2, he.f3⟩
  · rw [hk]
    exact (hi.childOwn _ hc 0 true false).mpr (by simp)
  · rw [hk]
    exact (hi.childOwn _ hc 1 false true).mpr (by simp)
  · intro c hc n a w hn
    have h1 := hi.childBefore c hc n _ a w hn
    have h2 := hi.childBound c hc
    dsimp only at h2
    omega

/-- **C59.** The connection stays as it is for as long as both sides exist, whatever else happens, and only
its vendor executable ever reads what the tool writes. -/
theorem c59_stays {limit : Nat} {s : Sys} (hs : Reached limit s) {l : Link} (hl : l ∈ s.links) :
    (∀ c ∈ s.children, c.k = l.k → Wired s l c) ∧
    ¬ Has s.tool (.pipe l.k true false) ∧
    ∀ c ∈ s.children, Has c.fds (.pipe l.k true false) → c.k = l.k := by
  have hi := inv_reached hs
  refine ⟨fun c hc hk => ⟨true, false, by simp, hi.toW l hl, ?_, ?_, hi.fromR l hl⟩, ?_,
    fun c hc hh => hi.childR l hl c hc hh⟩
  · rw [← hk]; exact (hi.childOwn c hc 0 true false).mpr (by simp)
  · rw [← hk]; exact (hi.childOwn c hc 1 false true).mpr (by simp)
  · rintro ⟨n, hn⟩
    exact hi.noR l hl n hn

/-- **C59.** Two connections of a tool have no descriptor in common. -/
theorem c59_distinct {limit : Nat} {s : Sys} (hs : Reached limit s) {l m : Link} (hl : l ∈ s.links)
    (hm : m ∈ s.links) (hne : l ≠ m) :
    l.fdTo ≠ m.fdTo ∧ l.fdFrom ≠ m.fdFrom ∧ l.fdTo ≠ m.fdFrom ∧ l.k ≠ m.k := by
  have hi := inv_reached hs
  have hk : l.k ≠ m.k := fun e => hne (hi.distinct l hl m hm e)
  refine ⟨fun e => ?_, fun e => ?_, fun e => ?_, hk⟩
  · have h1 := hi.toW l hl
    rw [e, hi.toW m hm] at h1
    injection h1 with h1
    injection h1 with h1
    exact hk h1.symm
  · have h1 := hi.fromR l hl
    rw [e, hi.fromR m hm] at h1
    injection h1 with h1
    injection h1 with h1
    exact hk h1.symm
  · have h1 := hi.toW l hl
    rw [e, hi.fromR m hm] at h1
    simp at h1

example : oneLink.tool 0 ≠ none ∧ ∃ l, (startLink 16 {} true oneLink).1 = some l := ⟨by decide, _, rfl⟩

example : (⟨5, 6, 0⟩ : Link) ∈ twoLinks.links ∧ (⟨8, 9, 1⟩ : Link) ∈ twoLinks.links ∧
    Alive twoLinks 0 ∧ Alive twoLinks 1 :=
  ⟨by decide, by decide, ⟨_, List.mem_cons_self, rfl⟩, ⟨_, List.mem_cons_of_mem _ List.mem_cons_self, rfl⟩⟩

/-- **C59 is false for a tool without standard input**: `mlle_spawn` succeeds, but the vendor executable
never runs, and what the tool reads from the connection neither arrives nor ends. -/
theorem c59_stdin_not {limit : Nat} {s s' : Sys} (hs : Reached limit s) (hin : s.tool 0 = none)
    {env : SpawnEnv} {l : Link} (h : spawn limit env s = (.link l, s')) :
    ¬ Alive s' l.k ∧ ¬ AtEnd s' l.k false := by
  have h' : startLink limit env true s = (some l, s') := by
    unfold startLink
    rw [h]
    rfl
  have hi := inv_reached hs
  have hi' := inv_reached (reached_start hs h')
  obtain ⟨toR, fromW, t, he, hk, rfl⟩ := startLink_some h'
  have h0 : toR = 0 := by
    rcases Nat.eq_zero_or_pos toR with h | h
    · exact h
    · exact absurd hin (he.low 0 h)
  constructor
  · rintro ⟨c, hc, e⟩
    rcases List.mem_append.mp hc with hc | hc
    · have := hi.childBound c hc
      omega
    · exact (forkChild_mem he hc).1 h0
  · intro hn
    obtain ⟨n, hl⟩ := hi'.leak l (by simp)
    exact hn (.inl ⟨n, hl⟩)

/-- The tool of the examples after closing its standard input. -/
def noStdin : Sys := (Sys.init stdTool).run 16 [.closeFile 0]

example : Reached 16 noStdin ∧ noStdin.tool 0 = none ∧
    (spawn 16 {} noStdin).1 = .link ⟨3, 4, 0⟩ := ⟨⟨_, _, stdTool_fresh, rfl⟩, by decide, by decide⟩

/-! ## C60 -/

/-- **C60**, for writing.  As long as the tool has a connection whose vendor executable has ended, writing to
it fails.  Missing: reading, see `c60_read_not`; that `SIGPIPE`, which comes with the failure, does not end
the tool. -/
theorem c60_write_partial {limit : Nat} {s : Sys} (hs : Reached limit s) {l : Link} (hl : l ∈ s.links)
    (hd : ¬ Alive s l.k) : Broken s l.k true := by
  have hi := inv_reached hs
  rintro (⟨n, hn⟩ | ⟨c, hc, hh⟩)
  · exact hi.noR l hl n hn
  · exact hd ⟨c, hc, hi.childR l hl c hc hh⟩

/-- **C60 is false for reading**: the tool itself keeps a write end of the pipe it reads from; reading never
reports that the vendor executable has ended. -/
theorem c60_read_not {limit : Nat} {s : Sys} (hs : Reached limit s) {l : Link} (hl : l ∈ s.links) :
    ¬ AtEnd s l.k false :=
  fun h => h (.inl ((inv_reached hs).leak l hl))

/-- The vendor executable of the example has ended. -/
def deadLink : Sys := oneLink.step 16 (.exit 0)

example : Reached 16 deadLink ∧ (⟨5, 6, 0⟩ : Link) ∈ deadLink.links ∧ ¬ Alive deadLink 0 :=
  ⟨⟨_, [.openFile, .start {} true, .exit 0], stdTool_fresh, rfl⟩, by decide, by
    rintro ⟨c, hc, _⟩
    have : deadLink.children = [] := rfl
    rw [this] at hc
    cases hc⟩

/-! ## C61 -/

theorem freed {limit : Nat} {s : Sys} {l : Link} (hl : l ∈ s.links) :
    (s.step limit (.free l)).tool = (s.tool.close l.fdTo).close l.fdFrom ∧
      (s.step limit (.free l)).children = s.children := by
  simp [Sys.step, hl, Sys.closeLink]

/-- **C61**, for the vendor executable.  After releasing a connection, its vendor executable reads the end of
its input, unless vendor executables started later are running; the two descriptors of the connection
are closed.  Missing: see the negations. -/
theorem c61_end_partial {limit : Nat} {s : Sys} (hs : Reached limit s) {l : Link} (hl : l ∈ s.links)
    (hlast : ∀ c ∈ s.children, c.k ≤ l.k) :
    AtEnd (s.step limit (.free l)) l.k true ∧
    (s.step limit (.free l)).tool l.fdTo = none ∧ (s.step limit (.free l)).tool l.fdFrom = none := by
  have hi := inv_reached hs
  obtain ⟨h1, h2⟩ := freed (limit := limit) hl
  refine ⟨?_, ?_, ?_⟩
  · rintro (⟨n, hn⟩ | ⟨c, hc, n, hn⟩)
    · rw [h1] at hn
      simp only [Fds.close] at hn
      split at hn
      · cases hn
      · split at hn
        · cases hn
        · rename_i h
          exact h (hi.uniqW l hl n hn)
    · rw [h2] at hc
      have e : c.k = l.k := by
        have a := hi.childBefore c hc n _ _ _ hn
        have b := hlast c hc
        omega
      rw [← e] at hn
      have := (hi.childOwn c hc n true true).mp hn
      simp at this
  · rw [h1]; simp [Fds.close]
  · rw [h1]; simp [Fds.close]

example : Reached 16 oneLink ∧ (⟨5, 6, 0⟩ : Link) ∈ oneLink.links ∧ Alive oneLink 0 ∧
    ∀ c ∈ oneLink.children, c.k ≤ 0 :=
  ⟨oneLink_reached, by decide, ⟨_, List.mem_cons_self, rfl⟩, by
    intro c hc
    have : c.k ∈ oneLink.children.map (·.k) := List.mem_map.mpr ⟨c, hc, rfl⟩
    have e : oneLink.children.map (·.k) = [0] := rfl
    rw [e] at this
    simp at this
    omega⟩

/-- **C61 is false with several connections**: a vendor executable started later has inherited the write end;
the released one keeps waiting for input. -/
theorem c61_later_not {limit : Nat} {s : Sys} (hs : Reached limit s) {l : Link} (hl : l ∈ s.links)
    (hstd : 2 ≤ l.fdTo) {c : Child} (hc : c ∈ s.children) (hlater : l.k < c.k) :
    ¬ AtEnd (s.step limit (.free l)) l.k true := by
  have hi := inv_reached hs
  intro h
  refine h (.inr ⟨c, ?_, l.fdTo, ?_⟩)
  · rw [(freed hl).2]; exact hc
  · rw [hi.inherits l hl c hc hlater _ hstd (.inl rfl)]
    exact hi.toW l hl

example : Reached 16 twoLinks ∧ (⟨5, 6, 0⟩ : Link) ∈ twoLinks.links ∧
    ∃ c ∈ twoLinks.children, 0 < c.k :=
  ⟨twoLinks_reached, by decide, _, List.mem_cons_of_mem _ List.mem_cons_self, by decide⟩

/-- **C61 is false for descriptors**: after starting a vendor executable and releasing the connection, the
tool has a descriptor open that was free before. -/
theorem c61_descriptor_not {limit : Nat} {s s' : Sys} {env : SpawnEnv} {tls : Bool} {l : Link}
    (h : startLink limit env tls s = (some l, s')) :
    ∃ n, s.tool n = none ∧ (s'.closeLink l).tool n = some (.pipe l.k false true) := by
  obtain ⟨toR, fromW, t, he, hk, rfl⟩ := startLink_some h
  have o1 := he.o1; have o2 := he.o2; have o3 := he.o3
  refine ⟨fromW, he.f4, ?_⟩
  simp only [Sys.closeLink, Fds.close]
  rw [if_neg (by omega), if_neg (by omega), if_neg (by omega), he.eq, hk]
  simp

/-- Number of descriptors the tool will never close. -/
def stuck (limit : Nat) (t : Fds) : Nat :=
  (List.range limit).countP fun n => match t n with
    | some (.pipe _ false true) => true
    | _ => false

theorem countP_lt {p q : Nat → Bool} {l : List Nat} (hpq : ∀ n ∈ l, p n = true → q n = true) {m : Nat}
    (hm : m ∈ l) (hp : p m = false) (hq : q m = true) : l.countP p + 1 ≤ l.countP q := by
  induction l with
  | nil => cases hm
  | cons a l ih =>
    have hmono : l.countP p ≤ l.countP q :=
      List.countP_mono_left fun n hn h => hpq n (List.mem_cons_of_mem _ hn) h
    rcases List.mem_cons.mp hm with rfl | hm
    · simp [hp, hq]; exact hmono
    · have h1 := ih (fun n hn => hpq n (List.mem_cons_of_mem _ hn)) hm
      have h2 := hpq a List.mem_cons_self
      simp only [List.countP_cons]
      cases hpa : p a
      · cases q a <;> simp <;> omega
      · rw [h2 hpa]; simp; omega

/-- Ends the tool will never close stay open. -/
theorem step_stuck {limit : Nat} {s : Sys} (hi : SysInv s) (e : Event) (n k : Nat)
    (h : s.tool n = some (.pipe k false true)) : (s.step limit e).tool n = some (.pipe k false true) := by
  cases e with
  | start env tls =>
    simp only [Sys.step, startLink]
    rcases spawn_cases limit env s with ⟨h1, h2⟩ | ⟨toR, toW, t, h1, h2⟩ | ⟨toR, toW, fromR, fromW, t, h1, h2⟩ |
        ⟨toR, toW, fromR, fromW, t, h1, _, h2⟩
    · generalize spawn limit env s = r at h1 h2
      obtain ⟨o, s'⟩ := r
      dsimp only at h1 h2
      subst h1
      cases o <;> first | exact h | exact absurd rfl (h2 _)
    · rw [h2]
      obtain ⟨b1, b2, b3, b4, b5, b6⟩ := pipe_some h1
      dsimp only
      rw [b6]
      have e1 : n ≠ toW := by rintro rfl; rw [b4] at h; cases h
      have e2 : n ≠ toR := by rintro rfl; rw [b3] at h; cases h
      simp [e1, e2, h]
    · rw [h2]
      dsimp only
      have e1 : n ≠ toW := by rintro rfl; rw [h1.f2] at h; cases h
      have e2 : n ≠ toR := by rintro rfl; rw [h1.f1] at h; cases h
      have e3 : n ≠ fromR := by rintro rfl; rw [h1.f3] at h; cases h
      have e4 : n ≠ fromW := by rintro rfl; rw [h1.f4] at h; cases h
      rw [h1.eq]
      simp [e1, e2, e3, e4, h]
    · have e1 : n ≠ toW := by rintro rfl; rw [h1.f2] at h; cases h
      have e2 : n ≠ toR := by rintro rfl; rw [h1.f1] at h; cases h
      have e3 : n ≠ fromR := by rintro rfl; rw [h1.f3] at h; cases h
      have e4 : n ≠ fromW := by rintro rfl; rw [h1.f4] at h; cases h
      have hb : (t.close toR) n = some (.pipe k false true) := by
        rw [h1.eq]
        simp [Fds.close, e1, e2, e3, e4, h]
      rw [h2]
      cases env.calloc
      · exact hb
      · cases tls
        · simp only [if_true, Sys.closeLink]
          show Fds.close (Fds.close _ _) _ n = _
          unfold Fds.close at hb ⊢
          simp [e1, e3, hb]
        · exact hb
  | free l =>
    show (if l ∈ s.links then _ else _ : Sys).tool n = _
    split
    · rename_i hl
      have e1 : n ≠ l.fdTo := by rintro rfl; rw [hi.toW l hl] at h; simp at h
      have e2 : n ≠ l.fdFrom := by rintro rfl; rw [hi.fromR l hl] at h; simp at h
      simp [Sys.closeLink, Fds.close, e1, e2, h]
    · exact h
  | exit k => exact h
  | openFile =>
    simp only [Sys.step]
    split
    · rename_i m hm
      have e1 : n ≠ m := by rintro rfl; rw [(firstFree_some hm).2.1] at h; cases h
      simp [Fds.set, e1, h]
    · exact h
  | closeFile m =>
    show (if s.tool m = some .other then _ else _ : Sys).tool n = _
    split
    · rename_i hm
      have e1 : n ≠ m := by rintro rfl; rw [hm] at h; cases h
      simp [Fds.close, e1, h]
    · exact h

theorem stuck_mono {limit : Nat} {t t' : Fds}
    (h : ∀ n k, t n = some (.pipe k false true) → t' n = some (.pipe k false true)) :
    stuck limit t ≤ stuck limit t' := by
  unfold stuck
  refine List.countP_mono_left fun n _ hn => ?_
  split at hn
  · rename_i k hk
    rw [h n k hk]
  · cases hn

theorem starts_bounded {limit : Nat} {s : Sys} (hi : SysInv s) (evs : List Event) :
    startCount limit s evs + stuck limit s.tool ≤ limit := by
  induction evs generalizing s with
  | nil =>
    simp only [startCount, Nat.zero_add]
    unfold stuck
    refine Nat.le_trans List.countP_le_length (by simp)
  | cons e es ih =>
    have h1 := ih (inv_step (limit := limit) hi e)
    have h2 := step_stuck (limit := limit) hi e
    unfold startCount
    split
    · rename_i env tls
      split
      · rename_i hl
        obtain ⟨l, hl⟩ := Option.isSome_iff_exists.mp hl
        have hsl : startLink limit env tls s = (some l, (startLink limit env tls s).2) := by rw [← hl]
        have h2' := h2
        have h3 : stuck limit s.tool + 1 ≤ stuck limit (s.step limit (.start env tls)).tool := by
          obtain ⟨toR, fromW, t, he, hk, hs'⟩ := startLink_some hsl
          have o1 := he.o1; have o2 := he.o2; have o3 := he.o3
          unfold stuck
          refine countP_lt (m := fromW) ?_ (List.mem_range.mpr he.o4) ?_ ?_
          · intro n _ hn
            split at hn
            · rename_i k hk
              rw [h2' n k hk]
            · cases hn
          · rw [he.f4]
          · have : (s.step limit (.start env tls)).tool fromW = some (.pipe s.next false true) := by
              simp only [Sys.step]
              rw [hsl]
              dsimp only
              rw [hs']
              dsimp only [Fds.close]
              rw [if_neg (by omega), he.eq]
              simp
            rw [this]
        omega
      · have h3 := stuck_mono (limit := limit) h2
        omega
    · have h3 := stuck_mono (limit := limit) h2
      omega

/-- **C61 is false in the long run**: whatever a tool does, in particular if it releases every connection
before starting the next one, it cannot start vendor executables more often than it can have descriptors. -/
theorem c61_exhaustion_not {limit : Nat} {t : Fds} (ht : Fresh t) (evs : List Event) :
    startCount limit (Sys.init t) evs ≤ limit :=
  Nat.le_trans (Nat.le_add_right _ _) (starts_bounded (inv_init ht) evs)

/-- With descriptors below eight, the third start fails although both connections before were released. -/
example : startCount 8 (Sys.init stdTool) [.start {} true, .free ⟨4, 5, 0⟩, .start {} true,
    .free ⟨4, 5, 1⟩, .start {} true] = 2 := by decide

/-- **C61 is false for starts that fail**: unless nothing has happened at all, the tool has descriptors open
that were free before. -/
theorem c61_failure_not {limit : Nat} {env : SpawnEnv} {tls : Bool} {s s' : Sys}
    (h : startLink limit env tls s = (none, s')) :
    s' = s ∨ ∃ n, s.tool n = none ∧ s'.tool n ≠ none := by
  unfold startLink at h
  rcases spawn_cases limit env s with ⟨h1, h2⟩ | ⟨toR, toW, t, h1, h2⟩ | ⟨toR, toW, fromR, fromW, t, h1, h2⟩ |
      ⟨toR, toW, fromR, fromW, t, h1, _, h2⟩
  · left
    generalize spawn limit env s = r at h h1 h2
    obtain ⟨o, s''⟩ := r
    dsimp only at h1 h2
    subst h1
    cases o <;> first | (simp at h; exact h.symm) | exact absurd rfl (h2 _)
  · right
    rw [h2] at h
    simp at h
    subst h
    obtain ⟨b1, b2, b3, b4, b5, b6⟩ := pipe_some h1
    exact ⟨toW, b4, by simp [b6]⟩
  · right
    rw [h2] at h
    simp at h
    subst h
    exact ⟨fromW, h1.f4, by simp [h1.eq]⟩
  · right
    have o1 := h1.o1; have o2 := h1.o2; have o3 := h1.o3
    have hw : (t.close toR) fromW ≠ none := by
      simp [Fds.close, h1.eq, show fromW ≠ toR by omega]
    rw [h2] at h
    cases hc : env.calloc
    · rw [hc] at h
      simp at h
      subst h
      exact ⟨fromW, h1.f4, hw⟩
    · rw [hc] at h
      cases tls
      · simp at h
        subst h
        refine ⟨fromW, h1.f4, ?_⟩
        simp only [Sys.closeLink]
        show Fds.close (Fds.close _ _) _ fromW ≠ none
        unfold Fds.close at hw ⊢
        rw [if_neg (by omega), if_neg (by omega)]
        exact hw
      · simp at h

example : (startLink 16 { fork := false } true oneLink).1 = none ∧
    (startLink 16 { fork := false } true oneLink).2.next ≠ oneLink.next := by decide

/-- **C61 is false if `mlle_start_executable` runs out of memory**: it reports a failure, but the vendor
executable is running, and the end of its input never comes. -/
theorem c61_orphan_not {limit : Nat} {s : Sys} (hs : Reached limit s) (hin : s.tool 0 ≠ none)
    (hfds : ∃ l, (spawn limit {} s).1 = .link l) {tls : Bool} :
    (startLink limit { calloc := false } tls s).1 = none ∧
    Alive (startLink limit { calloc := false } tls s).2 s.next ∧
    ¬ AtEnd (startLink limit { calloc := false } tls s).2 s.next true := by
  obtain ⟨l, hl⟩ := hfds
  obtain ⟨s1, h1⟩ : ∃ s1, spawn limit {} s = (.link l, s1) := ⟨_, by rw [← hl]⟩
  have h2 : startLink limit {} true s = (some l, s1) := by unfold startLink; rw [h1]; rfl
  obtain ⟨c, hc, hk, hw, _⟩ := c59_start_partial hs hin rfl h2
  have h3 : spawn limit { calloc := false } s = (.noMemory, s1) := by
    have hi := h1
    unfold spawn at hi ⊢
    simp only [not_true, if_false, if_true] at hi ⊢
    split at hi
    · simp at hi
    · split at hi
      · simp at hi
      · simp at hi ⊢
        exact hi.2
  have h4 : startLink limit { calloc := false } tls s = (none, s1) := by unfold startLink; rw [h3]
  obtain ⟨_, _, _, _, hn, _⟩ := startLink_some h2
  have hi := inv_reached (reached_start hs h2)
  rw [h4]
  refine ⟨rfl, ⟨c, hc, hk.trans hn⟩, fun h => h (.inl ⟨l.fdTo, ?_⟩)⟩
  rw [← hn]
  exact hi.toW l (by simp)

example : Reached 16 oneLink ∧ oneLink.tool 0 ≠ none ∧ ∃ l, (spawn 16 {} oneLink).1 = .link l :=
  ⟨oneLink_reached, by decide, _, rfl⟩

/-! ## C62 -/

/-- **C62**, for earlier vendor executables.  A vendor executable has no end of a pipe of connections made
after it was started; and none ever has the end from which to read what the tool sends to another one.
Missing: see the negations. -/
theorem c62_partial {limit : Nat} {s : Sys} (hs : Reached limit s) {l : Link} (hl : l ∈ s.links) {c : Child}
    (hc : c ∈ s.children) (hne : c.k ≠ l.k) :
    ¬ Has c.fds (.pipe l.k true false) ∧ (c.k < l.k → ∀ a w, ¬ Has c.fds (.pipe l.k a w)) := by
  have hi := inv_reached hs
  refine ⟨fun h => hne (hi.childR l hl c hc h), fun hk a w => ?_⟩
  rintro ⟨n, hn⟩
  have := hi.childBefore c hc n _ _ _ hn
  omega

example : Reached 16 twoLinks ∧ (⟨8, 9, 1⟩ : Link) ∈ twoLinks.links ∧
    ∃ c ∈ twoLinks.children, c.k < 1 :=
  ⟨twoLinks_reached, by decide, _, List.mem_cons_self, by decide⟩

/-- **C62 is false for later vendor executables**: they can write to the vendor executables of all
connections the tool had, and read what these send. -/
theorem c62_connections_not {limit : Nat} {s : Sys} (hs : Reached limit s) {l : Link} (hl : l ∈ s.links)
    (hstd : 2 ≤ l.fdTo ∧ 2 ≤ l.fdFrom) {c : Child} (hc : c ∈ s.children) (hlater : l.k < c.k) :
    Has c.fds (.pipe l.k true true) ∧ Has c.fds (.pipe l.k false false) := by
  have hi := inv_reached hs
  refine ⟨⟨l.fdTo, ?_⟩, ⟨l.fdFrom, ?_⟩⟩
  · rw [hi.inherits l hl c hc hlater _ hstd.1 (.inl rfl)]
    exact hi.toW l hl
  · rw [hi.inherits l hl c hc hlater _ hstd.2 (.inr rfl)]
    exact hi.fromR l hl

example : Reached 16 twoLinks ∧ (⟨5, 6, 0⟩ : Link) ∈ twoLinks.links ∧ ∃ c ∈ twoLinks.children, 0 < c.k :=
  ⟨twoLinks_reached, by decide, _, List.mem_cons_of_mem _ List.mem_cons_self, by decide⟩

/-- **C62 is false for the tool's files**: the vendor executable has all of them open. -/
theorem c62_files_not {limit : Nat} {s s' : Sys} (hs : Reached limit s) (hin : s.tool 0 ≠ none)
    {env : SpawnEnv} (hx : env.exec = true) {tls : Bool} {l : Link}
    (h : startLink limit env tls s = (some l, s')) {n : Nat} (hn : 2 ≤ n) (hf : s.tool n = some .other) :
    ∃ c ∈ s'.children, c.k = l.k ∧ c.fds n = some .other := by
  obtain ⟨c, hc, hk, _⟩ := c59_start_partial hs hin hx h
  have hb := (inv_reached hs).childBound
  obtain ⟨toR, fromW, t, he, hl, rfl⟩ := startLink_some h
  refine ⟨c, hc, hk, ?_⟩
  rcases List.mem_append.mp hc with hc | hc
  · have := hb c hc
    omega
  · rw [(forkChild_mem he hc).2.2]
    dsimp only
    rw [if_neg (by omega), if_neg (by omega), if_neg ?_]
    · exact hf
    · rintro (rfl | rfl | rfl | rfl)
      · rw [he.f1] at hf; cases hf
      · rw [he.f2] at hf; cases hf
      · rw [he.f3] at hf; cases hf
      · rw [he.f4] at hf; cases hf

example : Reached 16 oneLink ∧ oneLink.tool 0 ≠ none ∧ oneLink.tool 3 = some .other ∧
    ∃ l, (startLink 16 {} true oneLink).1 = some l := ⟨oneLink_reached, by decide, by decide, _, rfl⟩

end Semla.Props
