import Verif.Lemmas.LveHeap
import Verif.Props.LveFile

/-!
# C75: memory and open files of the vendor executable
-/

namespace Semla.Props

open Semla Semla.Spec

/-- The executable of the examples, and the context it starts with. -/
def heapConf : LveConf := toyConf [b!"k"] none generous

def heapStart : LveSt :=
  match lveStart heapConf (some b!"k") with
  | .ok st => st
  | .ub _ => .initial

theorem heapStart_ok : lveStart heapConf (some b!"k") = .ok heapStart := by decide +kernel

/-- Messages, each in a record of its own. -/
def records (ms : List Bytes) : Conn := ⟨[], [], ms.map fun m => .record m []⟩

/-- All rounds in the same world. -/
def rounds (w : World) (n : Nat) : List (World × Bool) := List.replicate n (w, false)

/-! ## No block is freed that is not there -/

/-- **C75.**  Whatever the tool sends, whichever files there are and whichever allocations fail: a session that is
defined as far as values go is also defined with the blocks of memory that it allocates and frees, so it never frees a
block twice or a block that it did not allocate.  What stays in use are the blocks that the context points to, all
different ones, and at most one more for each command. -/
theorem c75_same {conf : LveConf} {k : Option Bytes} {st st' : LveSt} {turns : List (World × Bool)} {c : Conn}
    {outs : List (List Bytes)} (h0 : lveStart conf k = .ok st) (h : lveReceive conf st turns c = .ok (st', outs)) :
    ∃ s' lost, lveReceiveHeap conf st turns c .initial = .ok s' ∧ PointsTo st' s' ∧ (kept s' ++ lost).Nodup ∧
      (∀ a, Live s'.heap a ↔ a ∈ kept s' ++ lost) ∧ lost.length ≤ outs.length := by
  obtain ⟨s', l, h1, h2, h3, -⟩ := lveReceiveHeap_spec turns (Held.start h0) h
  obtain ⟨e1, e2, e3⟩ := h2.live
  exact ⟨s', _, h1, e3, e1, e2, by simpa using h3⟩

/-- A session with a library and a file. -/
def heapSession : Conn := records [b!"VERSION 1\n", b!"LIB 2\n/l", b!"FILE 4\na.mo"]

/-- Blocks 5 and 6 are the path and the context of the decryptor. -/
example : (∃ st' outs, lveReceive heapConf heapStart (rounds lib1 3) heapSession = .ok (st', outs) ∧
      outs.map (·.map List.length) = [[10], [4], [26]]) ∧
    lveReceiveHeap heapConf heapStart (rounds lib1 3) heapSession .initial = .ok
      ⟨[none, none, none, none, none, some 3, some 50, none, none, none, none, none, none], 0,
        some 5, some 6, [], none⟩ := by
  refine ⟨⟨_, _, rfl, ?_⟩, ?_⟩ <;> decide +kernel

/-! ## What is left over -/

/-- A license manager that refuses every feature. -/
def refusing (calls : List LicCall) : LicAnswer :=
  if calls.length < 2 then .success else .failure (some b!"no seat")

/-- Full statement: after any number of commands, no more blocks are in use than the context points to, and all files
are closed. -/
def c75_full : Prop := ∀ (conf : LveConf) (k : Option Bytes) (st st' : LveSt) (turns : List (World × Bool)) (c : Conn)
  (outs : List (List Bytes)) (s' : LveMem), lveStart conf k = .ok st → lveReceive conf st turns c = .ok (st', outs) →
  lveReceiveHeap conf st turns c .initial = .ok s' → (∀ a, Live s'.heap a ↔ a ∈ kept s') ∧ s'.streams = 0

/-- **C75, with enough memory.**  If no allocation fails and the sizes of files are known, then after any number of
commands the blocks in use are exactly the ones that the context points to: the library path, the context of the
decryptor, a block for each directory with a key mask and the text of a license error; and all files are closed.
Missing: `c75_streams_not`, `c75_blocks_not`. -/
theorem c75_partial {conf : LveConf} {k : Option Bytes} {st st' : LveSt} {turns : List (World × Bool)} {c : Conn}
    {outs : List (List Bytes)} (hw : ∀ x ∈ turns, Roomy x.1) (h0 : lveStart conf k = .ok st)
    (h : lveReceive conf st turns c = .ok (st', outs)) :
    ∃ s', lveReceiveHeap conf st turns c .initial = .ok s' ∧ PointsTo st' s' ∧ (kept s').Nodup ∧
      (∀ a, Live s'.heap a ↔ a ∈ kept s') ∧ s'.streams = 0 := by
  obtain ⟨s', l, h1, h2, -, h3⟩ := lveReceiveHeap_spec turns (Held.start h0) h
  obtain ⟨rfl, h4⟩ := h3 hw
  obtain ⟨e1, e2, e3⟩ := h2.live
  exact ⟨s', h1, e3, by simpa using e1, by simpa using e2, h4⟩

theorem roomy_roomy (files : List (Bytes × Bytes)) (dirs : List Bytes) : Roomy (roomy files dirs) := by
  refine ⟨fun _ => rfl, fun p why => ?_⟩
  unfold roomy
  dsimp only
  split <;> simp

example : ∀ x ∈ rounds lib1 3, Roomy x.1 := by
  intro x hx
  rw [List.eq_of_mem_replicate hx]
  exact roomy_roomy _ _

/-- A library with encrypted files in two directories, one of them asked for twice: two key masks are kept, for `A`
and for the root. -/
example : (∀ x ∈ rounds lib2 4, Roomy x.1) ∧ repliesOf (lveReceive heapConf heapStart (rounds lib2 4) (records
      [b!"VERSION 1\n", b!"LIB 2\n/l", b!"FILE 7\nA/x.moc", b!"FILE 7\nA/x.moc"])) =
      some [[b!"VERSION 1\n"], [b!"YES\n"], [b!"FILECONT 14\nmodel x end x;"], [b!"FILECONT 14\nmodel x end x;"]] ∧
    lveReceiveHeap heapConf heapStart (rounds lib2 4) (records
      [b!"VERSION 1\n", b!"LIB 2\n/l", b!"FILE 7\nA/x.moc", b!"FILE 7\nA/x.moc"]) .initial =
      .ok ⟨List.replicate 5 none ++ [some 3, some 50] ++ List.replicate 11 none ++ [some 106, none, some 106] ++
        List.replicate 10 none, 0, some 5, some 6, [18, 20], none⟩ := by
  refine ⟨fun x hx => ?_, ?_, ?_⟩
  · rw [List.eq_of_mem_replicate hx]
    exact roomy_roomy _ _
  · decide +kernel
  · decide +kernel

/-- A license that is refused: the text is kept in addition. -/
example : ∃ st' outs s', lveReceive (toyConf [b!"k"] (some b!"g") refusing) heapStart (rounds lib1 3) heapSession =
      .ok (st', outs) ∧
    lveReceiveHeap (toyConf [b!"k"] (some b!"g") refusing) heapStart (rounds lib1 3) heapSession .initial = .ok s' ∧
    s'.text = some 9 ∧ s'.heap.filter Option.isSome = [some 3, some 50, some 8] := by
  refine ⟨_, _, _, rfl, rfl, ?_, ?_⟩ <;> decide +kernel

/-- So the number of blocks is bounded by the number of directories with key masks. -/
theorem c75_count {conf : LveConf} {k : Option Bytes} {st st' : LveSt} {turns : List (World × Bool)} {c : Conn}
    {outs : List (List Bytes)} {s' : LveMem} (hw : ∀ x ∈ turns, Roomy x.1) (h0 : lveStart conf k = .ok st)
    (h : lveReceive conf st turns c = .ok (st', outs)) (hs : lveReceiveHeap conf st turns c .initial = .ok s') :
    ∃ live : List Nat, (∀ a, a ∈ live ↔ Live s'.heap a) ∧ live.Nodup ∧ live.length ≤ 3 + (st'.cr.getD []).length := by
  obtain ⟨s2, h1, h2, h3, h4, -⟩ := c75_partial hw h0 h
  rw [hs, Res.ok.injEq] at h1
  subst h1
  refine ⟨kept s', fun a => (h4 a).symm, h3, ?_⟩
  have hm : s'.masks.length = (st'.cr.getD []).length := by
    have := congrArg List.length h2.masks
    simpa using this
  have ho : ∀ o : Option Nat, o.toList.length ≤ 1 := by intro o; cases o <;> simp
  have h5 := ho s'.libpath
  have h6 := ho s'.context
  have h7 := ho s'.text
  unfold kept
  simp only [List.length_append]
  omega

/-- At the end of the session, `mlle_lve_shutdown` frees the library path only, and that block is there. -/
theorem c75_shutdown {conf : LveConf} {k : Option Bytes} {st st' : LveSt} {turns : List (World × Bool)} {c : Conn}
    {outs : List (List Bytes)} (h0 : lveStart conf k = .ok st) (h : lveReceive conf st turns c = .ok (st', outs)) :
    ∃ s' s'', lveReceiveHeap conf st turns c .initial = .ok s' ∧ lveShutdownHeap s' = .ok s'' ∧
      s''.streams = s'.streams ∧ ∀ a, Live s''.heap a ↔ Live s'.heap a ∧ s'.libpath ≠ some a := by
  obtain ⟨s', l, h1, h2, -⟩ := lveReceiveHeap_spec turns (Held.start h0) h
  obtain ⟨g, e1, e2⟩ := h2.shutdown
  exact ⟨s', _, h1, e1, rfl, e2⟩

example : ∃ s', lveReceiveHeap heapConf heapStart (rounds lib1 3) heapSession .initial = .ok s' ∧
    lveShutdownHeap s' = .ok
      ⟨[none, none, none, none, none, none, some 50, none, none, none, none, none, none], 0,
        some 5, some 6, [], none⟩ := ⟨_, rfl, by decide +kernel⟩

/-! ## Files that stay open -/

/-- A library with a file of a gigabyte, and memory for less. -/
def bigLib : World :=
  { lib1 with
    files := fun p => if p = b!"/l/big" then .stream 1000000000 [] none else lib1.files p
    malloc := fun n => n < 100000000 }

/-- The contexts behind VERSION and behind LIB. -/
def bigState (ms : List Bytes) : LveSt :=
  match lveRun heapConf heapStart (inWorld bigLib ms) with
  | .ok (st, _) => st
  | .ub _ => .initial

def bigOne : LveSt := bigState [b!"VERSION 1\n"]

def bigTwo : LveSt := bigState [b!"VERSION 1\n", b!"LIB 2\n/l"]

def bigAnswer : Bytes := b!"ERROR 6 45\n" ++ b!"Couldn't allocate memory to read file: /l/big"

theorem big_receive {st st1 : LveSt} {m : Bytes} {out : List Bytes} {outs : List (List Bytes)} {n : Nat} {evs : List Ev}
    {st2 : LveSt} (hm : m ≠ [] ∧ m.length ≤ readMax) (h1 : lveStep heapConf bigLib st m = .ok (st1, out))
    (h2 : lveReceive heapConf st1 (rounds bigLib n) ⟨[], [], evs⟩ = .ok (st2, outs)) :
    lveReceive heapConf st (rounds bigLib (n + 1)) ⟨[], [], .record m [] :: evs⟩ = .ok (st2, out :: outs) := by
  have hl : m.length ≤ 1023 := hm.2
  have hr := sslReadMessage_short (m := bigLib.malloc) hm.1 hm.2
    (by simp only [bigLib, decide_eq_true_eq]; omega) evs
  unfold rounds at h2 ⊢
  simp only [List.replicate_succ, lveReceive, hr, Res.bind_ok, readCells_map_some', h1, Bool.false_eq_true, if_false, h2]

theorem big_receive_heap {st st1 : LveSt} {m : Bytes} {out : List Bytes} {n : Nat} {evs : List Ev} (s : LveMem)
    (hm : m ≠ [] ∧ m.length ≤ readMax) (h1 : lveStep heapConf bigLib st m = .ok (st1, out)) :
    lveReceiveHeap heapConf st (rounds bigLib (n + 1)) ⟨[], [], .record m [] :: evs⟩ s = (do
      let s2 ← lveStepHeap heapConf bigLib st m { s with heap := s.heap ++ [some m.length] }
      let s3 ← s2.free (some s.heap.length)
      lveReceiveHeap heapConf st1 (rounds bigLib n) ⟨[], [], evs⟩ s3) := by
  have hl : m.length ≤ 1023 := hm.2
  have hb : bigLib.malloc m.length = true := by simp only [bigLib, decide_eq_true_eq]; omega
  have hr := sslReadMessage_short (m := bigLib.malloc) hm.1 hm.2 hb evs
  have hr2 := sslReadHeap_short (m := bigLib.malloc) hm.1 hm.2 hb evs s.heap
  unfold rounds
  simp only [List.replicate_succ, lveReceiveHeap, hr, hr2, Res.bind_ok, readCells_map_some', h1, Bool.false_eq_true,
    if_false]

theorem big_file {s s' : LveMem} (h : lveStepHeap heapConf bigLib bigTwo b!"FILE 3\nbig" s = .ok s') :
    s'.streams = s.streams + 1 := by
  have hst : bigTwo.proto = .license ∧ bigTwo.approved = true ∧ bigTwo.libpath = some b!"/l" ∧ bigTwo.pathSize = 2 := by
    decide +kernel
  have hp : parseCommand lveErrorSize b!"FILE 3\nbig" bigTwo.errMsg =
      .ok (.valid, ⟨.file, 0, 3, none⟩, bigTwo.errMsg) := by decide +kernel
  have hn : nextState lveErrorSize .license .file bigTwo.errMsg = .ok (some .license, bigTwo.errMsg) := by decide +kernel
  have hx : extractData bigLib.malloc ⟨.file, 0, 3, none⟩ b!"FILE 3\nbig" =
      .ok (⟨.file, 0, 3, some ⟨[some 98, some 105, some 103, some 0]⟩⟩, 3) := by decide +kernel
  unfold lveStepHeap at h
  rw [if_neg (by decide +kernel)] at h
  simp only [LveMem.alloc, hp, Res.bind_ok, if_true] at h
  obtain ⟨s1, h1, h⟩ := Res.bind_eq_ok.1 h
  unfold handleHeap at h
  simp only [hst.1, hn, Res.bind_ok, CmdId.form, if_true, hx, reduceCtorEq, if_false, LveMem.alloc] at h
  obtain ⟨s2, h2, h⟩ := Res.bind_eq_ok.1 h
  unfold dispatchHeap at h2
  simp only [reduceCtorEq, or_self, if_false] at h2
  have h3 := lveFileHeap_big (conf := heapConf) (w := bigLib) (st := bigTwo) (lib := b!"/l") (rel := b!"big")
    (size := 1000000000) (bytes := []) (io := none)
    (cmd := ⟨.file, 0, 3, some ⟨[some 98, some 105, some 103, some 0]⟩⟩) hst.2.1 (by decide +kernel) hst.2.2.1 rfl
    (by decide +kernel) (by rw [hst.2.2.2]; decide +kernel) (by decide +kernel) h2
  rw [LveMem.free_streams h, h3]
  have h4 := LveMem.free_streams h1
  dsimp only at h4 ⊢
  rw [h4]

/-- **C75, negated.**  A tool can have the executable open as many files as it likes: each request for a file for
which there is not enough memory leaves a stream open. -/
theorem c75_streams_not (n : Nat) : ∃ st' outs s',
    lveReceive heapConf heapStart (rounds bigLib (n + 2))
      (records (b!"VERSION 1\n" :: b!"LIB 2\n/l" :: List.replicate n b!"FILE 3\nbig")) = .ok (st', outs) ∧
    lveReceiveHeap heapConf heapStart (rounds bigLib (n + 2))
      (records (b!"VERSION 1\n" :: b!"LIB 2\n/l" :: List.replicate n b!"FILE 3\nbig")) .initial = .ok s' ∧
    s'.streams = n := by
  have h1 : lveStep heapConf bigLib heapStart b!"VERSION 1\n" = .ok (bigOne, [b!"VERSION 1\n"]) := by decide +kernel
  have h2 : lveStep heapConf bigLib bigOne b!"LIB 2\n/l" = .ok (bigTwo, [b!"YES\n"]) := by decide +kernel
  have h3 : lveStep heapConf bigLib bigTwo b!"FILE 3\nbig" = .ok (bigTwo, [bigAnswer]) := by decide +kernel
  have files : ∀ n, ∃ outs, lveReceive heapConf bigTwo (rounds bigLib n)
      (records (List.replicate n b!"FILE 3\nbig")) = .ok (bigTwo, outs) := by
    intro n
    induction n with
    | zero => exact ⟨[], rfl⟩
    | succ n ih =>
      obtain ⟨outs, ih⟩ := ih
      exact ⟨_, big_receive (by decide) h3 ih⟩
  obtain ⟨outs, hf⟩ := files n
  have hr := big_receive (by decide) h1 (big_receive (by decide) h2 hf)
  obtain ⟨s', l, hs, -⟩ := lveReceiveHeap_spec _ (Held.start heapStart_ok) hr
  refine ⟨_, _, s', hr, hs, ?_⟩
  have e1 := big_receive_heap (n := n + 1) .initial (by decide) h1
    (evs := .record b!"LIB 2\n/l" [] :: (List.replicate n b!"FILE 3\nbig").map fun m => .record m [])
  have e2 : lveStepHeap heapConf bigLib heapStart b!"VERSION 1\n" ⟨[some 10], 0, none, none, [], none⟩ =
      .ok ⟨[some 10, none], 0, none, none, [], none⟩ := by decide +kernel
  have e3 := big_receive_heap (n := n) ⟨[none, none], 0, none, none, [], none⟩ (by decide) h2
    (evs := (List.replicate n b!"FILE 3\nbig").map fun m => .record m [])
  have e4 : lveStepHeap heapConf bigLib bigOne b!"LIB 2\n/l" ⟨[none, none, some 8], 0, none, none, [], none⟩ =
      .ok ⟨[none, none, some 8, none, none, some 3, some 50], 0, some 5, some 6, [], none⟩ := by decide +kernel
  have e5 : lveReceiveHeap heapConf heapStart (rounds bigLib (n + 2))
      (records (b!"VERSION 1\n" :: b!"LIB 2\n/l" :: List.replicate n b!"FILE 3\nbig")) .initial =
      lveReceiveHeap heapConf bigTwo (rounds bigLib n) (records (List.replicate n b!"FILE 3\nbig"))
        ⟨[none, none, none, none, none, some 3, some 50], 0, some 5, some 6, [], none⟩ := by
    refine e1.trans ?_
    change (do
      let s2 ← lveStepHeap heapConf bigLib heapStart b!"VERSION 1\n" ⟨[some 10], 0, none, none, [], none⟩
      _) = _
    rw [e2]
    refine e3.trans ?_
    change (do
      let s2 ← lveStepHeap heapConf bigLib bigOne b!"LIB 2\n/l" ⟨[none, none, some 8], 0, none, none, [], none⟩
      _) = _
    rw [e4]
    rfl
  have count : ∀ n s, lveReceiveHeap heapConf bigTwo (rounds bigLib n)
      (records (List.replicate n b!"FILE 3\nbig")) s = .ok s' → s'.streams = s.streams + n := by
    intro n
    induction n with
    | zero =>
      intro s h
      simp only [rounds, List.replicate_zero, lveReceiveHeap, Res.ok.injEq] at h
      rw [h]; rfl
    | succ n ih =>
      intro s h
      have h4 := big_receive_heap (n := n) s (by decide) h3
        (evs := (List.replicate n b!"FILE 3\nbig").map fun m => .record m [])
      have h := h4.symm.trans h
      obtain ⟨t2, f2, h⟩ := Res.bind_eq_ok.1 h
      obtain ⟨t3, f3, h⟩ := Res.bind_eq_ok.1 h
      rw [ih t3 h, LveMem.free_streams f3, big_file f2]
      exact Nat.add_right_comm _ _ _
  rw [count n _ (e5.symm.trans hs)]
  exact Nat.zero_add n

/-! ## Blocks that are lost -/

/-- An encrypted file that got shorter while it was read: there is no memory for the plain text. -/
def shrunkLib : World :=
  { lib1 with
    files := fun p => if p = b!"/l/a.moc" then .stream 40 (List.replicate 20 0) none else lib1.files p
    malloc := fun n => n ≠ 21 }

/-- **C75, negated.**  The text of the error about missing memory is lost: a block of 109 bytes that nobody points to. -/
theorem c75_blocks_not : ∃ st' outs s',
    lveReceive heapConf heapStart (rounds shrunkLib 3)
      (records [b!"VERSION 1\n", b!"LIB 2\n/l", b!"FILE 5\na.moc"]) = .ok (st', outs) ∧
    lveReceiveHeap heapConf heapStart (rounds shrunkLib 3)
      (records [b!"VERSION 1\n", b!"LIB 2\n/l", b!"FILE 5\na.moc"]) .initial = .ok s' ∧ s'.streams = 0 ∧
    s'.heap[12]? = some (some 109) ∧ 12 ∉ kept s' := by
  refine ⟨_, _, _, rfl, rfl, ?_, ?_, ?_⟩ <;> decide +kernel

theorem c75_not : ¬ c75_full := by
  intro h
  obtain ⟨st', outs, s', h1, h2, h3⟩ := c75_streams_not 1
  have := (h _ _ _ _ _ _ _ _ heapStart_ok h1 h2).2
  omega

end Semla.Props
