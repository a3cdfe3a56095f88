import Verif.Lemmas.ToolHeap

/-!
# C74: memory of the tool
-/

namespace Semla.Props

open Semla Semla.Spec

/-- An answer YES that arrives in one record. -/
def heapYes : Tool := ⟨⟨[], [], [.record b!"YES\n" []]⟩, [.written], []⟩

/-- A file of three bytes: the answer arrives in two records, the first one in pieces. -/
def heapFile : Tool :=
  ⟨⟨[], [], [.record b!"FILECONT 3\na" [4, 3], .wantRead, .record b!"bc" []]⟩, [.written], []⟩

/-- An error from the vendor executable. -/
def heapError : Tool := ⟨⟨[], [], [.record b!"ERROR 1 3\nbad" []]⟩, [.written], []⟩

/-! ## No block is freed that is not there -/

/-- **C74.**  A call that is defined as far as values go is also defined with the blocks of memory it allocates and
frees: it never frees a block twice or a block that it did not allocate.  It ends the same way, with an error object
and a buffer just when the values say so, and does not touch the blocks of the caller. -/
theorem c74_same {m : Nat → Bool} {t t' : Tool} {s : Mem} {k : ToolCall} {r : ToolOut (Option FileContents)}
    (hs : NoErrorYet s.error) (h : valueCall m t (slotValue s.error) k = .ok (r, t')) :
    ∃ e s', callHeap m t s k = .ok (e, s', t') ∧ SameEnd r e s'.error ∧
      (e ≠ .blocked → ∃ new, s'.heap = s.heap ++ new) := by
  rcases callHeap_spec (noErrorYet hs) h with h | ⟨h, -⟩ <;>
  · obtain ⟨e, s', h1, -, h2⟩ := h
    exact ⟨e, s', h1, h2.sameEnd⟩

example : NoErrorYet (some none) ∧ ∃ f t',
    valueCall (fun _ => true) heapFile (some none) (.file b!"a.mo") = .ok (.success (some f) (some none), t') ∧
    callHeap (fun _ => true) heapFile ⟨[some 7], some none⟩ (.file b!"a.mo") = .ok (.contents 9 f (some 7),
      ⟨[some 7, none, some 16400, none, none, some 12, none, some 4, some 2, some 25], some none⟩, t') := by
  refine ⟨.inr rfl, ⟨3, 0, some ⟨[some 97, some 98, some 99, some 0]⟩⟩,
    ⟨⟨[], [], []⟩, [], [b!"FILE 4\na.mo"]⟩, ?_, ?_⟩ <;> decide +kernel

/-- An error object of the caller's, and the data of ERROR is freed. -/
example : ∃ e t',
    valueCall (fun _ => true) heapError (some none) (.file b!"a.mo") = .ok (.failed (some (some e)), t') ∧
    callHeap (fun _ => true) heapError ⟨[some 7], some none⟩ (.file b!"a.mo") = .ok (.failed,
      ⟨[some 7, none, some 16400, some 13, none, none, some 24, some 2048], some (some (6, some 7))⟩, t') := by
  refine ⟨⟨2, 1, some b!"Got ERROR command with message: bad"⟩,
    ⟨⟨[], [], []⟩, [], [b!"FILE 4\na.mo"]⟩, ?_, ?_⟩ <;> decide +kernel

/-! ## What is left over -/

/-- Full statement: once the caller has freed the error object and the file contents, there is as much memory in use as
before the call. -/
def c74_full : Prop := ∀ (m : Nat → Bool) (t t' : Tool) (s : Mem) (k : ToolCall) (r : ToolOut (Option FileContents))
  (e : CallEnd) (s' : Mem), NoErrorYet s.error → valueCall m t (slotValue s.error) k = .ok (r, t') →
  callHeap m t s k = .ok (e, s', t') → e ≠ .blocked → ∃ h', release e s' = .ok h' ∧ KeepsAnd s.heap h' 0

/-- **C74, bound.**  Whatever the vendor executable answers and whichever allocations fail: the caller can free the
error object and the file contents, no block of the caller is gone, and what stays in use is at most 16400 bytes and
two bytes for each byte received; it is one byte for each byte received if the call does not fail, or if the answer is
ERROR or no command.  Missing: `c74_lost_not`. -/
theorem c74_bounded_partial {m : Nat → Bool} {t t' : Tool} {s s' : Mem} {k : ToolCall} {e : CallEnd}
    {r : ToolOut (Option FileContents)} (hs : NoErrorYet s.error)
    (h : valueCall m t (slotValue s.error) k = .ok (r, t')) (hc : callHeap m t s k = .ok (e, s', t'))
    (he : e ≠ .blocked) :
    ∃ h' lost, release e s' = .ok h' ∧ KeepsAnd s.heap h' lost ∧
      lost ≤ 16400 + 2 * (toCome t.inn - toCome t'.inn) ∧
      (e ≠ .failed ∨ ¬ OtherAnswer m t.inn (slotValue s.error) → lost ≤ 16400 + (toCome t.inn - toCome t'.inn)) := by
  rcases callHeap_spec (noErrorYet hs) h with h | ⟨h, -⟩ <;>
  · obtain ⟨e1, s1, h1, -, h2⟩ := h
    rw [hc] at h1
    simp only [Res.ok.injEq, Prod.mk.injEq, and_true] at h1
    obtain ⟨rfl, rfl⟩ := h1
    obtain ⟨h', lost, h3, h4, -, h5⟩ := h2.release he
    exact ⟨h', lost, h3, h4, h5⟩

example : ∃ r t' s', valueCall (fun _ => true) heapFile (some none) (.file b!"a.mo") = .ok (r, t') ∧
    callHeap (fun _ => true) heapFile ⟨[some 7], some none⟩ (.file b!"a.mo") =
      .ok (.contents 9 ⟨3, 0, some ⟨[some 97, some 98, some 99, some 0]⟩⟩ (some 7), s', t') ∧
    release (.contents 9 ⟨3, 0, some ⟨[some 97, some 98, some 99, some 0]⟩⟩ (some 7)) s' =
      .ok [some 7, none, some 16400, none, none, some 12, none, none, some 2, none] ∧
    toCome heapFile.inn - toCome t'.inn = 14 := by
  refine ⟨.success (some ⟨3, 0, some ⟨[some 97, some 98, some 99, some 0]⟩⟩) (some none),
    ⟨⟨[], [], []⟩, [], [b!"FILE 4\na.mo"]⟩,
    ⟨[some 7, none, some 16400, none, none, some 12, none, some 4, some 2, some 25], some none⟩, ?_, ?_, ?_, ?_⟩ <;>
    decide +kernel

/-- An answer ERROR. -/
example : ¬ OtherAnswer (fun _ => true) heapError.inn (some none) := by
  rintro ⟨cmd, l, c', h, hn⟩
  have he : readCommand (fun _ => true) heapError.inn (some none) =
      .ok (.done ⟨.error, 1, 3, some ⟨[some 98, some 97, some 100, some 0]⟩⟩ (some none), ⟨[], [], []⟩) := by
    decide +kernel
  rw [he] at h
  simp only [Res.ok.injEq, Prod.mk.injEq, ReadOut.done.injEq] at h
  exact hn (by rw [← h.1.1])

/-- The full statement does not hold: with memory to spare, every call that succeeds, and every call but
`mlle_tool_version` that returns at all, loses at least 16400 bytes — the buffer that `mlle_read_command` allocates and
overwrites with the one of `ssl_read_message`. -/
theorem c74_lost_not :
    (∀ (m : Nat → Bool) (t t' : Tool) (s s' : Mem) (k : ToolCall) (e : CallEnd) (r : ToolOut (Option FileContents)),
      m 16400 = true → NoErrorYet s.error → valueCall m t (slotValue s.error) k = .ok (r, t') →
      callHeap m t s k = .ok (e, s', t') → e ≠ .blocked → e ≠ .failed ∨ (∀ a b, k ≠ .version a b) →
      ∀ h' lost, release e s' = .ok h' → KeepsAnd s.heap h' lost → 16400 ≤ lost) ∧ ¬ c74_full := by
  have main : ∀ (m : Nat → Bool) (t t' : Tool) (s s' : Mem) (k : ToolCall) (e : CallEnd)
      (r : ToolOut (Option FileContents)),
      m 16400 = true → NoErrorYet s.error → valueCall m t (slotValue s.error) k = .ok (r, t') →
      callHeap m t s k = .ok (e, s', t') → e ≠ .blocked → e ≠ .failed ∨ (∀ a b, k ≠ .version a b) →
      ∀ h' lost, release e s' = .ok h' → KeepsAnd s.heap h' lost → 16400 ≤ lost := by
    intro m t t' s s' k e r hm hs h hc he hk h' lost hr hl
    rcases callHeap_spec (noErrorYet hs) h with ⟨e1, s1, h1, -, h2⟩ | ⟨⟨e1, s1, h1, -, h2⟩, ⟨l, rfl⟩, a, b, rfl⟩
    · rw [hc] at h1
      simp only [Res.ok.injEq, Prod.mk.injEq, and_true] at h1
      obtain ⟨rfl, rfl⟩ := h1
      obtain ⟨h3, lost', h4, h5, h6, -⟩ := h2.release he
      rw [hr] at h4
      simp only [Res.ok.injEq] at h4
      subst h4
      have e1 := hl.2
      have e2 := h5.2
      simp only [least, hm, if_true] at h6
      omega
    · rw [hc] at h1
      simp only [Res.ok.injEq, Prod.mk.injEq, and_true] at h1
      obtain ⟨rfl, rfl⟩ := h1
      rcases hk with hk | hk
      · exact absurd h2.1 hk
      · exact absurd rfl (hk a b)
  refine ⟨main, fun hf => ?_⟩
  have hv : valueCall (fun _ => true) heapYes (slotValue (some none)) (.libpath b!"/") =
      .ok (.success none (some none), ⟨⟨[], [], []⟩, [], [b!"LIB 1\n/"]⟩) := by decide +kernel
  have hc : callHeap (fun _ => true) heapYes ⟨[], some none⟩ (.libpath b!"/") =
      .ok (.success, ⟨[none, some 16400, some 4, none], some none⟩, ⟨⟨[], [], []⟩, [], [b!"LIB 1\n/"]⟩) := by
    decide +kernel
  obtain ⟨h', h1, h2⟩ := hf _ _ _ ⟨[], some none⟩ _ _ _ _ (.inr rfl) hv hc (by simp)
  have := main _ _ _ _ _ _ _ _ rfl (.inr rfl) hv hc (by simp) (.inl (by simp)) h' 0 h1 h2
  omega

/-- **C74, sessions.**  For calls one after the other on a connection, each followed by the caller freeing what it got:
the memory in use grows by at most 16400 bytes for each call and two bytes for each byte received — and, if there is
enough memory, by at least 16400 bytes for each call that is not `mlle_tool_version`. -/
theorem c74_session_partial {m : Nat → Bool} {slot : ErrSlot} (hs : NoErrorYet slot) {t t' : Tool} {h h' : Heap}
    {ks : List ToolCall} (hr : CallSession m slot t h ks t' h') :
    (∃ new, h' = h ++ new) ∧
    inUse h' ≤ inUse h + 16400 * ks.length + 2 * (toCome t.inn - toCome t'.inn) ∧
    (m 16400 = true → (∀ k ∈ ks, ∀ a b, k ≠ .version a b) → inUse h + 16400 * ks.length ≤ inUse h') := by
  have hle : toCome t'.inn ≤ toCome t.inn := by
    induction hr with
    | nil => exact Nat.le_refl _
    | cons h1 h2 _ _ _ ih =>
      rcases callHeap_spec (noErrorYet (s := ⟨[], slot⟩) hs) h1 with ⟨_, _, -, h3, -⟩ | ⟨⟨_, _, -, h3, -⟩, -⟩ <;> omega
  induction hr with
  | nil => exact ⟨⟨[], by simp⟩, by simp, by simp⟩
  | @cons t t1 t2 h h1 h2 s k ks e r hv hc he hrel hrest ih =>
    have hle1 : toCome t2.inn ≤ toCome t1.inn := by
      clear ih hle hv hc hrel
      induction hrest with
      | nil => exact Nat.le_refl _
      | cons h1 h2 _ _ _ ih =>
        rcases callHeap_spec (noErrorYet (s := ⟨[], slot⟩) hs) h1 with ⟨_, _, -, h3, -⟩ | ⟨⟨_, _, -, h3, -⟩, -⟩ <;>
          omega
    have hle2 : toCome t1.inn ≤ toCome t.inn := by
      rcases callHeap_spec (noErrorYet (s := ⟨[], slot⟩) hs) hv with ⟨_, _, -, h3, -⟩ | ⟨⟨_, _, -, h3, -⟩, -⟩ <;> omega
    obtain ⟨⟨new2, i1⟩, i2, i3⟩ := ih hle1
    obtain ⟨h3, lost, j1, ⟨⟨new1, j2⟩, j3⟩, j4, -⟩ := c74_bounded_partial (s := ⟨h, slot⟩) hs hv hc he
    rw [hrel] at j1
    simp only [Res.ok.injEq] at j1
    subst j1
    dsimp only at j2 j3
    refine ⟨⟨new1 ++ new2, by rw [i1, j2]; simp⟩, ?_, fun hm hk => ?_⟩
    · simp only [List.length_cons]
      omega
    · have k1 := i3 hm fun k hk' => hk k (by simp [hk'])
      have k2 := c74_lost_not.1 m t t1 ⟨h, slot⟩ s k e r hm hs hv hc he (.inr (hk k (by simp))) h1 lost hrel
        ⟨⟨new1, j2⟩, j3⟩
      simp only [List.length_cons]
      rw [Nat.mul_add, Nat.mul_one]
      have k3 := Nat.add_le_add_left k2 (inUse h)
      rw [← j3] at k3
      have k4 := Nat.le_trans (Nat.add_le_add_right k3 (16400 * ks.length)) k1
      rwa [Nat.add_comm (16400 * ks.length), ← Nat.add_assoc]

example : CallSession (fun _ => true) (some none)
    ⟨⟨[], [], [.record b!"YES\n" [], .record b!"ERROR 1 3\nbad" []]⟩, [.written, .written], []⟩ []
    [.libpath b!"/", .feature b!"f"] ⟨⟨[], [], []⟩, [], [b!"LIB 1\n/", b!"FEATURE 1\nf"]⟩
    [none, some 16400, some 4, none, none, some 16400, some 13, none, none, none, none] := by
  refine .cons (t1 := ⟨⟨[], [], [.record b!"ERROR 1 3\nbad" []]⟩, [.written], [b!"LIB 1\n/"]⟩)
    (h1 := [none, some 16400, some 4, none]) (s := ⟨[none, some 16400, some 4, none], some none⟩) (e := .success)
    (r := .success none (some none)) (by decide +kernel) (by decide +kernel) (by simp) (by decide +kernel)
    (.cons (t1 := ⟨⟨[], [], []⟩, [], [b!"LIB 1\n/", b!"FEATURE 1\nf"]⟩)
      (h1 := [none, some 16400, some 4, none, none, some 16400, some 13, none, none, none, none])
      (s := ⟨[none, some 16400, some 4, none, none, some 16400, some 13, none, none, some 24, some 2048],
        some (some (9, some 10))⟩) (e := .failed)
      (r := .failed (some (some ⟨2, 1, some b!"Got ERROR command with message: bad"⟩)))
      (by decide +kernel) (by decide +kernel) (by simp) (by decide +kernel) .nil)

/-! ## Reading a file -/

/-- **C74, files.**  Whatever the caller reads with `mlle_tool_read_bytes` — nothing, parts, all of it, beyond the end —
`mlle_file_contents_free` then frees what is left exactly once: the bound of `c74_bounded_partial` for calls that
do not fail holds as well. -/
theorem c74_file {m : Nat → Bool} {t t' : Tool} {s s' : Mem} {path : Bytes} {r : ToolOut (Option FileContents)}
    {p : Nat} {f f' : FileContents} {b : Option Nat} {ns : List Nat} {rs : List (Option Bytes)}
    (hs : NoErrorYet s.error) (h : valueCall m t (slotValue s.error) (.file path) = .ok (r, t'))
    (hc : callHeap m t s (.file path) = .ok (.contents p f b, s', t')) (hr : toolReads f ns = .ok (rs, f')) :
    ∃ s2 h1 b' h' lost, s'.freeError = .ok s2 ∧ readsHeap f b ns s2.heap = .ok (f', b', h1) ∧
      (f'.buffer.isSome = b'.isSome) ∧
      contentsFree p b' h1 = .ok h' ∧ KeepsAnd s.heap h' lost ∧
      lost ≤ 16400 + (toCome t.inn - toCome t'.inn) := by
  rcases callHeap_spec (noErrorYet hs) h with h | ⟨h, -⟩ <;>
  · obtain ⟨e1, s1, h1, -, h2⟩ := h
    rw [hc] at h1
    simp only [Res.ok.injEq, Prod.mk.injEq, and_true] at h1
    obtain ⟨rfl, rfl⟩ := h1
    cases r with
    | blocked => simp [AfterCall] at h2
    | failed l => simp [AfterCall] at h2
    | success g l =>
      cases g with
      | none => simp [AfterCall] at h2
      | some g =>
        obtain ⟨p1, b1, bl, k, lost, h3, h4, h5, h6, -, h7⟩ := h2
        simp only [CallEnd.contents.injEq] at h3
        obtain ⟨rfl, rfl, rfl⟩ := h3
        obtain ⟨s2, h8, h9⟩ := h6.freeError
        obtain ⟨b', h1, bl', k1, k2, k3, k4⟩ := readsHeap_spec ns h5 h4 h9 hr
        obtain ⟨h', k5, k6⟩ := contentsFree_spec k2 k4
        exact ⟨s2, h1, b', h', lost, h8, k1, Bool.eq_iff_iff.mpr k3, k5, ⟨k6.keeps, by simpa using k6.sum⟩, h7⟩

/-- Two bytes and then the rest: the second call frees the buffer, and the free behind it only the structure. -/
example : toolReads ⟨3, 0, some ⟨[some 97, some 98, some 99, some 0]⟩⟩ [2, 5] =
      .ok ([some b!"ab", some b!"c"], ⟨3, 3, none⟩) ∧
    readsHeap ⟨3, 0, some ⟨[some 97, some 98, some 99, some 0]⟩⟩ (some 0) [2, 5] [some 4, some 25] =
      .ok (⟨3, 3, none⟩, none, [none, some 25]) ∧
    contentsFree 1 none [none, some 25] = .ok [none, none] ∧
    contentsFree 1 (some 0) [none, some 25] = .ub .badFree := by decide +kernel

end Semla.Props
