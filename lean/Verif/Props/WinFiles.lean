import Verif.Lemmas.WinFiles

/-!
# C84: reading library files on Windows
-/

namespace Semla.Props

open Semla Semla.Spec

/-- **C84, memory.** Reading a file never overflows the buffer for long paths, nor reads bytes of it that
were not written, whatever the path and whatever calls fail. -/
theorem c84_safe (w : WinFiles) (p : Bytes) : (readFileWin w p).Defined := by
  unfold readFileWin
  split
  · exact ⟨_, rfl⟩
  · split
    · exact ⟨_, rfl⟩
    · rename_i hl
      obtain ⟨q, hq⟩ := longPath_defined p (by omega)
      rw [hq]
      simp only [Res.bind_ok]
      split <;> exact ⟨_, rfl⟩

/-- What the function returns for a path to names on a drive. -/
theorem readFileWin_leads {w : WinFiles} {files : UInt8 → List Bytes → Option Bytes} (hw : OnWindows w files)
    {d : UInt8} {p : Bytes} {ns : List Bytes} (hp : Leads d p ns) :
    (∃ q f, w.fopen q = some f ∧ files d ns = some f.bytes ∧ readFileWin w p = .ok (readStreamWin w q f) ∧
      (q = p ∨ (q = b!"\\\\?\\" ++ winPath d ns ∧ (Spells d p ns → 259 < p.length) ∧ p.length ≤ 4092))) ∨
    ((∃ e, readFileWin w p = .ok (.failed e)) ∧ (p.length ≤ 4092 → files d ns = none)) := by
  unfold readFileWin
  cases ho : w.fopen p with
  | some f =>
    refine Or.inl ⟨p, f, ho, ?_, rfl, Or.inl rfl⟩
    rcases hw.long d p ns hp with h | h
    · rw [ho] at h; cases h
    · rw [ho] at h; exact h.symm
  | none =>
    dsimp only
    split
    · rename_i hl
      have : ¬ p.length ≤ 4092 := by
        have : maxWinPath = 4096 := rfl
        omega
      exact Or.inr ⟨⟨_, rfl⟩, fun h => absurd h this⟩
    · rename_i hl
      have hm : maxWinPath = 4096 := rfl
      have key : ∃ q, longPath p = .ok q ∧ (w.fopen q).map (·.bytes) = files d ns ∧
          (q = b!"\\\\?\\" ++ winPath d ns ∨ (Spells d p ns ∧ p.length ≤ 255)) := by
        rcases hp with hp | ⟨r, hr, hp⟩
        · refine ⟨_, longPath_spells hp (by omega), ?_⟩
          split
          · exact ⟨hw.extended d p ns hp, Or.inl rfl⟩
          · refine ⟨hw.short d _ ns (winPath_spells hp) ?_, Or.inr ⟨hp, by omega⟩⟩
            rw [List.nil_append, spells_length hp]
            omega
        · exact ⟨_, longPath_extended hp hr (by omega), hw.extended d r ns hp, Or.inl rfl⟩
      obtain ⟨q, h1, key, hq⟩ := key
      rw [h1]
      simp only [Res.bind_ok]
      cases h2 : w.fopen q with
      | none =>
        rw [h2] at key
        exact Or.inr ⟨⟨_, rfl⟩, fun _ => key.symm⟩
      | some f =>
        rw [h2] at key
        have hlong : Spells d p ns → 259 < p.length := by
          intro hs
          rcases Nat.lt_or_ge 259 p.length with h | h
          · exact h
          · have := hw.short d p ns hs h
            rw [ho, ← key] at this
            cases this
        refine Or.inl ⟨q, f, h2, key.symm, rfl, Or.inr ⟨?_, hlong, by omega⟩⟩
        rcases hq with hq | ⟨hs, hq⟩
        · exact hq
        · have := hlong hs
          omega

/-- **C84, right contents.** Whatever is returned for a path is all of what the file of that path
contains, however long the path and the file are, and whatever works. -/
theorem c84_right (w : WinFiles) (files : UInt8 → List Bytes → Option Bytes) (hw : OnWindows w files) (d : UInt8)
    (p : Bytes) (ns : List Bytes) (hp : Leads d p ns) (x : Bytes) (h : readFileWin w p = .ok (.contents x)) :
    files d ns = some x := by
  rcases readFileWin_leads hw hp with ⟨q, f, h1, h2, h3, -⟩ | ⟨⟨e, h1⟩, -⟩
  · rw [h3] at h
    injection h with h
    rw [h2, readStreamWin_contents hw h1 h]
  · rw [h1] at h
    cases h

/-- **C84, files can be read, partial.** A file with less than 2^31 bytes can be read through every path to
it, with slashes or backslashes, of up to 4092 characters, provided that the path has at most 259 characters
and no prefix, or that the file is not empty.

Missing for the full claim: empty files with longer paths (`c84_empty_not`), paths with more than 4092
characters, larger files. -/
theorem c84_reads_partial (w : WinFiles) (files : UInt8 → List Bytes → Option Bytes) (hw : OnWindows w files)
    (d : UInt8) (p : Bytes) (ns : List Bytes) (hp : Leads d p ns) (x : Bytes) (hx : files d ns = some x)
    (hl : p.length ≤ 4092) (hsize : x.length < 2 ^ 31) (hm : w.malloc (x.length + 1) = true)
    (hne : (Spells d p ns ∧ p.length ≤ 259) ∨ x ≠ []) : readFileWin w p = .ok (.contents x) := by
  rcases readFileWin_leads hw hp with ⟨q, f, h1, h2, h3, h4⟩ | ⟨-, h2⟩
  · rw [hx] at h2
    injection h2 with h2
    subst h2
    rw [h3, readStreamWin_reads hw h1 hm hsize]
    rcases hne with ⟨hs, hs2⟩ | hs
    · left
      rcases h4 with rfl | ⟨-, h4, -⟩
      · rw [hw.stat d q ns _ hs hs2 hx hsize]
        simp
      · have := h4 hs
        omega
    · exact Or.inr hs
  · rw [h2 hl] at hx
    cases hx

/-- **C84, exactly which.** Where long paths need the prefix `\\?\`, a path leads to the contents of a file
with less than 2^31 bytes if and only if it has at most 259 characters, or at most 4092 and the file is not
empty. -/
theorem c84_exactly (w : WinFiles) (files : UInt8 → List Bytes → Option Bytes) (hw : OnWindows w files)
    (ho : ShortPathsOnly w) (hm : ∀ n, w.malloc n = true) (d : UInt8) (p : Bytes) (ns : List Bytes)
    (hp : Spells d p ns) (x : Bytes) (hx : files d ns = some x) (hsize : x.length < 2 ^ 31) :
    readFileWin w p = .ok (.contents x) ↔ p.length ≤ 259 ∨ (p.length ≤ 4092 ∧ x ≠ []) := by
  constructor
  · intro h
    rcases Nat.lt_or_ge 259 p.length with hl | hl
    · right
      have hopen : w.fopen p = none := ho.fopen p hl (by
        obtain ⟨r, rfl, hd⟩ := spells_head hp
        intro hx
        injection hx with h1
        exact hd h1)
      rcases readFileWin_leads hw (Or.inl hp) with ⟨q, f, h1, h2, h3, h4⟩ | ⟨⟨e, h1⟩, -⟩
      · rcases h4 with rfl | ⟨h4, -, h5⟩
        · rw [hopen] at h1; cases h1
        · refine ⟨h5, fun hempty => ?_⟩
          rw [hx] at h2
          injection h2 with h2
          obtain ⟨e, he⟩ := readStreamWin_empty hw h1 (by rw [h4]; exact ho.stat _) (by rw [← h2, hempty])
          rw [h3, he] at h
          cases h
      · rw [h1] at h; cases h
    · exact Or.inl hl
  · intro h
    exact c84_reads_partial w files hw d p ns (Or.inl hp) x hx (by omega) hsize (hm _) (by
      rcases h with h | h
      · exact Or.inl ⟨hp, h⟩
      · exact Or.inr h.2)

/-- The start of a message with a path in it. -/
theorem errorNew_names {malloc : Nat → Bool} {pre q post : Bytes} {e : Err} {t : Bytes} (hpre : pre.length ≤ 40)
    (h : errorNew malloc 1 1 (pre ++ q ++ post) = some e) (ht : e.message = some t) :
    e.domain = 1 ∧ e.code = 1 ∧ pre ++ q.take 2000 <+: t := by
  unfold errorNew at h
  split at h
  · injection h with h
    subst h
    refine ⟨rfl, rfl, ?_⟩
    dsimp only at ht
    split at ht
    · injection ht with ht
      subst ht
      simp only [snprintf, defaultMsgSize, List.append_assoc]
      rw [List.take_append, List.take_of_length_le (l := pre) (by omega), List.take_append]
      refine (List.prefix_append_right_inj pre).2 (List.IsPrefix.trans ?_ (List.prefix_append _ _))
      exact List.take_prefix_take_left (by omega)
    · cases ht
  · cases h

theorem readStreamWin_names {w : WinFiles} {q : Bytes} {f : WinStream} {e : Err} {t : Bytes}
    (h : readStreamWin w q f = .failed (some e)) (ht : e.message = some t) :
    e.domain = 1 ∧ e.code = 1 ∧ ∃ pre : Bytes, pre.length ≤ 40 ∧ pre ++ q.take 2000 <+: t := by
  unfold readStreamWin at h
  dsimp only at h
  split at h
  · injection h with h
    rw [List.append_assoc _ _ (w.why q)] at h
    have := errorNew_names (by decide) h ht
    exact ⟨this.1, this.2.1, _, by decide, this.2.2⟩
  · split at h
    · split at h
      · split at h
        · injection h with h
          rename_i why _ _
          rw [List.append_assoc _ _ why] at h
          have := errorNew_names (by decide) h ht
          exact ⟨this.1, this.2.1, _, by decide, this.2.2⟩
        · cases h
      · cases h
    · injection h with h
      rw [← List.append_nil (_ ++ q)] at h
      have := errorNew_names (by decide) h ht
      exact ⟨this.1, this.2.1, _, by decide, this.2.2⟩

/-- **C84, reports.** Whatever goes wrong, the message names the file: soon after its start comes the path
that was asked for, or the same one with backslashes, with or without the prefix, the first 2000 characters of
it at least. -/
theorem c84_named (w : WinFiles) (d : UInt8) (p : Bytes) (ns : List Bytes) (hp : Spells d p ns) (e : Err) (t : Bytes)
    (h : readFileWin w p = .ok (.failed (some e))) (ht : e.message = some t) :
    e.domain = 1 ∧ e.code = 1 ∧ ∃ pre q : Bytes, pre.length ≤ 40 ∧ pre ++ q.take 2000 <+: t ∧
      (q = p ∨ q = winPath d ns ∨ q = b!"\\\\?\\" ++ winPath d ns) := by
  unfold readFileWin at h
  cases ho : w.fopen p with
  | some f =>
    rw [ho] at h
    injection h with h
    obtain ⟨h1, h2, pre, h3, h4⟩ := readStreamWin_names h ht
    exact ⟨h1, h2, pre, p, h3, h4, Or.inl rfl⟩
  | none =>
    rw [ho] at h
    dsimp only at h
    split at h
    · injection h with h
      injection h with h
      have := errorNew_names (by decide) h ht
      exact ⟨this.1, this.2.1, _, p, by decide, this.2.2, Or.inl rfl⟩
    · rename_i hl
      rw [longPath_spells hp (by omega)] at h
      simp only [Res.bind_ok] at h
      split at h
      · injection h with h
        injection h with h
        split at h
        · have := errorNew_names (by decide) h ht
          exact ⟨this.1, this.2.1, _, p, by decide, this.2.2, Or.inl rfl⟩
        · rw [List.append_assoc _ _ (w.why _)] at h
          have := errorNew_names (by decide) h ht
          exact ⟨this.1, this.2.1, _, p, by decide, this.2.2, Or.inl rfl⟩
      · injection h with h
        obtain ⟨h1, h2, pre, h3, h4⟩ := readStreamWin_names h ht
        refine ⟨h1, h2, pre, _, h3, h4, Or.inr ?_⟩
        split
        · exact Or.inr rfl
        · exact Or.inl rfl

/-! ## A machine -/

theorem winPath_noSlash {d : UInt8} {p : Bytes} {ns : List Bytes} (hp : Spells d p ns) :
    (47 : UInt8) ∉ b!"\\\\?\\" ++ winPath d ns := by
  rw [← spells_backslashes hp]
  intro h
  rcases List.mem_append.1 h with h | h
  · revert h; decide
  · obtain ⟨c, -, hc⟩ := List.mem_map.1 h
    split at hc
    · cases hc
    · contradiction

/-- A machine with the files of `store`, by path with `\`. -/
def winStore (store : Bytes → Option Bytes) : WinFiles where
  fopen p := (if p.take 4 = b!"\\\\?\\" then (if 47 ∈ p then none else store (p.drop 4))
    else if p.length ≤ 259 then store (p.map fun c => if c = 47 then 92 else c) else none).map
      fun x => ⟨some x.length, x, none⟩
  stat p := if p.take 4 = b!"\\\\?\\" ∨ 259 < p.length then none
    else (store (p.map fun c => if c = 47 then 92 else c)).map (·.length)
  why _ := b!"No such file or directory"
  malloc _ := true

theorem winStore_on (store : Bytes → Option Bytes) :
    OnWindows (winStore store) fun d ns => store (winPath d ns) where
  short d p ns hp hl := by
    obtain ⟨r, he, hd⟩ := spells_head hp
    have h4 : p.take 4 ≠ b!"\\\\?\\" := by
      rw [he]; intro hx; injection hx with h1; exact hd h1
    simp only [winStore]
    rw [if_neg h4, if_pos hl, spells_backslashes hp]
    cases store (winPath d ns) <;> rfl
  long d p ns hp := by
    rcases hp with hp | ⟨q, rfl, hp⟩
    rotate_left
    · simp only [winStore]
      rw [if_pos (by rfl)]
      by_cases h : (47 : UInt8) ∈ b!"\\\\?\\" ++ q
      · rw [if_pos h]
        exact Or.inl rfl
      · rw [if_neg h]
        have hq : winPath d ns = q := by
          rw [← spells_backslashes hp]
          conv => rhs; rw [← List.map_id q]
          apply List.map_congr_left
          intro c hc
          rw [if_neg]
          · rfl
          · rintro rfl
            exact h (List.mem_append_right _ hc)
        show (Option.map _ (store q)) = none ∨ (Option.map _ (store q)).map _ = _
        rw [hq]
        right
        cases store q <;> rfl
    obtain ⟨r, he, hd⟩ := spells_head hp
    have h4 : p.take 4 ≠ b!"\\\\?\\" := by
      rw [he]; intro hx; injection hx with h1; exact hd h1
    simp only [winStore]
    rw [if_neg h4, spells_backslashes hp]
    by_cases hl : p.length ≤ 259
    · rw [if_pos hl]
      right
      cases store (winPath d ns) <;> rfl
    · rw [if_neg hl]
      exact Or.inl rfl
  extended d p ns hp := by
    simp only [winStore]
    rw [if_pos (by rfl), if_neg (winPath_noSlash hp)]
    show (Option.map _ (store (winPath d ns))).map _ = _
    cases store (winPath d ns) <;> rfl
  whole p f h := by
    simp only [winStore, Option.map_eq_some_iff] at h
    obtain ⟨x, -, rfl⟩ := h
    rfl
  stat d p ns x hp hl hx _ := by
    obtain ⟨r, he, hd⟩ := spells_head hp
    have h4 : p.take 4 ≠ b!"\\\\?\\" := by
      rw [he]; intro hx; injection hx with h1; exact hd h1
    simp only [winStore]
    rw [if_neg (by simp only [h4, false_or]; omega), spells_backslashes hp, hx]
    rfl
  statRight p f n h hs := by
    simp only [winStore, Option.map_eq_some_iff] at h hs
    obtain ⟨x, h, rfl⟩ := h
    split at hs
    · simp at hs
    · rename_i hc
      have h4 : p.take 4 ≠ b!"\\\\?\\" := fun e => hc (Or.inl e)
      have hl : p.length ≤ 259 := by
        rcases Nat.lt_or_ge 259 p.length with e | e
        · exact absurd (Or.inr e) hc
        · exact e
      rw [if_neg h4, if_pos hl] at h
      rw [h] at hs
      simpa using hs.symm
  told p f h _ := by
    simp only [winStore, Option.map_eq_some_iff] at h
    obtain ⟨x, -, rfl⟩ := h
    rfl
  toldRight p f n h he _ := by
    simp only [winStore, Option.map_eq_some_iff] at h
    obtain ⟨x, -, rfl⟩ := h
    injection he with he
    exact he.symm

theorem winStore_short (store : Bytes → Option Bytes) : ShortPathsOnly (winStore store) where
  fopen p hl h4 := by
    simp only [winStore]
    rw [if_neg h4, if_neg (by omega)]
    rfl
  stat p := by
    simp only [winStore]
    rw [if_pos (Or.inl (by rfl))]

/-- A name with `k` letters. -/
def aName (k : Nat) : Bytes := List.replicate k 97

theorem aName_name (k : Nat) (h : 2 < k) : FileName (aName k) where
  some := by
    intro e
    have := congrArg List.length e
    simp [aName] at this
    omega
  noSep c hc := by
    rw [List.eq_of_mem_replicate hc]
    decide
  notDot := by
    constructor <;>
    · intro e
      have := congrArg List.length e
      simp [aName] at this
      omega

/-- `C:/aaa…/aaa…`, with two names of `k` and `m` letters. -/
def longFile (k m : Nat) : Bytes := [67, 58] ++ 47 :: aName k ++ 47 :: aName m

theorem longFile_spells (k m : Nat) (hk : 2 < k) (hm : 2 < m) :
    Spells 67 (longFile k m) [aName k, aName m] :=
  .name 47 (.name 47 (.drive (by decide) (by decide) (by decide)) (Or.inl rfl) (aName_name k hk)) (Or.inl rfl)
    (aName_name m hm)

theorem longFile_length (k m : Nat) : (longFile k m).length = k + m + 4 := by
  simp [longFile, aName]
  omega

/-- A path with 404 characters to a file with some bytes. -/
example : readFileWin (winStore fun _ => some b!"model M end M;") (longFile 200 200) =
    .ok (.contents b!"model M end M;") :=
  c84_reads_partial _ _ (winStore_on _) 67 _ _ (Or.inl (longFile_spells 200 200 (by decide) (by decide))) _ rfl
    (by rw [longFile_length]; decide) (by decide) rfl (Or.inr (by decide))

/-- With the prefix. -/
example : readFileWin (winStore fun _ => some b!"model M end M;") (b!"\\\\?\\" ++ longFile 200 200) =
    .ok (.contents b!"model M end M;") :=
  c84_reads_partial _ _ (winStore_on _) 67 _ _ (Or.inr ⟨_, rfl, longFile_spells 200 200 (by decide) (by decide)⟩) _
    rfl (by rw [List.length_append, longFile_length]; decide) (by decide) rfl (Or.inr (by decide))

/-- A path with 4092 characters, the longest. -/
example : readFileWin (winStore fun _ => some b!"model M end M;") (longFile 2000 2088) =
    .ok (.contents b!"model M end M;") :=
  c84_reads_partial _ _ (winStore_on _) 67 _ _ (Or.inl (longFile_spells 2000 2088 (by decide) (by decide))) _ rfl
    (by rw [longFile_length]; decide) (by decide) rfl (Or.inr (by decide))

/-- One more is too long. -/
example : readFileWin (winStore fun _ => some b!"model M end M;") (longFile 2000 2089) ≠
    .ok (.contents b!"model M end M;") := fun h => by
  have := (c84_exactly _ _ (winStore_on fun _ => some b!"model M end M;") (winStore_short _) (fun _ => rfl) 67 _ _
    (longFile_spells 2000 2089 (by decide) (by decide)) _ rfl (by decide)).1 h
  rw [longFile_length] at this
  revert this
  decide

/-- Short paths, also to empty files. -/
example : readFileWin (winStore fun p => if p = b!"C:\\l\\e.mo" then some [] else none) b!"C:\\l/e.mo" =
    .ok (.contents []) := by decide +kernel

/-- What a user reads about a missing file. -/
example : readFileWin (winStore fun _ => none) b!"C:/l/M.mo" = .ok (.failed (some ⟨1, 1,
    some b!"Couldn't open file C:/l/M.mo. The error message was: No such file or directory"⟩)) := by decide +kernel

/-- **C84, full claim:** every file with less than 2^31 bytes can be read. -/
def c84_full : Prop :=
  ∀ (w : WinFiles) (files : UInt8 → List Bytes → Option Bytes), OnWindows w files → (∀ n, w.malloc n = true) →
    ∀ d p ns, Spells d p ns → ∀ x, files d ns = some x → x.length < 2 ^ 31 → readFileWin w p = .ok (.contents x)

/-- **C84, empty files.** An empty file of which the path has 260 characters or more cannot be read: the
size 0 that `ftell` tells is taken for a failure.  The full claim does not hold. -/
theorem c84_empty_not (store : Bytes → Option Bytes) (d : UInt8) (p : Bytes) (ns : List Bytes) (hp : Spells d p ns)
    (hl : 259 < p.length) (hx : store (winPath d ns) = some []) :
    ∃ e, readFileWin (winStore store) p = .ok (.failed e) := by
  rcases readFileWin_leads (winStore_on store) (Or.inl hp) with ⟨q, f, h1, h2, h3, h4⟩ | ⟨h, -⟩
  · rw [h3]
    have hs : (winStore store).stat q = none := by
      rcases h4 with rfl | ⟨h4, -, -⟩
      · simp only [winStore]
        rw [if_pos (Or.inr hl)]
      · rw [h4]
        exact (winStore_short store).stat _
    have hb : f.bytes = [] := by
      have h2 : store (winPath d ns) = some f.bytes := h2
      rw [hx] at h2
      injection h2 with h2
      exact h2.symm
    obtain ⟨e, he⟩ := readStreamWin_empty (winStore_on store) h1 hs hb
    exact ⟨e, by rw [he]⟩
  · exact h

theorem c84_full_not : ¬ c84_full := by
  intro h
  have hp := longFile_spells 200 200 (by decide) (by decide)
  have h1 := h (winStore fun _ => some []) _ (winStore_on _) (fun _ => rfl) 67 _ _ hp [] rfl (by decide)
  obtain ⟨e, he⟩ := c84_empty_not (fun _ => some []) 67 _ _ hp (by rw [longFile_length]; decide) rfl
  rw [he] at h1
  cases h1

/-- The message is about the size. -/
example : (match readFileWin (winStore fun _ => some []) (longFile 200 200) with
    | .ok (.failed (some e)) => e.message.map (·.take 27)
    | _ => none) = some b!"Couldn't find file size for" := by decide +kernel

end Semla.Props
