import Verif.Lemmas.PackWinCrypt
import Verif.Lemmas.PackManifest
import Verif.Spec.PackWin

/-!
# Lemmas about packaging on Windows
-/

namespace Semla

open Spec

/-! ## Vocabulary -/

theorem withSlashes_eq (s : Bytes) : withSlashes s = slashes s := by
  induction s with
  | nil => rfl
  | cons c s ih => rw [withSlashes, ih]; rfl

theorem crlf_eq (s : Bytes) : crlf s = textOut s := by
  induction s with
  | nil => rfl
  | cons c s ih =>
    rw [crlf, ih]
    unfold textOut
    rw [List.flatMap_cons]
    split <;> rfl

theorem linuxLines_cons {c : UInt8} {s : Bytes} (h : ¬ (c = 13 ∧ s.head? = some 10)) :
    linuxLines (c :: s) = c :: linuxLines s := by
  cases s with
  | nil => simp [linuxLines]
  | cons x s =>
    rw [linuxLines]
    intro s' h1 h2
    simp only [List.cons.injEq] at h2
    exact h ⟨h1, by simp [h2.1]⟩

theorem linuxText_eq (s : Bytes) : linuxText s = textIn s := by
  unfold linuxText
  induction s with
  | nil => rfl
  | cons c s ih =>
    unfold textIn
    split
    · rename_i hc
      subst hc
      simp [linuxLines]
    · rename_i hc
      have e : (c :: s).takeWhile (· ≠ 26) = c :: s.takeWhile (· ≠ 26) := by simp [hc]
      rw [e]
      split
      · rename_i h
        obtain ⟨rfl, h⟩ := h
        cases s with
        | nil => simp at h
        | cons x s =>
          simp only [List.head?_cons, Option.some.injEq] at h
          subst h
          have e2 : (10 :: s).takeWhile (fun x : UInt8 => decide (x ≠ 26)) = 10 :: s.takeWhile (· ≠ 26) := by
            simp
          rw [e2] at ih ⊢
          rw [linuxLines, ← ih, linuxLines_cons (by simp)]
      · rename_i h
        rw [linuxLines_cons, ih]
        rintro ⟨rfl, h2⟩
        apply h
        refine ⟨rfl, ?_⟩
        cases s with
        | nil => simp at h2
        | cons x s =>
          by_cases hx : x = 26
          · simp [hx] at h2
          · simpa [hx] using h2

theorem samePath_iff (p q : List Bytes) : samePath p q = true ↔ SameButCase p q := by
  induction p generalizing q with
  | nil => cases q <;> simp [samePath, SameButCase]
  | cons a p ih =>
    cases q with
    | nil => simp [samePath, SameButCase]
    | cons b q =>
      have := ih q
      simp only [SameButCase] at this
      simp [samePath, SameButCase, eqNoCase, this]

theorem samePath_refl (p : List Bytes) : samePath p p = true := (samePath_iff p p).2 rfl

/-! ## The staging directory -/

/-- Paths of a set that has no two that differ in letter case only. -/
def Apart (P : List Bytes → Prop) : Prop := ∀ p q, P p → P q → SameButCase p q → p = q

/-- All paths are in a set. -/
def Keys (P : List Bytes → Prop) (fs : Staged) : Prop := ∀ e ∈ fs, P e.1

theorem find_same {P : List Bytes → Prop} (hP : Apart P) {fs : Staged} (hk : Keys P fs) {p : List Bytes}
    (hp : P p) : fs.find? (samePath ·.1 p) = fs.find? (·.1 = p) := by
  induction fs with
  | nil => rfl
  | cons e fs ih =>
    have ih := ih fun x hx => hk x (List.mem_cons_of_mem _ hx)
    simp only [List.find?_cons]
    by_cases h : e.1 = p
    · simp [h, samePath_refl]
    · have h' : samePath e.1 p = false := by
        cases hs : samePath e.1 p with
        | false => rfl
        | true => exact absurd (hP _ _ (hk e List.mem_cons_self) hp ((samePath_iff _ _).1 hs)) h
      simp only [h', h, decide_false]
      exact ih

theorem wget_eq {P : List Bytes → Prop} (hP : Apart P) {fs : Staged} (hk : Keys P fs) {p : List Bytes}
    (hp : P p) : fs.wget p = fs.get p := by
  unfold Staged.wget Staged.get
  rw [find_same hP hk hp]

theorem spelled_eq {P : List Bytes → Prop} (hP : Apart P) {fs : Staged} (hk : Keys P fs) {p : List Bytes}
    (hp : P p) : fs.spelled p = p := by
  unfold Staged.spelled
  rw [find_same hP hk hp]
  cases h : fs.find? (·.1 = p) with
  | none => rfl
  | some e => simpa using List.find?_some h

theorem wwrite_eq {P : List Bytes → Prop} (hP : Apart P) {fs : Staged} (hk : Keys P fs) {p : List Bytes}
    (hp : P p) (hd : P p.dropLast) (c : Bytes) : fs.wwrite p c = fs.write p c := by
  unfold Staged.wwrite Staged.write
  rw [wget_eq hP hk hp, wget_eq hP hk hd, spelled_eq hP hk hp]

theorem wmkdir_eq {P : List Bytes → Prop} (hP : Apart P) {fs : Staged} (hk : Keys P fs) {p : List Bytes}
    (hp : P p) (hd : P p.dropLast) : fs.wmkdir p = fs.mkdir p := by
  unfold Staged.wmkdir Staged.mkdir
  rw [wget_eq hP hk hp, wget_eq hP hk hd]

theorem keys_set {P : List Bytes → Prop} {fs : Staged} (hk : Keys P fs) {p : List Bytes} (hp : P p) (n : Node) :
    Keys P (fs.set p n) := by
  intro e he
  rcases List.mem_cons.1 he with rfl | he
  · exact hp
  · exact hk e he

theorem keys_write {P : List Bytes → Prop} {fs fs' : Staged} (hk : Keys P fs) {p : List Bytes} (hp : P p)
    {c : Bytes} (h : fs.write p c = some fs') : Keys P fs' := by
  unfold Staged.write at h
  split at h
  · simp only [Option.some.injEq] at h
    subst h
    exact keys_set hk hp _
  · simp at h

theorem keys_mkdir {P : List Bytes → Prop} {fs fs' : Staged} (hk : Keys P fs) {p : List Bytes} (hp : P p)
    (h : fs.mkdir p = some fs') : Keys P fs' := by
  unfold Staged.mkdir at h
  split at h
  · simp only [Option.some.injEq] at h
    subst h
    exact keys_set hk hp _
  · simp at h

/-! ## Copying -/

theorem copyEntriesWin_eq {P : List Bytes → Prop} (hP : Apart P) {fetch : List Bytes → Fetched} {s : Source}
    (hf : ∀ p, fetch p ≠ .noStat) (hs : ∀ p c, fetch p = .data c → s.copied p = some c) (l : Listing)
    (src dst : List Bytes) (fs : Staged) {fs' : Staged} {ok : Bool} (hk : Keys P fs) (hd : P dst)
    (hl : ∀ e ∈ entries l, P (dst ++ e.1))
    (h : copyEntriesWin fetch s.mkdirOk l src dst fs = .ok (fs', ok)) :
    ok = true ∧ fs' = copyEntries s l src dst fs ∧ Keys P fs' := by
  induction l generalizing src dst fs fs' ok with
  | done =>
    simp only [copyEntriesWin, Res.ok.injEq, Prod.mk.injEq] at h
    obtain ⟨rfl, rfl⟩ := h
    exact ⟨rfl, rfl, hk⟩
  | file n rest ih =>
    unfold copyEntriesWin at h
    unfold copyEntries
    have hrest : ∀ e ∈ entries rest, P (dst ++ e.1) := fun e he => hl e (List.mem_cons_of_mem _ he)
    split at h
    · rename_i hn
      rw [if_pos hn]
      exact ih src dst fs hk hd hrest h
    · rename_i hn
      rw [if_neg hn]
      cases hx : fetch (src ++ [n]) with
      | noStat => exact absurd hx (hf _)
      | noOpen => simp [hx] at h
      | data c =>
        have hp : P (dst ++ [n]) := hl ([n], .file) List.mem_cons_self
        simp only [hx] at h
        rw [wwrite_eq hP hk hp (by simpa using hd)] at h
        simp only [hs _ _ hx]
        cases hw : fs.write (dst ++ [n]) c with
        | none => simp [hw] at h
        | some fs2 =>
          simp only [hw] at h
          exact ih src dst fs2 (keys_write hk hp hw) hd hrest h
  | dir n sub rest ih1 ih2 =>
    unfold copyEntriesWin at h
    unfold copyEntries
    have hrest : ∀ e ∈ entries rest, P (dst ++ e.1) := fun e he => hl e (List.mem_append_right _ he)
    split at h
    · rename_i hn
      rw [if_pos hn]
      exact ih2 src dst fs hk hd hrest h
    · rename_i hn
      rw [if_neg hn]
      have hp : P (dst ++ [n]) := hl ([n], .dir) (List.mem_append_left _ List.mem_cons_self)
      have hsub : ∀ e ∈ entries sub, P (dst ++ [n] ++ e.1) := by
        intro e he
        have := hl (n :: e.1, e.2) (List.mem_append_left _ (List.mem_cons_of_mem _ (List.mem_map.2 ⟨e, he, rfl⟩)))
        simpa using this
      rw [wmkdir_eq hP hk hp (by simpa using hd)] at h
      have hk2 : Keys P (if s.mkdirOk (src ++ [n]) then (fs.mkdir (dst ++ [n])).getD fs else fs) := by
        split
        · cases hm : fs.mkdir (dst ++ [n]) with
          | none => simpa using hk
          | some x => simpa using keys_mkdir hk hp hm
        · exact hk
      rw [Res.bind_eq_ok] at h
      obtain ⟨⟨fs3, ok3⟩, h3, h⟩ := h
      obtain ⟨-, rfl, hk3⟩ := ih1 (src ++ [n]) (dst ++ [n]) _ hk2 hp hsub h3
      exact ih2 src dst _ hk3 hd hrest h
  | locked n rest ih =>
    unfold copyEntriesWin at h
    unfold copyEntries
    have hrest : ∀ e ∈ entries rest, P (dst ++ e.1) := fun e he => hl e (List.mem_cons_of_mem _ he)
    split at h
    · rename_i hn
      rw [if_pos hn]
      exact ih src dst fs hk hd hrest h
    · rename_i hn
      rw [if_neg hn]
      have hp : P (dst ++ [n]) := hl ([n], .locked) List.mem_cons_self
      rw [wmkdir_eq hP hk hp (by simpa using hd)] at h
      have hk2 : Keys P (if s.mkdirOk (src ++ [n]) then (fs.mkdir (dst ++ [n])).getD fs else fs) := by
        split
        · cases hm : fs.mkdir (dst ++ [n]) with
          | none => simpa using hk
          | some x => simpa using keys_mkdir hk hp hm
        · exact hk
      exact ih src dst _ hk2 hd hrest h
  | other n rest ih =>
    unfold copyEntriesWin at h
    unfold copyEntries
    exact ih src dst fs hk hd (fun e he => hl e (List.mem_cons_of_mem _ he)) h

theorem copyDirectoryWin_eq {P : List Bytes → Prop} (hP : Apart P) {fetch : List Bytes → Fetched} {s : Source}
    (hf : ∀ p, fetch p ≠ .noStat) (hs : ∀ p c, fetch p = .data c → s.copied p = some c) {l : Option Listing}
    {dst : List Bytes} {fs fs' : Staged} (hk : Keys P fs) (hd : P dst)
    (hl : ∀ l', l = some l' → ∀ e ∈ entries l', P (dst ++ e.1))
    (h : copyDirectoryWin fetch s.mkdirOk l dst fs = .ok (some fs')) :
    copyDirectory s l dst fs = some fs' ∧ Keys P fs' := by
  cases l with
  | none => simp [copyDirectoryWin] at h
  | some l =>
    simp only [copyDirectoryWin] at h
    rw [Res.bind_eq_ok] at h
    obtain ⟨⟨fs2, ok⟩, h1, h⟩ := h
    obtain ⟨rfl, rfl, h4⟩ := copyEntriesWin_eq hP hf hs l [] dst fs hk hd (hl l rfl) h1
    simp only [if_true, Res.ok.injEq, Option.some.injEq] at h
    subst h
    exact ⟨rfl, h4⟩

theorem copyFolder_win {w : PackWinEnv} {lin : PackEnv} (hs : SamePlace w lin) {lib : Bytes}
    {P : List Bytes → Prop} (hP : CaseApart w lib P) (hstat : AllStat w) {fs : Staged}
    (h : copyFolderStructureWin w lib = .ok (some fs)) :
    lib ≠ [] ∧ copyFolderStructure lin lib = some fs ∧ Keys P fs := by
  unfold copyFolderStructureWin at h
  unfold copyFolderStructure
  have hA : Apart P := hP.apart
  have h0 : Keys P Staged.empty := by
    intro e he
    simp only [Staged.empty, List.mem_singleton] at he
    subst he
    exact hP.top [] (by simp)
  have h1 : P [lib] := hP.top [lib] (by simp)
  split at h
  · simp at h
  · rename_i hn
    simp only [not_or, not_not] at hn
    rw [if_neg (by rw [hs.mkdirOk]; simp only [not_or, not_not]; exact ⟨hn.2.1, hn.2.2⟩)]
    refine ⟨fun hl => hn.2.1 (by simp [hl]), ?_⟩
    rw [wmkdir_eq hA h0 h1 (hP.top [] (by simp))] at h
    cases hm : Staged.empty.mkdir [lib] with
    | none => simp [hm] at h
    | some fs1 =>
      simp only [hm] at h
      rw [← hs.libraryDirs] at h
      have := copyDirectoryWin_eq hA (fun p => (hstat p).1) hs.libraryFiles (keys_mkdir h0 h1 hm) h1
        (fun l' hl' e he => hP.library l' hl' e he) h
      rw [← hs.library] at this
      exact this

theorem createFolder_win {w : PackWinEnv} {lin : PackEnv} (hs : SamePlace w lin) {lib : Bytes}
    {P : List Bytes → Prop} (hP : CaseApart w lib P) {fs fs' : Staged} (hk : Keys P fs)
    (h : createLibraryFolderWin w lib fs = some fs') : createLibraryFolder lin lib fs = some fs' ∧ Keys P fs' := by
  unfold createLibraryFolderWin at h
  unfold createLibraryFolder
  have h1 : P [lib, b!".library"] := hP.top [lib, b!".library"] (by simp)
  rw [hs.mkdirOk]
  split at h
  · rename_i hm
    rw [wmkdir_eq hP.apart hk h1 (hP.top [lib] (by simp))] at h
    rw [if_pos hm]
    exact ⟨h, keys_mkdir hk h1 h⟩
  · simp at h

/-! ## Names and the icon -/

theorem slashes_of_not {x : Bytes} (h : (92 : UInt8) ∉ x) : slashes x = x := by
  induction x with
  | nil => rfl
  | cons c x ih =>
    simp only [List.mem_cons, not_or] at h
    have := ih h.2
    simp only [slashes, List.map_cons] at this ⊢
    rw [if_neg (fun hc => h.1 hc.symm), this]

theorem slashes_append (a b : Bytes) : slashes (a ++ b) = slashes a ++ slashes b := by simp [slashes]

theorem afterLastSlash_slashes (s : Bytes) : afterLastSlash (slashes s) = afterLastSep s := by
  unfold afterLastSlash afterLastSep slashes
  rw [← List.map_reverse]
  congr 1
  generalize s.reverse = r
  induction r with
  | nil => rfl
  | cons c r ih =>
    simp only [List.map_cons, List.takeWhile_cons]
    by_cases h1 : c = 92
    · subst h1
      simp [isSep]
    · by_cases h2 : c = 47
      · subst h2
        simp [isSep]
      · have e : isSep c = false := by simp [isSep, h1, h2]
        simp only [h1, if_false, h2, e, ne_eq, not_false_eq_true, decide_true, if_true, Bool.not_false]
        simp only [ne_eq] at ih
        rw [ih]

theorem takeWhile_all {p : UInt8 → Bool} {s : Bytes} {c : UInt8} (h : c ∈ s.takeWhile p) : p c = true := by
  induction s with
  | nil => simp at h
  | cons x s ih =>
    rw [List.takeWhile_cons] at h
    split at h
    · rename_i hx
      rcases List.mem_cons.1 h with rfl | h
      · exact hx
      · exact ih h
    · simp at h

theorem afterLastSep_plain (s : Bytes) : ∀ c ∈ afterLastSep s, isSep c = false := by
  intro c hc
  unfold afterLastSep at hc
  have := takeWhile_all (List.mem_reverse.1 hc)
  simpa using this

theorem findFileWin_path (name : Bytes) (l : Listing) (dir : List Bytes) (cur : Option (List Bytes))
    (p : List Bytes) (h : findFileWin name l dir cur = some p) :
    cur = some p ∨ ∃ q, p = dir ++ q ∧ (q, Kind.file) ∈ entries l ∧ nameOf q = name := by
  induction l generalizing dir cur with
  | done => exact Or.inl h
  | file n rest ih =>
    unfold findFileWin at h
    rcases ih dir _ h with h | ⟨q, h1, h2, h3⟩
    · split at h
      · rename_i hn
        simp only [Option.some.injEq] at h
        exact Or.inr ⟨[n], h.symm, List.mem_cons_self, hn⟩
      · exact Or.inl h
    · exact Or.inr ⟨q, h1, List.mem_cons_of_mem _ h2, h3⟩
  | dir n sub rest ih1 ih2 =>
    unfold findFileWin at h
    rcases ih1 _ cur h with h | ⟨q, h1, h2, h3⟩
    · exact Or.inl h
    · refine Or.inr ⟨n :: q, by simpa using h1, ?_, by rw [nameOf_cons _ (entries_ne_nil sub _ h2)]; exact h3⟩
      exact List.mem_append_left _ (List.mem_cons_of_mem _ (List.mem_map.2 ⟨_, h2, rfl⟩))
  | locked n rest ih =>
    unfold findFileWin at h
    rcases ih dir cur h with h | ⟨q, h1, h2, h3⟩
    · exact Or.inl h
    · exact Or.inr ⟨q, h1, List.mem_cons_of_mem _ h2, h3⟩
  | other n rest ih =>
    unfold findFileWin at h
    rcases ih dir cur h with h | ⟨q, h1, h2, h3⟩
    · exact Or.inl h
    · exact Or.inr ⟨q, h1, List.mem_cons_of_mem _ h2, h3⟩

/-- What the search on Windows finds is found on Linux, if there is one such file, at the top. -/
theorem findFile_of_win {name : Bytes} {l : Listing} {dir : List Bytes} {p : List Bytes}
    (h : findFileWin name l dir none = some p)
    (ht : ∀ e ∈ entries l, e.2 = .file → nameOf e.1 = name → e.1 = [name]) :
    p = dir ++ [name] ∧ findFile name l dir none = (some p, true) := by
  rcases findFileWin_path name l dir none p h with h | ⟨q, rfl, h2, h3⟩
  · simp at h
  · have hq := ht _ h2 rfl h3
    simp only at hq
    subst hq
    refine ⟨rfl, ?_⟩
    have hf := (findFile_found name l dir none).2 h2
    cases hx : (findFile name l dir none).1 with
    | none => exact absurd hx (findFile_some name l dir none hf)
    | some p' =>
      rcases findFile_path name l dir none p' hx with h | ⟨q, rfl, h4, h5⟩
      · simp at h
      · have hq' := ht _ h4 rfl h5
        simp only at hq'
        subst hq'
        rw [← hx, ← hf]

/-- `cleanUpIconPath` on Windows removes the temporary directory. -/
theorem cleanUpWin_eq {t x rest : Bytes} (hx : (92 : UInt8) ∉ x) (hr : rest ≠ []) :
    cleanUpIconPathWin (some t) (t ++ b!"\\" ++ x ++ b!"\\" ++ rest) = .ok (some (slashes rest)) := by
  unfold cleanUpIconPathWin
  have e : (t ++ b!"\\" ++ x ++ b!"\\" ++ rest).drop (t.length + 1) = x ++ (92 :: rest) := by
    rw [List.append_assoc, List.append_assoc, List.drop_append_of_le_length (by simp),
      List.drop_eq_nil_of_le (by simp)]
    simp
  dsimp only
  rw [if_neg (by simp), e, if_neg (by simp), if_neg (by simp), List.dropWhile_append_of_pos]
  · have hs : slashes rest ≠ [] := by
      unfold slashes
      simpa using hr
    simp [hs]
  · intro c hc
    simp only [ne_eq, decide_not, Bool.not_eq_eq_eq_not, Bool.not_true, decide_eq_false_iff_not]
    rintro rfl
    exact hx hc

end Semla
