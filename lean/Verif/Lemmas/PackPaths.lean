import Verif.Spec.PackPaths
import Verif.Lemmas.PackEnc

/-! # Paths that fit -/

namespace Semla

open Semla.Spec

theorem snprintf_fits {cap : Nat} {s : Bytes} (h : s.length < cap) : snprintf cap s = s := by
  unfold snprintf
  exact List.take_of_length_le (by omega)

theorem under_one (path n : Bytes) : under path [n] = path ++ b!"/" ++ n := rfl

theorem under_cons (path n : Bytes) {p : List Bytes} (h : p ≠ []) :
    under path (n :: p) = under (path ++ b!"/" ++ n) p := by
  cases p with
  | nil => exact absurd rfl h
  | cons m p => simp [under, relPath]

theorem plain_child {path n : Bytes} (hn : n ≠ []) (h : (47 : UInt8) ∉ n) : PlainPath (path ++ b!"/" ++ n) := by
  refine ⟨by simp, ?_⟩
  rw [List.getLast?_append_of_ne_nil _ hn]
  intro h1
  exact h (List.mem_of_getLast? h1)

theorem entryPath_fits {cap : Nat} {path n : Bytes} (hp : PlainPath path) (h : (path ++ b!"/" ++ n).length < cap) :
    entryPath cap path n = path ++ b!"/" ++ n := by
  unfold entryPath
  rw [if_neg hp.2]
  exact snprintf_fits h

theorem Spec.PathsBelow.tail {n : Nat} {path : Bytes} {l rest : Listing} (h : PathsBelow n path l)
    (hs : ∀ e ∈ entries rest, e ∈ entries l) : PathsBelow n path rest := ⟨h.1, fun e he => h.2 e (hs e he)⟩

theorem rest_dir (m : Bytes) (sub rest : Listing) : ∀ e ∈ entries rest, e ∈ entries (.dir m sub rest) :=
  fun _ he => List.mem_append_right _ he

theorem sub_dir (m : Bytes) (sub rest : Listing) (e : List Bytes × Kind) (he : e ∈ entries sub) :
    (m :: e.1, e.2) ∈ entries (.dir m sub rest) :=
  List.mem_append_left _ (List.mem_cons_of_mem _ (List.mem_map.2 ⟨e, he, rfl⟩))

theorem Spec.PathsBelow.sub {n : Nat} {path m : Bytes} {sub rest : Listing} (h : PathsBelow n path (.dir m sub rest)) :
    PathsBelow n (path ++ b!"/" ++ m) sub := by
  refine ⟨h.2 ([m], .dir) (List.mem_append_left _ List.mem_cons_self), fun e he => ?_⟩
  have := h.2 _ (sub_dir m sub rest e he)
  rwa [under_cons _ _ (entries_ne_nil sub e he)] at this

theorem Spec.ProperNames.tail {l rest : Listing} (h : ProperNames l) (hs : ∀ e ∈ entries rest, e ∈ entries l) :
    ProperNames rest := fun e he => h e (hs e he)

theorem Spec.ProperNames.sub {m : Bytes} {sub rest : Listing} (h : ProperNames (.dir m sub rest)) : ProperNames sub :=
  fun e he n hn => h _ (sub_dir m sub rest e he) n (List.mem_cons_of_mem _ hn)

theorem namesFrom_plain (cur : Bytes) (n : Bytes) (hn : (47 : UInt8) ∉ n) (rest : Bytes) :
    namesFrom cur (n ++ rest) = namesFrom (cur ++ n) rest := by
  induction n generalizing cur with
  | nil => simp
  | cons c cs ih =>
    have hc : c ≠ 47 := fun h => hn (h ▸ List.mem_cons_self)
    rw [List.cons_append, namesFrom, if_neg hc, ih _ fun h => hn (List.mem_cons_of_mem _ h)]
    simp

theorem namesFrom_relPath (p : List Bytes) (h : ∀ n ∈ p, n ≠ [] ∧ (47 : UInt8) ∉ n) : namesFrom [] (relPath p) = p := by
  induction p with
  | nil => rfl
  | cons n p ih =>
    obtain ⟨h1, h2⟩ := h n List.mem_cons_self
    cases p with
    | nil =>
      have := namesFrom_plain [] n h2 []
      rw [List.append_nil] at this
      rw [relPath, this]
      simp [namesFrom, h1]
    | cons m p =>
      have e : relPath (n :: m :: p) = n ++ (47 :: relPath (m :: p)) := by simp [relPath]
      rw [e, namesFrom_plain [] n h2, List.nil_append, namesFrom, if_pos rfl, if_neg h1,
        ih fun x hx => h x (List.mem_cons_of_mem _ hx)]

/-- The entry found at a path below the temporary directory. -/
theorem stagedAt_under (tmp : Bytes) (p : List Bytes) (h : ∀ n ∈ p, n ≠ [] ∧ (47 : UInt8) ∉ n) :
    stagedAt tmp (under tmp p) = p := by
  unfold stagedAt under
  rw [List.append_assoc, List.drop_left]
  show namesFrom [] (47 :: relPath p) = p
  rw [namesFrom, if_pos rfl, if_pos rfl, namesFrom_relPath p h]

theorem under_append (path : Bytes) {q p : List Bytes} (hq : q ≠ []) (hp : p ≠ []) :
    under path (q ++ p) = under (under path q) p := by
  induction q generalizing path with
  | nil => exact absurd rfl hq
  | cons n q ih =>
    cases q with
    | nil => rw [List.singleton_append, under_cons _ _ hp, under_one]
    | cons m q =>
      rw [List.cons_append, under_cons _ _ (by simp), ih _ (by simp), under_cons path n (p := m :: q) (by simp)]

/-- One entry of `copyTree`. -/
abbrev copyStep (w : CopyWorld) (tmp : Bytes) (fds : Nat) (src dst : Bytes) : Staged → Bytes × EntryType → Staged :=
  copyEntry w tmp (copyTree w tmp fds) src dst

theorem copyTree_succ (w : CopyWorld) (tmp : Bytes) (fds : Nat) (src dst : Bytes) (fs : Staged) :
    copyTree w tmp (fds + 1) src dst fs =
      match w.list (snprintf maxPathLength src) with
      | none => fs
      | some es => es.foldl (copyStep w tmp fds src dst) fs := rfl

/-- Copying a tree whose paths fit is what Model/Pack has. -/
theorem copyTree_entries (w : CopyWorld) (s : Source) (tmp : Bytes) (l : Listing) (fds : Nat) (src dst : Bytes)
    (srcL dstL : List Bytes) (fs : Staged) (hf : FoundBelow w.list src l) (hl : levels l ≤ fds)
    (hn : ProperNames l) (hs : PlainPath src) (h1 : PathsBelow 2048 src l) (h2 : PathsBelow 2048 dst l)
    (hat : ∀ p, p ≠ [] → (∀ n ∈ p, n ≠ [] ∧ (47 : UInt8) ∉ n) → stagedAt tmp (under dst p) = dstL ++ p)
    (hc : ∀ p, (p, Kind.file) ∈ entries l → Outside p → w.copied (under src p) = s.copied (srcL ++ p))
    (hm : ∀ p k, (p, k) ∈ entries l → (k = .dir ∨ k = .locked) → Outside p →
      w.mkdirOk (under dst p) = s.mkdirOk (srcL ++ p)) :
    (topEntries l).foldl (copyStep w tmp fds src dst) fs = copyEntries s l srcL dstL fs := by
  induction l generalizing fds src dst srcL dstL fs with
  | done => rfl
  | other n rest ih =>
    have ht : ∀ e ∈ entries rest, e ∈ entries (.other n rest) := fun e he => List.mem_cons_of_mem _ he
    have e : copyStep w tmp fds src dst fs (n, .other) = fs := by unfold copyStep copyEntry; split <;> rfl
    simp only [topEntries, List.foldl_cons, e, copyEntries]
    exact ih fds src dst srcL dstL fs hf hl (hn.tail ht) hs (h1.tail ht) (h2.tail ht) hat
      (fun p hp => hc p (ht _ hp)) (fun p k hp => hm p k (ht _ hp))
  | file n rest ih =>
    have ht : ∀ e ∈ entries rest, e ∈ entries (.file n rest) := fun e he => List.mem_cons_of_mem _ he
    have hmem : ([n], Kind.file) ∈ entries (.file n rest) := List.mem_cons_self
    have hname := hn _ hmem n (by simp)
    have k1 := h1.2 _ hmem
    have k2 := h2.2 _ hmem
    have e : copyStep w tmp fds src dst fs (n, .file) = if n = b!".library" then fs else
        match s.copied (srcL ++ [n]) with
        | some c => (fs.write (dstL ++ [n]) c).getD fs
        | none => fs := by
      unfold copyStep copyEntry
      simp only
      split
      · rfl
      · rename_i hne
        rw [under_one] at k1 k2
        rw [show entryPath maxPathLength src n = src ++ b!"/" ++ n from entryPath_fits hs k1, show snprintf maxPathLength (dst ++ b!"/" ++ n) = dst ++ b!"/" ++ n from
          snprintf_fits k2, ← under_one, ← under_one, hc [n] hmem (by simpa [Outside] using fun h => hne h.symm),
          hat [n] (by simp) (by simpa using hname)]
        cases s.copied (srcL ++ [n]) <;> rfl
    simp only [topEntries, List.foldl_cons, e, copyEntries]
    have key := fun fs => ih fds src dst srcL dstL fs hf hl (hn.tail ht) hs (h1.tail ht) (h2.tail ht) hat
      (fun p hp => hc p (ht _ hp)) (fun p k hp => hm p k (ht _ hp))
    split
    · exact key _
    · exact key _
  | locked n rest ih =>
    have ht : ∀ e ∈ entries rest, e ∈ entries (.locked n rest) := fun e he => List.mem_cons_of_mem _ he
    have hmem : ([n], Kind.locked) ∈ entries (.locked n rest) := List.mem_cons_self
    have hname := hn _ hmem n (by simp)
    have k1 := h1.2 _ hmem
    have k2 := h2.2 _ hmem
    obtain ⟨hf1, hf2⟩ := hf
    have e : copyStep w tmp fds src dst fs (n, .dir) = if n = b!".library" then fs else
        if s.mkdirOk (srcL ++ [n]) then (fs.mkdir (dstL ++ [n])).getD fs else fs := by
      unfold copyStep copyEntry
      simp only
      split
      · rfl
      · rename_i hne
        rw [under_one] at k1 k2
        rw [show entryPath maxPathLength src n = src ++ b!"/" ++ n from entryPath_fits hs k1, show snprintf maxPathLength (dst ++ b!"/" ++ n) = dst ++ b!"/" ++ n from
          snprintf_fits k2, ← under_one dst, hm [n] _ hmem (Or.inr rfl) (by simpa [Outside] using fun h => hne h.symm),
          hat [n] (by simp) (by simpa using hname)]
        cases fds with
        | zero => rfl
        | succ f => rw [copyTree_succ, show snprintf maxPathLength (src ++ b!"/" ++ n) = src ++ b!"/" ++ n from
            snprintf_fits k1, hf1]
    simp only [topEntries, List.foldl_cons, e, copyEntries]
    have key := fun fs => ih fds src dst srcL dstL fs hf2 hl (hn.tail ht) hs (h1.tail ht) (h2.tail ht) hat
      (fun p hp => hc p (ht _ hp)) (fun p k hp => hm p k (ht _ hp))
    split
    · exact key _
    · exact key _
  | dir n sub rest ih1 ih2 =>
    have ht := rest_dir n sub rest
    have hmem : ([n], Kind.dir) ∈ entries (.dir n sub rest) := List.mem_append_left _ List.mem_cons_self
    have hname := hn _ hmem n (by simp)
    have k1 := h1.2 _ hmem
    have k2 := h2.2 _ hmem
    obtain ⟨hf1, hf2, hf3⟩ := hf
    have hlv : levels sub + 1 ≤ fds ∧ levels rest ≤ fds := by
      have : max (levels sub + 1) (levels rest) ≤ fds := hl
      omega
    have e : copyStep w tmp fds src dst fs (n, .dir) = if n = b!".library" then fs else
        copyEntries s sub (srcL ++ [n]) (dstL ++ [n])
          (if s.mkdirOk (srcL ++ [n]) then (fs.mkdir (dstL ++ [n])).getD fs else fs) := by
      unfold copyStep copyEntry
      simp only
      split
      · rfl
      · rename_i hne
        have hout : ∀ p, Outside p → Outside (n :: p) := fun p hp => by
          simpa [Outside] using ⟨fun h => hne h.symm, hp⟩
        rw [under_one] at k1 k2
        rw [show entryPath maxPathLength src n = src ++ b!"/" ++ n from entryPath_fits hs k1, show snprintf maxPathLength (dst ++ b!"/" ++ n) = dst ++ b!"/" ++ n from
          snprintf_fits k2]
        have hq : w.mkdirOk (dst ++ b!"/" ++ n) = s.mkdirOk (srcL ++ [n]) := by
          rw [← under_one dst]
          exact hm [n] _ hmem (Or.inl rfl) (hout [] (by simp [Outside]))
        have ha : stagedAt tmp (dst ++ b!"/" ++ n) = dstL ++ [n] := by
          rw [← under_one dst]
          exact hat [n] (by simp) (by simpa using hname)
        rw [hq, ha]
        obtain ⟨f, rfl⟩ : ∃ f, fds = f + 1 := ⟨fds - 1, by omega⟩
        rw [copyTree_succ, show snprintf maxPathLength (src ++ b!"/" ++ n) = src ++ b!"/" ++ n from
            snprintf_fits k1, hf1]
        refine ih1 f _ _ _ _ _ hf2 (by omega) hn.sub (plain_child hname.1 hname.2) h1.sub h2.sub ?_ ?_ ?_
        · intro p hp hpn
          rw [← under_cons _ _ hp, hat (n :: p) (by simp) (by
            intro x hx
            rcases List.mem_cons.1 hx with rfl | hx
            · exact hname
            · exact hpn x hx)]
          simp
        · intro p hp ho
          rw [← under_cons _ _ (entries_ne_nil sub _ hp), hc _ (sub_dir n sub rest _ hp) (hout p ho)]
          simp
        · intro p k hp hk ho
          rw [← under_cons _ _ (entries_ne_nil sub _ hp), hm _ k (sub_dir n sub rest _ hp) hk (hout p ho)]
          simp
    simp only [topEntries, List.foldl_cons, e, copyEntries]
    have key := fun fs => ih2 fds src dst srcL dstL fs hf3 hlv.2 (hn.tail ht) hs (h1.tail ht) (h2.tail ht) hat
      (fun p hp => hc p (ht _ hp)) (fun p k hp => hm p k (ht _ hp))
    split
    · exact key _
    · exact key _

/-! ## The icon -/

theorem findTree_entries (list : ReadDir) (name tmp : Bytes) (l : Listing) (fds : Nat) (path : Bytes)
    (dir : List Bytes) (cur : Option (List Bytes)) (hf : FoundBelow list path l) (hl : levels l ≤ fds)
    (hn : ProperNames l) (hs : PlainPath path) (h1 : PathsBelow 2048 path l) (hd : dir ≠ []) (hp : path = under tmp dir) :
    findLoop name path (fun p c => (findTree list name fds p c).1) (topEntries l) (cur.map (under tmp)) =
      ((findFile name l dir cur).1.map (under tmp), (findFile name l dir cur).2) := by
  induction l generalizing fds path dir cur with
  | done => rfl
  | other n rest ih =>
    have ht : ∀ e ∈ entries rest, e ∈ entries (.other n rest) := fun e he => List.mem_cons_of_mem _ he
    simp only [topEntries, findLoop, findFile]
    exact ih fds path dir cur hf hl (hn.tail ht) hs (h1.tail ht) hd hp
  | file n rest ih =>
    have ht : ∀ e ∈ entries rest, e ∈ entries (.file n rest) := fun e he => List.mem_cons_of_mem _ he
    have k1 := h1.2 ([n], Kind.file) List.mem_cons_self
    rw [under_one] at k1
    simp only [topEntries, findLoop, findFile]
    split
    · rw [show entryPath maxPathLength path n = path ++ b!"/" ++ n from entryPath_fits hs k1]
      have : path ++ b!"/" ++ n = under tmp (dir ++ [n]) := by
        rw [under_append _ hd (by simp), ← hp, under_one]
      rw [this]
      cases cur <;> rfl
    · exact ih fds path dir cur hf hl (hn.tail ht) hs (h1.tail ht) hd hp
  | locked n rest ih =>
    have ht : ∀ e ∈ entries rest, e ∈ entries (.locked n rest) := fun e he => List.mem_cons_of_mem _ he
    have k1 := h1.2 ([n], Kind.locked) List.mem_cons_self
    rw [under_one] at k1
    obtain ⟨hf1, hf2⟩ := hf
    simp only [topEntries, findLoop, findFile]
    have e : ∀ c, (findTree list name fds (entryPath maxPathLength path n) c).1 = c := by
      intro c
      rw [show entryPath maxPathLength path n = path ++ b!"/" ++ n from entryPath_fits hs k1]
      cases fds with
      | zero => rfl
      | succ f => rw [findTree, show snprintf maxPathLength (path ++ b!"/" ++ n) = path ++ b!"/" ++ n from
          snprintf_fits k1, hf1]
    rw [e]
    exact ih fds path dir cur hf2 hl (hn.tail ht) hs (h1.tail ht) hd hp
  | dir n sub rest ih1 ih2 =>
    have ht := rest_dir n sub rest
    have hmem : ([n], Kind.dir) ∈ entries (.dir n sub rest) := List.mem_append_left _ List.mem_cons_self
    have hname := hn _ hmem n (by simp)
    have k1 := h1.2 _ hmem
    rw [under_one] at k1
    obtain ⟨hf1, hf2, hf3⟩ := hf
    have hlv : levels sub + 1 ≤ fds ∧ levels rest ≤ fds := by
      have : max (levels sub + 1) (levels rest) ≤ fds := hl
      omega
    simp only [topEntries, findLoop, findFile]
    have e : (findTree list name fds (entryPath maxPathLength path n) (cur.map (under tmp))).1 =
        (findFile name sub (dir ++ [n]) cur).1.map (under tmp) := by
      rw [show entryPath maxPathLength path n = path ++ b!"/" ++ n from entryPath_fits hs k1]
      obtain ⟨f, rfl⟩ : ∃ f, fds = f + 1 := ⟨fds - 1, by omega⟩
      rw [findTree, show snprintf maxPathLength (path ++ b!"/" ++ n) = path ++ b!"/" ++ n from snprintf_fits k1, hf1]
      simp only
      rw [ih1 f _ (dir ++ [n]) cur hf2 (by omega) hn.sub (plain_child hname.1 hname.2) h1.sub (by simp) (by
        rw [under_append _ hd (by simp), ← hp, under_one])]
    rw [e]
    exact ih2 fds path dir _ hf3 hlv.2 (hn.tail ht) hs (h1.tail ht) hd hp

/-! ## The archive -/

/-- Paths of an archive as strings. -/
def nameArchive (a : Archive) : List (Bytes × Bytes) := a.map fun f => (relPath f.1, f.2)

theorem zipTree_entries (list : ReadDir) (add : Bytes → Bytes → Option Bytes) (env : PackEnv) (enc : Bool)
    (fs : Staged) (tmp : Bytes) (htmp : tmp ≠ []) (l : Listing) (fds : Nat) (path : Bytes) (dir : List Bytes)
    (hf : FoundBelow list path l) (hl : levels l ≤ fds) (hn : ProperNames l) (hs : PlainPath path)
    (h1 : PathsBelow 2049 path l) (hp : path = if dir = [] then tmp else under tmp dir)
    (ha : ∀ p, (p, Kind.file) ∈ entries l → add (relPath (dir ++ p)) (under tmp (dir ++ p)) =
      if env.zipAdds (dir ++ p) then (match fs.get (dir ++ p) with | some (.file c) => some c | _ => none) else none) :
    zipLoop enc tmp path (zipTree list add enc tmp fds) add (topEntries l) =
      (nameArchive (zipEntries env enc fs l dir).1, (zipEntries env enc fs l dir).2) := by
  have hchild : ∀ {path : Bytes} {dir : List Bytes} (n : Bytes), (path = if dir = [] then tmp else under tmp dir) →
      path ++ b!"/" ++ n = under tmp (dir ++ [n]) := by
    intro path dir n hp
    by_cases hd : dir = []
    · rw [hp, if_pos hd, hd]; rfl
    · rw [hp, if_neg hd, under_append _ hd (by simp), under_one]
  induction l generalizing fds path dir with
  | done => rfl
  | other n rest ih =>
    have ht : ∀ e ∈ entries rest, e ∈ entries (.other n rest) := fun e he => List.mem_cons_of_mem _ he
    simp only [topEntries, zipLoop, zipEntries]
    exact ih fds path dir hf hl (hn.tail ht) hs (h1.tail ht) hp (fun p hp => ha p (ht _ hp))
  | file n rest ih =>
    have ht : ∀ e ∈ entries rest, e ∈ entries (.file n rest) := fun e he => List.mem_cons_of_mem _ he
    have hmem : ([n], Kind.file) ∈ entries (.file n rest) := List.mem_cons_self
    have k1 := h1.2 _ hmem
    rw [under_one] at k1
    have key := ih fds path dir hf hl (hn.tail ht) hs (h1.tail ht) hp (fun p hp => ha p (ht _ hp))
    simp only [topEntries, zipLoop, zipEntries]
    split
    · have e1 : entryPath (maxPathLength + 1) path n = under tmp (dir ++ [n]) := by
        rw [show entryPath (maxPathLength + 1) path n = path ++ b!"/" ++ n from entryPath_fits hs k1, hchild n hp]
      have e2 : (under tmp (dir ++ [n])).drop (tmp.length + 1) = relPath (dir ++ [n]) := by
        unfold under
        rw [show tmp.length + 1 = (tmp ++ b!"/").length by simp, List.drop_left]
      have e3 : snprintf maxPathLength (relPath (dir ++ [n])) = relPath (dir ++ [n]) := by
        refine snprintf_fits ?_
        rw [hchild n hp] at k1
        have : 0 < tmp.length := List.length_pos_of_ne_nil htmp
        simp [under] at k1
        show _ < 2048
        omega
      rw [e1, e2, e3, ha [n] hmem, key]
      cases hg : fs.get (dir ++ [n]) with
      | none => simp [nameArchive]
      | some x =>
        cases x with
        | dir => simp [nameArchive]
        | file c =>
          by_cases hz : env.zipAdds (dir ++ [n]) = true
          · simp [hz, nameArchive]
          · simp [hz, nameArchive]
    · exact key
  | locked n rest ih =>
    have hmem : ([n], Kind.locked) ∈ entries (.locked n rest) := List.mem_cons_self
    have k1 := h1.2 _ hmem
    rw [under_one] at k1
    obtain ⟨hf1, -⟩ := hf
    have e : zipTree list add enc tmp fds (entryPath (maxPathLength + 1) path n) = ([], false) := by
      rw [show entryPath (maxPathLength + 1) path n = path ++ b!"/" ++ n from entryPath_fits hs k1]
      cases fds with
      | zero => rfl
      | succ f => rw [zipTree, show snprintf (maxPathLength + 1) (path ++ b!"/" ++ n) = path ++ b!"/" ++ n from
          snprintf_fits k1, hf1]
    simp only [topEntries, zipLoop, zipEntries, e]
    rfl
  | dir n sub rest ih1 ih2 =>
    have ht := rest_dir n sub rest
    have hmem : ([n], Kind.dir) ∈ entries (.dir n sub rest) := List.mem_append_left _ List.mem_cons_self
    have hname := hn _ hmem n (by simp)
    have k1 := h1.2 _ hmem
    rw [under_one] at k1
    obtain ⟨hf1, hf2, hf3⟩ := hf
    have hlv : levels sub + 1 ≤ fds ∧ levels rest ≤ fds := by
      have : max (levels sub + 1) (levels rest) ≤ fds := hl
      omega
    have e : zipTree list add enc tmp fds (entryPath (maxPathLength + 1) path n) =
        (nameArchive (zipEntries env enc fs sub (dir ++ [n])).1, (zipEntries env enc fs sub (dir ++ [n])).2) := by
      rw [show entryPath (maxPathLength + 1) path n = path ++ b!"/" ++ n from entryPath_fits hs k1]
      obtain ⟨f, rfl⟩ : ∃ f, fds = f + 1 := ⟨fds - 1, by omega⟩
      rw [zipTree, show snprintf (maxPathLength + 1) (path ++ b!"/" ++ n) = path ++ b!"/" ++ n from
        snprintf_fits k1, hf1]
      refine ih1 f _ (dir ++ [n]) hf2 (by omega) hn.sub (plain_child hname.1 hname.2) h1.sub ?_ ?_
      · rw [if_neg (by simp), hchild n hp]
      · intro p hp
        have := ha _ (sub_dir n sub rest _ hp)
        simpa using this
    have key := ih2 fds path dir hf3 hlv.2 (hn.tail ht) hs (h1.tail ht) hp (fun p hp => ha p (ht _ hp))
    simp only [topEntries, zipLoop, zipEntries, e, key]
    by_cases hz : (zipEntries env enc fs sub (dir ++ [n])).2 = true
    · simp [hz, nameArchive]
    · simp [hz]

/-! ## Encryption -/

theorem relPath_child {dir : List Bytes} (hd : dir ≠ []) (n : Bytes) :
    relPath (dir ++ [n]) = relPath dir ++ b!"/" ++ n := by
  have := under_append [] hd (p := [n]) (by simp)
  simpa [under, relPath] using this

/-- The path of a directory of the library, `none` for the library. -/
def relDir (dir : List Bytes) : Option Bytes := if dir = [] then none else some (relPath dir)

/-- Path of a directory below `top`. -/
def dirPath (top : Bytes) (dir : List Bytes) : Bytes := if dir = [] then top else under top dir

theorem dirPath_child (top : Bytes) (dir : List Bytes) (n : Bytes) :
    dirPath top dir ++ b!"/" ++ n = under top (dir ++ [n]) := by
  unfold dirPath
  by_cases hd : dir = []
  · rw [if_pos hd, hd]; rfl
  · rw [if_neg hd, under_append _ hd (by simp), under_one]

theorem under_length (top : Bytes) (p : List Bytes) : (under top p).length = top.length + 1 + (relPath p).length := by
  simp [under]; omega

theorem encRel_fits {top : Bytes} {dir : List Bytes} {n : Bytes} (h : (under top (dir ++ [n])).length < 2049) :
    encRel (relDir dir) n = relPath (dir ++ [n]) := by
  rw [under_length] at h
  unfold encRel relDir
  by_cases hd : dir = []
  · subst hd
    exact snprintf_fits (by simp [relPath] at h; show _ < 2049; omega)
  · rw [if_neg hd]
    simp only
    rw [← relPath_child hd]
    exact snprintf_fits (by show _ < 2049; omega)

theorem encFull_fits {top : Bytes} {dir : List Bytes} (h : (dirPath top dir).length < 2049) :
    encFull top (relDir dir) = dirPath top dir := by
  unfold encFull relDir dirPath at *
  by_cases hd : dir = []
  · simp only [hd, if_true] at h ⊢
    exact snprintf_fits h
  · simp only [hd, if_false] at h ⊢
    exact snprintf_fits h

theorem encryptFileAt_fits {σ : Type} (w : EncWorld σ) {top : Bytes} {p : List Bytes} (s : σ)
    (h : (under top p).length < 2049) :
    encryptFileAt w top (relPath p) s = w.encrypt (relPath p) (under top p) (under top p ++ b!"c") s := by
  unfold encryptFileAt
  have h1 : snprintf packFileNameMax (top ++ b!"/" ++ relPath p) = under top p :=
    snprintf_fits (by show (under top p).length < 4096; omega)
  simp only [h1]
  rw [show snprintf packFileNameMax (under top p ++ b!"c") = under top p ++ b!"c" from
    snprintf_fits (by show _ < 4096; simp; omega)]

theorem encHere_fits (w : EncWorld EncState) (env : PackEnv) (e : CrEnv) (lib top : Bytes) (dir : List Bytes) (s : EncState)
    (h1 : (under top (dir ++ [b!"package.mo"])).length < 2049)
    (ho : ∀ s, w.opens s (under top (dir ++ [b!"package.mo"])) =
      (env.openRead s.fs (lib :: dir ++ [b!"package.mo"])).isSome)
    (hc : ∀ s, w.encrypt (relPath (dir ++ [b!"package.mo"])) (under top (dir ++ [b!"package.mo"]))
      (under top (dir ++ [b!"package.mo"]) ++ b!"c") s = encryptOne env e lib (dir ++ [b!"package.mo"]) s) :
    encHere w top (relDir dir) s = encryptPackage env e lib dir s := by
  have hd := dirPath_child top dir b!"package.mo"
  have hfull : encFull top (relDir dir) = dirPath top dir := encFull_fits (by
    rw [← hd] at h1
    simp at h1
    omega)
  unfold encHere encryptPackage
  rw [hfull, show dirPath top dir ++ b!"/package.mo" = dirPath top dir ++ b!"/" ++ b!"package.mo" by simp, hd,
    show snprintf (maxPathLength + 1) (under top (dir ++ [b!"package.mo"])) = under top (dir ++ [b!"package.mo"]) from
      snprintf_fits h1, ho, encRel_fits h1, encryptFileAt_fits w s h1, hc]
  cases env.openRead s.fs (lib :: dir ++ [b!"package.mo"]) <;> rfl

/-- One entry of `encTree`. -/
def encWalkStep {σ : Type} (w : EncWorld σ) (top : Bytes) (fds : Nat) (rel : Option Bytes) (e : Bytes × EntryType) (s : σ) :
    Res (σ × Bool) :=
  if eqNoCase e.1 b!"package.mo" then .ok (s, true)
  else
    match e.2 with
    | .dir => encTree w top fds (some (encRel rel e.1)) s
    | .file => if isModelicaFile e.1 then encryptFileAt w top (encRel rel e.1) s else .ok (s, true)
    | .other => .ok (s, true)

theorem encTree_succ {σ : Type} (w : EncWorld σ) (top : Bytes) (fds : Nat) (rel : Option Bytes) (s : σ) :
    encTree w top (fds + 1) rel s = (encHere w top rel s).bind fun r =>
      if r.2 then
        match w.list (encFull top rel) with
        | none => .ok (r.1, false)
        | some es => untilFails (encWalkStep w top fds rel) es r.1
      else .ok (r.1, false) := rfl

theorem encTree_entries (w : EncWorld EncState) (env : PackEnv) (e : CrEnv) (lib top : Bytes) (l : Listing) (fds : Nat)
    (dir : List Bytes) (s : EncState) (hf : FoundBelow w.list (dirPath top dir) l) (hl : levels l ≤ fds)
    (hn : ProperNames l) (h1 : PathsBelow 2049 (dirPath top dir) l)
    (h2 : ∀ p k, (p, k) ∈ entries l → k = .dir ∨ k = .locked → (under top (dir ++ p ++ [b!"package.mo"])).length < 2049)
    (ho : ∀ p k, (p, k) ∈ entries l → k = .dir ∨ k = .locked → ∀ s,
      w.opens s (under top (dir ++ p ++ [b!"package.mo"])) =
        (env.openRead s.fs (lib :: (dir ++ p) ++ [b!"package.mo"])).isSome)
    (hdir : ∀ m ∈ dir, m ≠ [] ∧ (47 : UInt8) ∉ m)
    (hc : ∀ p, (∀ m ∈ p, m ≠ [] ∧ (47 : UInt8) ∉ m) → ∀ s,
      w.encrypt (relPath p) (under top p) (under top p ++ b!"c") s = encryptOne env e lib p s) :
    untilFails (encWalkStep w top fds (relDir dir)) (topEntries l) s = encryptEntries env e lib l dir s := by
  induction l generalizing fds dir s with
  | done => rfl
  | other n rest ih =>
    have ht : ∀ e ∈ entries rest, e ∈ entries (.other n rest) := fun e he => List.mem_cons_of_mem _ he
    have key := ih fds dir s hf hl (hn.tail ht) (h1.tail ht) (fun p k hp => h2 p k (ht _ hp))
      (fun p k hp => ho p k (ht _ hp)) hdir
    simp only [topEntries, untilFails, encryptEntries, encWalkStep]
    split <;> simpa using key
  | file n rest ih =>
    have ht : ∀ e ∈ entries rest, e ∈ entries (.file n rest) := fun e he => List.mem_cons_of_mem _ he
    have hmem : ([n], Kind.file) ∈ entries (.file n rest) := List.mem_cons_self
    have k1 := h1.2 _ hmem
    rw [under_one, dirPath_child] at k1
    have key := fun s => ih fds dir s hf hl (hn.tail ht) (h1.tail ht) (fun p k hp => h2 p k (ht _ hp))
      (fun p k hp => ho p k (ht _ hp)) hdir
    simp only [topEntries, untilFails, encryptEntries, encWalkStep]
    split
    · simpa using key s
    · split
      · rw [encRel_fits k1, encryptFileAt_fits w s k1, hc _ (by
          intro m hm
          rcases List.mem_append.1 hm with hm | hm
          · exact hdir m hm
          · exact hn _ hmem m hm)]
        simp only [key]
      · simpa using key s
  | locked n rest ih =>
    have ht : ∀ e ∈ entries rest, e ∈ entries (.locked n rest) := fun e he => List.mem_cons_of_mem _ he
    have hmem : ([n], Kind.locked) ∈ entries (.locked n rest) := List.mem_cons_self
    have k1 := h1.2 _ hmem
    rw [under_one, dirPath_child] at k1
    obtain ⟨hf1, hf2⟩ := hf
    have key := fun s => ih fds dir s hf2 hl (hn.tail ht) (h1.tail ht) (fun p k hp => h2 p k (ht _ hp))
      (fun p k hp => ho p k (ht _ hp)) hdir
    simp only [topEntries, untilFails, encryptEntries, encWalkStep]
    split
    · simpa using key s
    · have hr : (some (encRel (relDir dir) n)) = relDir (dir ++ [n]) := by
        rw [encRel_fits k1, relDir, if_neg (by simp)]
      have hdn : ∀ m ∈ dir ++ [n], m ≠ [] ∧ (47 : UInt8) ∉ m := by
        intro m hm
        rcases List.mem_append.1 hm with hm | hm
        · exact hdir m hm
        · exact hn _ hmem m hm
      have hh := encHere_fits w env e lib top (dir ++ [n]) s (h2 _ _ hmem (Or.inr rfl)) (ho _ _ hmem (Or.inr rfl))
        (hc _ (by
          intro m hm
          rcases List.mem_append.1 hm with hm | hm
          · exact hdn m hm
          · simp only [List.mem_singleton] at hm; subst hm; decide))
      have : encTree w top fds (some (encRel (relDir dir) n)) s =
          (encryptPackage env e lib (dir ++ [n]) s).bind fun r => .ok (r.1, false) := by
        rw [hr]
        cases fds with
        | zero => rw [encTree, hh]; rfl
        | succ f =>
          rw [encTree_succ, hh]
          have hfull : encFull top (relDir (dir ++ [n])) = dirPath top (dir ++ [n]) :=
            encFull_fits (by rw [dirPath, if_neg (by simp)]; exact k1)
          have hnone : w.list (encFull top (relDir (dir ++ [n]))) = none := by
            rw [hfull, dirPath, if_neg (by simp), ← dirPath_child]; exact hf1
          rw [hnone]
          congr 1
          funext r
          split <;> rfl
      rw [this]
      cases encryptPackage env e lib (dir ++ [n]) s <;> rfl
  | dir n sub rest ih1 ih2 =>
    have ht := rest_dir n sub rest
    have hmem : ([n], Kind.dir) ∈ entries (.dir n sub rest) := List.mem_append_left _ List.mem_cons_self
    have hname := hn _ hmem n (by simp)
    have k1 := h1.2 _ hmem
    rw [under_one, dirPath_child] at k1
    obtain ⟨hf1, hf2, hf3⟩ := hf
    have hlv : levels sub + 1 ≤ fds ∧ levels rest ≤ fds := by
      have : max (levels sub + 1) (levels rest) ≤ fds := hl
      omega
    have key := fun s => ih2 fds dir s hf3 hlv.2 (hn.tail ht) (h1.tail ht) (fun p k hp => h2 p k (ht _ hp))
      (fun p k hp => ho p k (ht _ hp)) hdir
    simp only [topEntries, untilFails, encryptEntries, encWalkStep]
    split
    · simpa using key s
    · have hr : (some (encRel (relDir dir) n)) = relDir (dir ++ [n]) := by
        rw [encRel_fits k1, relDir, if_neg (by simp)]
      have hdn : ∀ m ∈ dir ++ [n], m ≠ [] ∧ (47 : UInt8) ∉ m := by
        intro m hm
        rcases List.mem_append.1 hm with hm | hm
        · exact hdir m hm
        · exact hn _ hmem m hm
      have hh := encHere_fits w env e lib top (dir ++ [n]) s (h2 _ _ hmem (Or.inl rfl)) (ho _ _ hmem (Or.inl rfl))
        (hc _ (by
          intro m hm
          rcases List.mem_append.1 hm with hm | hm
          · exact hdn m hm
          · simp only [List.mem_singleton] at hm; subst hm; decide))
      have hdp : dirPath top dir ++ b!"/" ++ n = dirPath top (dir ++ [n]) := by
        rw [dirPath_child, dirPath, if_neg (by simp)]
      have : encTree w top fds (some (encRel (relDir dir) n)) s =
          (encryptPackage env e lib (dir ++ [n]) s).bind fun r =>
            if r.2 then encryptEntries env e lib sub (dir ++ [n]) r.1 else .ok (r.1, false) := by
        rw [hr]
        obtain ⟨f, rfl⟩ : ∃ f, fds = f + 1 := ⟨fds - 1, by omega⟩
        rw [encTree_succ, hh]
        have hfull : encFull top (relDir (dir ++ [n])) = dirPath top (dir ++ [n]) :=
          encFull_fits (by rw [dirPath, if_neg (by simp)]; exact k1)
        have hsome : w.list (encFull top (relDir (dir ++ [n]))) = some (topEntries sub) := by
          rw [hfull, ← hdp]; exact hf1
        rw [hsome]
        congr 1
        funext r
        simp only
        rw [ih1 f (dir ++ [n]) r.1 (hdp ▸ hf2) (by omega) hn.sub (hdp ▸ h1.sub)
          (fun p k hp hk => by have := h2 _ k (sub_dir n sub rest _ hp) hk; simpa using this)
          (fun p k hp hk s => by have := ho _ k (sub_dir n sub rest _ hp) hk s; simpa using this) hdn]
      rw [this]
      cases encryptPackage env e lib (dir ++ [n]) s with
      | ub u => rfl
      | ok r =>
        obtain ⟨s1, b⟩ := r
        cases b
        · rfl
        · simp only [Res.bind_ok, if_true]
          show ((encryptEntries env e lib sub (dir ++ [n]) s1).bind fun r => if r.2 = true then _ else _) =
            (encryptEntries env e lib sub (dir ++ [n]) s1).bind fun r => _
          congr 1
          funext r
          split
          · exact key _
          · rfl

end Semla
