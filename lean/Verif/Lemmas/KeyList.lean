import Verif.Model.KeyList
import Verif.Spec.KeyList
import Verif.Lemmas.BuildTools

/-!
# The list of tool keys: lemmas
-/

namespace Semla

open Semla.Spec

/-! ## The list file -/

theorem cmakeStrings_withoutCr (t : Bytes) : ∀ cur, cmakeStrings cur t = cmakeStrings cur (withoutCr t) := by
  induction t with
  | nil => intro cur; rfl
  | cons c cs ih =>
    intro cur
    by_cases h13 : c = 13
    · subst h13
      simp only [cmakeStrings, withoutCr, if_true, List.filter_cons, ne_eq, not_true_eq_false, decide_false,
        Bool.false_eq_true, if_false]
      exact ih cur
    · simp only [cmakeStrings, withoutCr, h13, if_false, List.filter_cons, ne_eq, not_false_eq_true, decide_true,
        if_true]
      by_cases h10 : c = 10
      · simp only [h10, if_true]; rw [ih]; rfl
      · simp only [h10, if_false]; rw [ih]; rfl

theorem atLineStart_append {a b : Bytes} (h : AtLineStart (a ++ 10 :: b)) : AtLineStart b := by
  rcases h with h | h
  · simp at h
  · cases b with
    | nil => exact .inl rfl
    | cons x xs =>
      right
      rw [show a ++ 10 :: x :: xs = (a ++ [10]) ++ x :: xs by simp, List.getLast?_append_of_ne_nil _ (by simp)] at h
      exact h

theorem atLineStart_cons {a b : Bytes} (h : AtLineStart b) : AtLineStart (a ++ 10 :: b) := by
  right
  rcases h with rfl | h
  · simp
  · have : b ≠ [] := by rintro rfl; simp at h
    rw [show a ++ 10 :: b = (a ++ [10]) ++ b by simp, List.getLast?_append_of_ne_nil _ this]
    exact h

theorem not_start_of_mem {cur : Bytes} {pre x : Bytes} (hc : (10 : UInt8) ∉ cur) (he : cur = pre ++ x)
    (h : AtLineStart pre) : pre = [] := by
  rcases h with h | h
  · exact h
  · exact absurd (by rw [he]; exact List.mem_append_left _ (List.mem_of_getLast? h)) hc

/-- Splitting at the first newline is unique. -/
theorem split_first {a b x y : Bytes} (ha : (10 : UInt8) ∉ a) (hb : (10 : UInt8) ∉ b)
    (h : a ++ 10 :: x = b ++ 10 :: y) : a = b ∧ x = y := by
  induction a generalizing b with
  | nil =>
    cases b with
    | nil => simpa using h
    | cons c cs => simp at h hb; exact absurd h.1 hb.1
  | cons c cs ih =>
    cases b with
    | nil => simp at h ha; exact absurd h.1.symm ha.1
    | cons e es =>
      simp only [List.cons_append, List.cons.injEq] at h
      obtain ⟨rfl, h⟩ := h
      obtain ⟨rfl, rfl⟩ := ih (fun h => ha (by simp [h])) (fun h => hb (by simp [h])) h
      exact ⟨rfl, rfl⟩

theorem mem_cmakeStrings (t : Bytes) (h13 : (13 : UInt8) ∉ t) (f : Bytes) : ∀ cur, (10 : UInt8) ∉ cur →
    ((f ≠ [] ∧ f ∈ cmakeStrings cur t) ↔ (f ≠ [] ∧ 10 ∉ f ∧ ∃ pre post, cur ++ t = pre ++ f ++ post ∧
      AtLineStart pre ∧ (post = [] ∨ post.head? = some 10))) := by
  induction t with
  | nil =>
    intro cur hc
    simp only [cmakeStrings, List.append_nil]
    constructor
    · rintro ⟨hf, h⟩
      split at h
      · simp at h
      · simp only [List.mem_singleton] at h
        subst h
        exact ⟨hf, hc, [], [], by simp, .inl rfl, .inl rfl⟩
    · rintro ⟨hf, h10, pre, post, he, hp, hq⟩
      have hpre := not_start_of_mem hc (by rw [he, List.append_assoc]) hp
      subst hpre
      have hpost : post = [] := by
        rcases hq with h | h
        · exact h
        · exact absurd (by rw [he]; exact List.mem_append_right _ (List.mem_of_mem_head? h)) hc
      subst hpost
      simp only [List.nil_append, List.append_nil] at he
      subst he
      simp [hf]
  | cons c cs ih =>
    intro cur hc
    have hc13 : c ≠ 13 := fun h => h13 (by simp [h])
    have hcs : (13 : UInt8) ∉ cs := fun h => h13 (by simp [h])
    simp only [cmakeStrings, hc13, if_false]
    by_cases h10 : c = 10
    · subst h10
      simp only [if_true, List.mem_cons]
      constructor
      · rintro ⟨hf, rfl | h⟩
        · exact ⟨hf, hc, [], 10 :: cs, by simp, .inl rfl, .inr rfl⟩
        · obtain ⟨-, h1, pre, post, he, hp, hq⟩ := (ih hcs [] (by simp)).1 ⟨hf, h⟩
          refine ⟨hf, h1, cur ++ 10 :: pre, post, ?_, atLineStart_cons hp, hq⟩
          simp only [List.nil_append] at he
          simp [he]
      · rintro ⟨hf, h1, pre, post, he, hp, hq⟩
        refine ⟨hf, ?_⟩
        by_cases hm : (10 : UInt8) ∈ pre
        · obtain ⟨a, b, hab, ha⟩ := List.eq_append_cons_of_mem hm
          subst hab
          right
          rw [List.append_assoc, List.append_assoc, List.cons_append] at he
          obtain ⟨rfl, rfl⟩ := split_first hc ha he
          exact ((ih hcs [] (by simp)).2 ⟨hf, h1, b, post, by simp, atLineStart_append hp, hq⟩).2
        · have hpre : pre = [] := by
            rcases hp with h | h
            · exact h
            · exact absurd (List.mem_of_getLast? h) hm
          subst hpre
          left
          simp only [List.nil_append] at he
          cases post with
          | nil =>
            simp only [List.append_nil] at he
            exact absurd (by rw [← he]; simp) h1
          | cons p ps =>
            have hp10 : p = 10 := by rcases hq with h | h <;> simp_all
            subst hp10
            exact (split_first hc h1 he).1.symm
    · simp only [h10, if_false]
      rw [ih hcs (cur ++ [c]) (by simp [hc, Ne.symm h10])]
      simp

theorem listed_iff (t f : Bytes) : f ∈ (cmakeStrings [] t).filter (fun l => l ≠ []) ↔ Listed t f := by
  rw [List.mem_filter, cmakeStrings_withoutCr]
  have := mem_cmakeStrings (withoutCr t) (by simp [withoutCr]) f [] (by simp)
  simp only [List.nil_append] at this
  unfold Listed
  rw [← this]
  simp [and_comm]

theorem noBlank_lines {t : Bytes} (h : NoBlank t) : [] ∉ cmakeStrings [] t := by
  rw [cmakeStrings_withoutCr]
  have key : ∀ (t : Bytes), (13 : UInt8) ∉ t → ∀ cur, [] ∈ cmakeStrings cur t →
      ∃ pre post, cur ++ t = pre ++ 10 :: post ∧ AtLineStart pre := by
    intro t
    induction t with
    | nil =>
      intro _ cur hm
      simp only [cmakeStrings] at hm
      split at hm
      · simp at hm
      · rename_i hne
        simp only [List.mem_singleton] at hm
        exact absurd hm.symm hne
    | cons c cs ih =>
      intro h13 cur hm
      have hc13 : c ≠ 13 := fun h => h13 (by simp [h])
      have hcs : (13 : UInt8) ∉ cs := fun h => h13 (by simp [h])
      simp only [cmakeStrings, hc13, if_false] at hm
      split at hm
      · rename_i h10
        subst h10
        rcases List.mem_cons.1 hm with hm | hm
        · exact ⟨[], cs, by simp [← hm], .inl rfl⟩
        · obtain ⟨pre, post, he, hp⟩ := ih hcs [] hm
          exact ⟨cur ++ 10 :: pre, post, by simp only [List.nil_append] at he; simp [he], atLineStart_cons hp⟩
      · obtain ⟨pre, post, he, hp⟩ := ih hcs _ hm
        exact ⟨pre, post, by simpa using he, hp⟩
  intro hm
  obtain ⟨pre, post, he, hp⟩ := key _ (by simp [withoutCr]) [] hm
  exact h pre post he hp

/-! ## The table -/

theorem takeWhile_name (name : Bytes) (hn : ∀ c ∈ name, isTableChar c = true) (e : UInt8) (he : isTableChar e = false)
    (t : Bytes) : (name ++ e :: t).takeWhile isTableChar = name ∧ (name ++ e :: t).dropWhile isTableChar = e :: t := by
  induction name with
  | nil => simp [he]
  | cons c cs ih =>
    have hc := hn c (by simp)
    obtain ⟨h1, h2⟩ := ih fun c hc => hn c (by simp [hc])
    simp [hc, h1, h2]

theorem readItem_name {pre post : Bytes} {e : UInt8} (he : isTableChar e = false) {name : Bytes} (h0 : name ≠ [])
    (hn : ∀ c ∈ name, isTableChar c = true) (t : Bytes) :
    readItem pre (e :: post) (pre ++ name ++ (e :: post) ++ t) = some (name, t) := by
  unfold readItem
  rw [List.append_assoc, List.append_assoc, skip_append]
  obtain ⟨h1, h2⟩ := takeWhile_name name hn e he (post ++ t)
  simp only [List.cons_append, Option.bind_eq_bind, Option.bind_some, h1, h2]
  rw [← List.cons_append, skip_append]
  simp [h0]

theorem readItems_names {pre post : Bytes} {e : UInt8} (he : isTableChar e = false) {t : Bytes}
    (ht : readItem pre (e :: post) t = none) (names : List Bytes) :
    (∀ n ∈ names, n ≠ [] ∧ ∀ c ∈ n, isTableChar c = true) → ∀ fuel, names.length < fuel →
    readItems pre (e :: post) fuel (names.flatMap (fun n => pre ++ (n ++ e :: post)) ++ t) = (names, t) := by
  induction names with
  | nil =>
    intro _ fuel hf
    cases fuel with
    | zero => simp at hf
    | succ fuel => simp [readItems, ht]
  | cons n ns ih =>
    intro hn fuel hf
    cases fuel with
    | zero => simp at hf
    | succ fuel =>
      obtain ⟨h0, h1⟩ := hn n (by simp)
      rw [List.flatMap_cons, List.append_assoc, ← List.append_assoc pre]
      simp only [readItems]
      rw [readItem_name he h0 h1]
      simp only
      rw [ih (fun n h => hn n (by simp [h])) fuel (by simpa using hf)]

theorem decNat_nameChar (n : Nat) : ∀ c ∈ decNat n, isTableChar c = true := by
  intro c hc
  have := decNat_digits n c hc
  simp only [isDigit, Bool.and_eq_true, decide_eq_true_eq] at this
  simp [isTableChar, this]

theorem keyArray_name (i : Nat) : keyArray i ≠ [] ∧ ∀ c ∈ keyArray i, isTableChar c = true := by
  refine ⟨by simp [keyArray], fun c hc => ?_⟩
  rcases List.mem_append.1 hc with h | h
  · clear hc; revert c; decide
  · exact decNat_nameChar i c h

theorem keyLen_name (i : Nat) : keyArray i ++ b!"_LEN" ≠ [] ∧ ∀ c ∈ keyArray i ++ b!"_LEN", isTableChar c = true := by
  refine ⟨by simp [keyArray], fun c hc => ?_⟩
  rcases List.mem_append.1 hc with h | h
  · exact (keyArray_name i).2 c h
  · clear hc; revert c; decide

theorem keyHeader_name (i : Nat) : keyHeader i ≠ [] ∧ ∀ c ∈ keyHeader i, isTableChar c = true := by
  refine ⟨by simp [keyHeader], fun c hc => ?_⟩
  unfold keyHeader at hc
  rcases List.mem_append.1 hc with h | h
  · rcases List.mem_append.1 h with h | h
    · clear hc; rename_i h'; clear h'; revert c; decide
    · exact decNat_nameChar i c h
  · clear hc; revert c; decide

theorem flatMap_names (pre post : Bytes) (name : Nat → Bytes) (g : Nat → Bytes) (n : Nat)
    (h : ∀ i, g i = pre ++ name i ++ post) : (List.range n).flatMap g =
      ((List.range n).map name).flatMap (fun x => pre ++ (x ++ post)) := by
  rw [List.flatMap_map]
  congr 1
  funext i
  rw [h i, List.append_assoc]

theorem names_le (pre post : Bytes) (hp : post ≠ []) (names : List Bytes) :
    names.length ≤ (names.flatMap (fun x => pre ++ (x ++ post))).length := by
  induction names with
  | nil => simp
  | cons x xs ih =>
    have : 0 < post.length := List.length_pos_iff.2 hp
    simp only [List.flatMap_cons, List.length_cons, List.length_append]
    omega

/-- The table, read as C. -/
theorem readTable_keyTableText (n : Nat) : readTable (keyTableText n) =
    some ⟨n, (List.range n).map keyHeader, (List.range n).map keyArray, (List.range n).map keyArray,
      (List.range n).map (fun i => keyArray i ++ b!"_LEN"), (List.range n).map keyArray,
      (List.range n).map keyArray⟩ := by
  have e1 := flatMap_names b!"#include \"" b!"\"\n" keyHeader
    (fun i => b!"#include \"public_key_tool" ++ decNat i ++ b!".h\"\n") n (fun i => by simp [keyHeader])
  have e2 := flatMap_names b!"DECLARE_" b!"();" keyArray
    (fun i => b!"DECLARE_PUBLIC_KEY_TOOL" ++ decNat i ++ b!"();") n (fun i => by simp [keyArray])
  have e3 := flatMap_names [] b!"," keyArray
    (fun i => b!"PUBLIC_KEY_TOOL" ++ decNat i ++ b!",") n (fun i => by simp [keyArray])
  have e4 := flatMap_names [] b!"," (fun i => keyArray i ++ b!"_LEN")
    (fun i => b!"PUBLIC_KEY_TOOL" ++ decNat i ++ b!"_LEN,") n (fun i => by simp [keyArray])
  have e5 := flatMap_names b!"INITIALIZE_" b!"();" keyArray
    (fun i => b!"INITIALIZE_PUBLIC_KEY_TOOL" ++ decNat i ++ b!"();") n (fun i => by simp [keyArray])
  have e6 := flatMap_names b!"CLEAR_" b!"();" keyArray
    (fun i => b!"CLEAR_PUBLIC_KEY_TOOL" ++ decNat i ++ b!"();") n (fun i => by simp [keyArray])
  have hfuel : n < (keyTableText n).length := by
    have := names_le b!"DECLARE_" b!"();" (by simp) ((List.range n).map keyArray)
    rw [← e2] at this
    simp only [List.length_map, List.length_range] at this
    simp only [keyTableText, List.length_append] at *
    simp only [List.length_cons]
    omega
  have hl : ∀ g : Nat → Bytes, ((List.range n).map g).length < (keyTableText n).length := by
    intro g; simpa using hfuel
  have hall : ∀ g : Nat → Bytes, (∀ i, g i ≠ [] ∧ ∀ c ∈ g i, isTableChar c = true) →
      ∀ x ∈ (List.range n).map g, x ≠ [] ∧ ∀ c ∈ x, isTableChar c = true := by
    intro g hg x hx
    obtain ⟨i, -, rfl⟩ := List.mem_map.1 hx
    exact hg i
  have key : ∀ fuel, (∀ g : Nat → Bytes, ((List.range n).map g).length < fuel) → ∀ t, t = keyTableText n →
      t.length = fuel → readTable t = some ⟨n, (List.range n).map keyHeader, (List.range n).map keyArray,
        (List.range n).map keyArray, (List.range n).map (fun i => keyArray i ++ b!"_LEN"), (List.range n).map keyArray,
        (List.range n).map keyArray⟩ := by
    intro fuel hf t ht hlen
    unfold readTable
    rw [hlen, ht]
    simp only [keyTableText]
    rw [e1, e2, e3, e4, e5, e6]
    simp only [List.append_assoc]
    rw [skip_append]
    simp only [Option.bind_eq_bind, Option.bind_some]
    rw [show ∀ (x : Bytes), b!" )\n" ++ x = 32 :: (b!")\n" ++ x) from fun _ => rfl, readNumber_decNat n 32 (by decide)]
    simp only [Option.bind_some]
    rw [show ∀ (x : Bytes), 32 :: (b!")\n" ++ x) = b!" )\n" ++ x from fun _ => rfl, skip_append]
    simp only [Option.bind_some]
    rw [readItems_names (pre := b!"#include \"") (e := 34) (post := [10]) (by decide) ?a1 _ (hall _ keyHeader_name) _
      (hf _)]
    simp only
    rw [skip_append]
    simp only [Option.bind_some]
    rw [readItems_names (pre := b!"DECLARE_") (e := 40) (post := b!");") (by decide) ?a2 _ (hall _ keyArray_name) _ (hf _)]
    simp only
    rw [skip_append]
    simp only [Option.bind_some]
    rw [readItems_names (pre := []) (e := 44) (post := []) (by decide) ?a3 _ (hall _ keyArray_name) _ (hf _)]
    simp only
    rw [skip_append]
    simp only [Option.bind_some]
    rw [readItems_names (pre := []) (e := 44) (post := []) (by decide) ?a4 _ (hall _ keyLen_name) _ (hf _)]
    simp only
    rw [skip_append]
    simp only [Option.bind_some]
    rw [readItems_names (pre := b!"INITIALIZE_") (e := 40) (post := b!");") (by decide) ?a5 _ (hall _ keyArray_name) _
      (hf _)]
    simp only
    rw [skip_append]
    simp only [Option.bind_some]
    rw [readItems_names (pre := b!"CLEAR_") (e := 40) (post := b!");") (by decide) ?a6 _ (hall _ keyArray_name) _ (hf _)]
    simp only
    rw [show skip b!"} while (0)\n" b!"} while (0)\n" = some [] by decide]
    simp only [Option.bind_some, if_true]
    all_goals rfl
  exact key _ hl _ rfl rfl

/-! ## The headers -/

theorem skip_eq {p t r : Bytes} (h : skip p t = some r) : t = p ++ r := by
  induction p generalizing t with
  | nil => simp only [skip, Option.some.injEq] at h; simpa using h
  | cons c cs ih =>
    cases t with
    | nil => simp [skip] at h
    | cons x xs =>
      simp only [skip] at h
      split at h
      · rename_i hc
        rw [ih h, hc]
        rfl
      · cases h

theorem decNat_split {j k : Nat} {e : UInt8} (he : decDigit e = none) {x y : Bytes}
    (h : decNat j ++ e :: x = decNat k ++ e :: y) : j = k := by
  have h1 := readNumber_decNat j e he x
  rw [h, readNumber_decNat k e he y] at h1
  simpa using congrArg (Option.map Prod.fst) h1.symm

theorem keyHeader_inj {j k : Nat} (h : keyHeader j = keyHeader k) : j = k := by
  unfold keyHeader at h
  simp only [List.append_assoc, List.append_cancel_left_eq] at h
  exact decNat_split (e := 46) (by decide) h

theorem keyHeader_ne_table (j : Nat) : keyHeader j ≠ b!"public_key_tool.h" := by
  intro h
  unfold keyHeader at h
  rw [List.append_assoc, show b!"public_key_tool.h" = b!"public_key_tool" ++ b!".h" from rfl,
    List.append_cancel_left_eq] at h
  have h0 := decNat_ne_nil j
  have hd := decNat_digits j
  cases hx : decNat j with
  | nil => exact h0 hx
  | cons c cs =>
    rw [hx] at h hd
    simp only [List.cons_append, List.cons.injEq] at h
    have := hd c (by simp)
    rw [h.1] at this
    revert this; decide

theorem keyArray_ident (i : Nat) : IsIdentifier (keyArray i) := by
  refine ⟨(keyArray_name i).1, fun c hc => ?_⟩
  rcases List.mem_append.1 hc with h | h
  · clear hc; revert c; decide
  · have := decNat_digits i c h
    simp only [isDigit, Bool.and_eq_true, decide_eq_true_eq] at this
    exact .inl this

theorem readHeader_other {j k : Nat} (h : j ≠ k) (data : Bytes) :
    readHeader (keyArray k) (headerText (keyArray j) data) = none := by
  unfold readHeader
  cases hs : skip (b!"#define DECLARE_" ++ keyArray k ++ b!"() unsigned char " ++ keyArray k ++ b!"[")
      (headerText (keyArray j) data) with
  | none => rfl
  | some r =>
    have := skip_eq hs
    unfold headerText keyArray at this
    simp only [List.append_assoc, List.append_cancel_left_eq] at this
    exact absurd (decNat_split (e := 40) (by decide) this) h

theorem makeHeaders_ok {env : BuildEnv} {bin keys : Bytes} : ∀ {fs : List Bytes} {i : Nat} {d d' : BuildDir},
    makeHeaders env bin keys i fs d = .ok (some d') →
      (∀ k (h : k < fs.length), ∃ text, obfuscateMain env [bin ++ b!"/" ++ keyHeader (i + k), keys ++ b!"/" ++ fs[k],
        keyArray (i + k), b!"TOOL_PUBLIC"] = .ok ⟨0, some text⟩ ∧ d' (keyHeader (i + k)) = some text) ∧
      ∀ n, (∀ k, k < fs.length → n ≠ keyHeader (i + k)) → d' n = d n := by
  intro fs
  induction fs with
  | nil =>
    intro i d d' h
    simp only [makeHeaders, Res.ok.injEq, Option.some.injEq] at h
    subst h
    simp
  | cons f fs ih =>
    intro i d d' h
    simp only [makeHeaders, Res.bind_eq_ok] at h
    obtain ⟨r, hr, h⟩ := h
    split at h
    · rename_i text
      obtain ⟨h1, h2⟩ := ih h
      constructor
      · intro k hk
        cases k with
        | zero =>
          refine ⟨text, hr, ?_⟩
          rw [Nat.add_zero, h2 (keyHeader i) (fun k _ he => by have := keyHeader_inj he; omega)]
          simp [BuildDir.put]
        | succ k =>
          have := h1 k (by simpa using hk)
          rw [show i + 1 + k = i + (k + 1) by omega] at this
          simpa using this
      · intro n hn
        rw [h2 n fun k hk => by
          have := hn (k + 1) (by simpa using hk)
          rwa [show i + 1 + k = i + (k + 1) by omega]]
        have := hn 0 (by simp)
        simp only [Nat.add_zero] at this
        simp [BuildDir.put, this]
    · simp at h

theorem keyLoop_eq (key : Option Bytes) (as : List (List (Option UInt8))) : ∀ (done : List (List (Option UInt8))),
    keyLoop key ((done ++ as).map some ++ [none]) done.length as.length = compareKeys key as := by
  induction as with
  | nil => intro done; rfl
  | cons a as ih =>
    intro done
    have hg : ((done ++ a :: as).map some ++ [none])[done.length]? = some (some a) := by
      rw [List.getElem?_append_left (by simp)]
      simp
    simp only [List.length_cons, keyLoop, hg, compareKeys]
    cases key with
    | none => rfl
    | some t =>
      simp only
      congr 1
      funext k
      split
      · rfl
      · have := ih (done ++ [a])
        simpa using this

end Semla
