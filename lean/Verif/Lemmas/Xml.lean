import Verif.Model.Manifest
import Verif.Spec.Xml

/-! # Lemmas: what the XML reader makes of escaped text and tags -/

namespace Semla

open Spec

/-! ## Escaping -/

theorem escapeByte_cases (c : UInt8) :
    (c = 60 ∧ escapeByte c = b!"&lt;") ∨ (c = 62 ∧ escapeByte c = b!"&gt;") ∨
    (c = 34 ∧ escapeByte c = b!"&quot;") ∨ (c = 38 ∧ escapeByte c = b!"&amp;") ∨
    (c ≠ 60 ∧ c ≠ 62 ∧ c ≠ 34 ∧ c ≠ 38 ∧ escapeByte c = [c]) := by
  unfold escapeByte
  by_cases h1 : c = 60
  · simp [h1]
  by_cases h2 : c = 62
  · simp [h2]
  by_cases h3 : c = 34
  · simp [h3]
  by_cases h4 : c = 38
  · simp [h4]
  simp [h1, h2, h3, h4]

theorem escapeText_nil : escapeText [] = [] := rfl

theorem escapeText_cons (c : UInt8) (s : Bytes) : escapeText (c :: s) = escapeByte c ++ escapeText s := by
  simp [escapeText]

theorem escapeText_append (a b : Bytes) : escapeText (a ++ b) = escapeText a ++ escapeText b := by
  simp [escapeText]

theorem unescape_other (c : UInt8) (s : Bytes) (h : c ≠ 60 ∧ c ≠ 62 ∧ c ≠ 38) :
    unescape (c :: s) = (unescape s).map (c :: ·) := by
  rw [unescape]
  · simp [h]
  all_goals (intros; simp_all)

theorem unescape_escape (s : Bytes) : unescape (escapeText s) = some s := by
  induction s with
  | nil => rfl
  | cons c s ih =>
    rw [escapeText_cons]
    rcases escapeByte_cases c with ⟨h, e⟩ | ⟨h, e⟩ | ⟨h, e⟩ | ⟨h, e⟩ | ⟨h1, h2, h3, h4, e⟩
    · rw [e, h]; simp [unescape, ih]
    · rw [e, h]; simp [unescape, ih]
    · rw [e, h]; simp [unescape, ih]
    · rw [e, h]; simp [unescape, ih]
    · rw [e, List.singleton_append, unescape_other c _ ⟨h1, h2, h4⟩, ih]; rfl

theorem lineEnds_other (c : UInt8) (s : Bytes) (h : c ≠ 13) : lineEnds (c :: s) = c :: lineEnds s := by
  rw [lineEnds]
  all_goals (intros; simp_all)

theorem lineEnds_cr_other (s : Bytes) (h : s.head? ≠ some 10) :
    lineEnds (13 :: s) = 10 :: lineEnds s := by
  cases s with
  | nil => rfl
  | cons c s =>
    simp only [List.head?_cons, ne_eq, Option.some.injEq] at h
    rw [lineEnds]
    rintro cs' h'
    simp at h'
    exact h h'.1

theorem lineEnds_crlf (s : Bytes) : lineEnds (13 :: 10 :: s) = 10 :: lineEnds s := by
  rw [lineEnds]

theorem lineEnds_plain (s t : Bytes) (h : (13 : UInt8) ∉ s) : lineEnds (s ++ t) = s ++ lineEnds t := by
  induction s with
  | nil => rfl
  | cons c s ih =>
    simp only [List.mem_cons, not_or] at h
    rw [List.cons_append, lineEnds_other c _ (Ne.symm h.1), ih h.2]
    rfl

theorem escape_head (s : Bytes) : (escapeText s).head? = some 10 ↔ s.head? = some 10 := by
  cases s with
  | nil => simp [escapeText]
  | cons c s =>
    rw [escapeText_cons]
    rcases escapeByte_cases c with ⟨h, e⟩ | ⟨h, e⟩ | ⟨h, e⟩ | ⟨h, e⟩ | ⟨h1, h2, h3, h4, e⟩ <;>
      rw [e] <;> simp_all

theorem lineEnds_escape (s : Bytes) : lineEnds (escapeText s) = escapeText (lineEnds s) := by
  match s with
  | [] => rfl
  | c :: s =>
    by_cases hc : c = 13
    · subst hc
      have e : escapeByte 13 = [13] := rfl
      rw [escapeText_cons, e]
      match s with
      | [] => rfl
      | c2 :: s2 =>
        by_cases h2 : c2 = 10
        · subst h2
          have e2 : escapeByte 10 = [10] := rfl
          rw [escapeText_cons, e2, lineEnds_crlf]
          simp only [List.singleton_append]
          rw [lineEnds_crlf, escapeText_cons, e2, lineEnds_escape s2]
          rfl
        · have hh : (c2 :: s2).head? ≠ some 10 := by simpa using h2
          rw [lineEnds_cr_other _ hh, escapeText_cons (10 : UInt8)]
          have e2 : escapeByte 10 = [10] := rfl
          rw [e2, List.singleton_append, lineEnds_cr_other _ (fun h => hh ((escape_head _).1 h)),
            lineEnds_escape (c2 :: s2)]
          rfl
    · rw [lineEnds_other c s hc, escapeText_cons, escapeText_cons, lineEnds_plain, lineEnds_escape s]
      rcases escapeByte_cases c with ⟨h, e⟩ | ⟨h, e⟩ | ⟨h, e⟩ | ⟨h, e⟩ | ⟨h1, h2, h3, h4, e⟩
      · rw [e]; decide
      · rw [e]; decide
      · rw [e]; decide
      · rw [e]; decide
      · rw [e, List.mem_singleton]
        exact fun h => hc h.symm

theorem attrSpaces_escape (s : Bytes) : attrSpaces (escapeText s) = escapeText (attrSpaces s) := by
  induction s with
  | nil => rfl
  | cons c s ih =>
    have hm : attrSpaces (c :: s) = (if c = 9 ∨ c = 10 then 32 else c) :: attrSpaces s := rfl
    have ha : attrSpaces (escapeByte c ++ escapeText s) =
        attrSpaces (escapeByte c) ++ attrSpaces (escapeText s) := by simp [attrSpaces]
    rw [escapeText_cons, ha, hm, escapeText_cons, ih]
    congr 1
    rcases escapeByte_cases c with ⟨h, e⟩ | ⟨h, e⟩ | ⟨h, e⟩ | ⟨h, e⟩ | ⟨h1, h2, h3, h4, e⟩
    · rw [e, h]; rfl
    · rw [e, h]; rfl
    · rw [e, h]; rfl
    · rw [e, h]; rfl
    · rw [e]
      by_cases h : c = 9 ∨ c = 10
      · simp [attrSpaces, h, escapeByte]
      · simp [attrSpaces, h, e]

/-- What an XML reader gets for a value written with escaping, as text and as attribute. -/
theorem readText_escape (s : Bytes) : readText (escapeText s) = some (lineEnds s) := by
  rw [readText, lineEnds_escape, unescape_escape]

theorem readValue_escape (s : Bytes) : readValue (escapeText s) = some (attrSpaces (lineEnds s)) := by
  rw [readValue, lineEnds_escape, attrSpaces_escape, unescape_escape]

theorem escape_no_markup (s : Bytes) : ∀ c ∈ escapeText s, c ≠ 60 ∧ c ≠ 62 ∧ c ≠ 34 := by
  intro c hc
  obtain ⟨b, -, h⟩ := List.mem_flatMap.1 hc
  rcases escapeByte_cases b with ⟨h', e⟩ | ⟨h', e⟩ | ⟨h', e⟩ | ⟨h', e⟩ | ⟨h1, h2, h3, h4, e⟩ <;>
    rw [e] at h <;> simp at h
  · rcases h with rfl | rfl | rfl | rfl <;> decide
  · rcases h with rfl | rfl | rfl | rfl <;> decide
  · rcases h with rfl | rfl | rfl | rfl | rfl | rfl <;> decide
  · rcases h with rfl | rfl | rfl | rfl | rfl <;> decide
  · subst h; exact ⟨h1, h2, h3⟩

/-! ## Characters -/

/-- The same as a set of rules. -/
inductive XmlStr : Bytes → Prop where
  | nil : XmlStr []
  | one {c : UInt8} {s : Bytes} (h : char1 c = true) (r : XmlStr s) : XmlStr (c :: s)
  | two {c c1 : UInt8} {s : Bytes} (h : char2 c c1 = true) (r : XmlStr s) : XmlStr (c :: c1 :: s)
  | three {c c1 c2 : UInt8} {s : Bytes} (h : char3 c c1 c2 = true) (r : XmlStr s) :
      XmlStr (c :: c1 :: c2 :: s)
  | four {c c1 c2 c3 : UInt8} {s : Bytes} (h : char4 c c1 c2 c3 = true) (r : XmlStr s) :
      XmlStr (c :: c1 :: c2 :: c3 :: s)

theorem xmlChars_iff (s : Bytes) : xmlChars s = true ↔ XmlStr s := by
  constructor
  · intro h
    match s with
    | [] => exact .nil
    | [c] => simp [xmlChars] at h; exact .one h .nil
    | [c, c1] =>
      simp only [xmlChars, Bool.or_eq_true, Bool.and_eq_true, Bool.or_false, Bool.and_true] at h
      rcases h with ⟨h, h'⟩ | h
      · exact .one h (.one h' .nil)
      · exact .two h .nil
    | [c, c1, c2] =>
      unfold xmlChars at h
      simp only [Bool.or_eq_true, Bool.and_eq_true, Bool.or_false] at h
      rcases h with ⟨h, h'⟩ | ⟨h, h'⟩ | ⟨h, h'⟩
      · exact .one h ((xmlChars_iff _).1 h')
      · exact .two h ((xmlChars_iff _).1 h')
      · exact .three h .nil
    | c :: c1 :: c2 :: c3 :: s =>
      unfold xmlChars at h
      simp only [Bool.or_eq_true, Bool.and_eq_true] at h
      rcases h with ⟨h, h'⟩ | ⟨h, h'⟩ | ⟨h, h'⟩ | ⟨h, h'⟩
      · exact .one h ((xmlChars_iff _).1 h')
      · exact .two h ((xmlChars_iff _).1 h')
      · exact .three h ((xmlChars_iff _).1 h')
      · exact .four h ((xmlChars_iff _).1 h')
  · intro h
    induction h with
    | nil => rfl
    | one h _ ih => unfold xmlChars; simp [h, ih]
    | two h _ ih => unfold xmlChars; simp [h, ih]
    | three h _ ih => unfold xmlChars; simp [h, ih]
    | four h _ ih => unfold xmlChars; simp [h, ih]

theorem XmlStr.append {a b : Bytes} (ha : XmlStr a) (hb : XmlStr b) : XmlStr (a ++ b) := by
  induction ha with
  | nil => exact hb
  | one h _ ih => exact .one h ih
  | two h _ ih => exact .two h ih
  | three h _ ih => exact .three h ih
  | four h _ ih => exact .four h ih

theorem escapeByte_high (c : UInt8) (h : 128 ≤ c) : escapeByte c = [c] := by
  rcases escapeByte_cases c with ⟨h', e⟩ | ⟨h', e⟩ | ⟨h', e⟩ | ⟨h', e⟩ | ⟨h1, h2, h3, h4, e⟩
  · subst h'; exact absurd h (by decide)
  · subst h'; exact absurd h (by decide)
  · subst h'; exact absurd h (by decide)
  · subst h'; exact absurd h (by decide)
  · exact e

theorem isCont_high {c : UInt8} (h : isCont c = true) : 128 ≤ c := by
  simp only [isCont, Bool.and_eq_true, decide_eq_true_eq] at h
  exact h.1

theorem high_trans {a c : UInt8} (h : a ≤ c) (h' : (128 : UInt8) ≤ a) : 128 ≤ c := by
  rw [UInt8.le_iff_toNat_le] at *
  omega

theorem XmlStr.escape {s : Bytes} (h : XmlStr s) : XmlStr (escapeText s) := by
  induction h with
  | nil => exact .nil
  | @one c s h _ ih =>
    rw [escapeText_cons]
    refine .append ?_ ih
    rcases escapeByte_cases c with ⟨h', e⟩ | ⟨h', e⟩ | ⟨h', e⟩ | ⟨h', e⟩ | ⟨h1, h2, h3, h4, e⟩
    · rw [e]; exact (xmlChars_iff _).1 (by decide)
    · rw [e]; exact (xmlChars_iff _).1 (by decide)
    · rw [e]; exact (xmlChars_iff _).1 (by decide)
    · rw [e]; exact (xmlChars_iff _).1 (by decide)
    · rw [e]; exact .one h .nil
  | @two c c1 s h _ ih =>
    have h0 := h
    simp only [char2, Bool.and_eq_true, decide_eq_true_eq] at h
    rw [escapeText_cons, escapeText_cons, escapeByte_high c (high_trans h.1.1 (by decide)),
      escapeByte_high c1 (isCont_high h.2)]
    exact .two h0 ih
  | @three c c1 c2 s h _ ih =>
    have h0 := h
    simp only [char3, Bool.and_eq_true, decide_eq_true_eq] at h
    rw [escapeText_cons, escapeText_cons, escapeText_cons,
      escapeByte_high c (high_trans h.1.1.1.1.1.1 (by decide)),
      escapeByte_high c1 (isCont_high h.1.1.1.1.2), escapeByte_high c2 (isCont_high h.1.1.1.2)]
    exact .three h0 ih
  | @four c c1 c2 c3 s h _ ih =>
    have h0 := h
    simp only [char4, Bool.and_eq_true, decide_eq_true_eq] at h
    rw [escapeText_cons, escapeText_cons, escapeText_cons, escapeText_cons,
      escapeByte_high c (high_trans h.1.1.1.1.1.1 (by decide)),
      escapeByte_high c1 (isCont_high h.1.1.1.1.2), escapeByte_high c2 (isCont_high h.1.1.1.2),
      escapeByte_high c3 (isCont_high h.1.1.2)]
    exact .four h0 ih

/-! ## Attributes -/

/-- The text the writer produces for attributes. -/
def attrsText (as : List (Bytes × Bytes)) : Bytes :=
  as.flatMap fun a => b!" " ++ a.1 ++ b!"=\"" ++ escapeText a.2 ++ b!"\""

theorem takeWhile_stop {p : UInt8 → Bool} (a : Bytes) (c : UInt8) (r : Bytes) (ha : ∀ x ∈ a, p x = true)
    (hc : p c = false) : (a ++ c :: r).takeWhile p = a ∧ (a ++ c :: r).dropWhile p = c :: r := by
  induction a with
  | nil => simp [hc]
  | cons x a ih =>
    have := ih fun y hy => ha y (by simp [hy])
    simp [ha x (by simp), this.1, this.2]

theorem isXmlName_chars {n : Bytes} (h : isXmlName n = true) : ∀ c ∈ n, isNameChar c = true := by
  unfold isXmlName at h
  split at h
  · simp at h
  · simp only [Bool.and_eq_true, List.all_eq_true] at h
    exact h.2

theorem readAttrs_spec (as : List (Bytes × Bytes)) (hn : ∀ a ∈ as, isXmlName a.1 = true)
    (hd : (as.map (·.1)).Nodup) (f : Nat) (hf : as.length < f) (c : UInt8) (rest : Bytes) (hc : c ≠ 32) :
    readAttrs f (attrsText as ++ c :: rest) =
      some (as.map fun a => (a.1, attrSpaces (lineEnds a.2)), c :: rest) := by
  induction as generalizing f with
  | nil =>
    obtain ⟨f, rfl⟩ : ∃ g, f = g + 1 := ⟨f - 1, by simp at hf; omega⟩
    simp only [attrsText, List.flatMap_nil, List.nil_append, List.map_nil]
    rw [readAttrs]
    rintro s hs
    simp at hs
    exact hc hs.1
  | cons a as ih =>
    obtain ⟨f, rfl⟩ : ∃ g, f = g + 1 := ⟨f - 1, by simp at hf; omega⟩
    obtain ⟨k, v⟩ := a
    have hk := hn (k, v) (by simp)
    simp only [List.map_cons, List.nodup_cons] at hd
    have e : attrsText ((k, v) :: as) ++ c :: rest =
        32 :: (k ++ 61 :: 34 :: (escapeText v ++ 34 :: (attrsText as ++ c :: rest))) := by
      simp [attrsText]
    have ih' := ih (fun a ha => hn a (by simp [ha])) hd.2 f (by simpa using hf)
    have h1 := takeWhile_stop (p := isNameChar) k 61
      (34 :: (escapeText v ++ 34 :: (attrsText as ++ c :: rest))) (isXmlName_chars hk) (by decide)
    have h2 := takeWhile_stop (p := fun x => decide (x ≠ 34)) (escapeText v) 34 (attrsText as ++ c :: rest)
      (fun x hx => by simpa using (escape_no_markup v x hx).2.2) (by decide)
    have hk2 : k ∉ (as.map fun a => (a.1, attrSpaces (lineEnds a.2))).map (·.1) := by
      simpa [List.map_map, Function.comp_def] using hd.1
    rw [e, readAttrs]
    simp only [h1.1, h1.2, h2.1, h2.2, readValue_escape, ih', Option.bind_eq_bind, Option.bind_some, hk,
      true_and, hk2, not_false_eq_true, if_true, List.map_cons]

/-! ## Tags -/

theorem readEvents_nil (f : Nat) : readEvents f [] = some [] := by
  cases f <;> rfl

theorem readEvents_stop (n : Bytes) (hn : isXmlName n = true) (f : Nat) (r : Bytes) :
    readEvents (f + 1) (b!"</" ++ n ++ b!">" ++ r) = (readEvents f r).map (.stop n :: ·) := by
  have h := takeWhile_stop (p := isNameChar) n 62 r (isXmlName_chars hn) (by decide)
  have e : b!"</" ++ n ++ b!">" ++ r = 60 :: 47 :: (n ++ 62 :: r) := by simp
  rw [e, readEvents]
  simp only [h.1, h.2, hn, if_true]

theorem xmlName_head {n : Bytes} (hn : isXmlName n = true) : ∃ c s, n = c :: s ∧ c ≠ 47 := by
  unfold isXmlName at hn
  split at hn
  · simp at hn
  · rename_i c s
    refine ⟨c, s, rfl, ?_⟩
    rintro rfl
    revert hn
    simp

theorem readEvents_tag (n : Bytes) (hn : isXmlName n = true) (as : List (Bytes × Bytes))
    (ha : ∀ a ∈ as, isXmlName a.1 = true) (hd : (as.map (·.1)).Nodup) (f : Nat) (r : Bytes) :
    readEvents (f + 1) (b!"<" ++ n ++ attrsText as ++ b!">" ++ r) = (readEvents f r).map
        (.start n (as.map fun a => (a.1, attrSpaces (lineEnds a.2))) :: ·) ∧
    readEvents (f + 1) (b!"<" ++ n ++ attrsText as ++ b!"/>" ++ r) = (readEvents f r).map
        fun es => .start n (as.map fun a => (a.1, attrSpaces (lineEnds a.2))) :: .stop n :: es := by
  have hlen : ∀ r : Bytes, as.length ≤ (attrsText as ++ r).length := by
    intro r
    clear ha hd
    induction as with
    | nil => simp
    | cons a as ih =>
      have : attrsText (a :: as) = b!" " ++ a.1 ++ b!"=\"" ++ escapeText a.2 ++ b!"\"" ++ attrsText as := by
        simp [attrsText]
      simp only [List.length_append] at ih
      simp only [this, List.length_append, List.length_cons, List.length_nil]
      omega
  have hstop : ∀ (c : UInt8) (r : Bytes), (c = 62 ∨ c = 47) →
      (n ++ (attrsText as ++ c :: r)).takeWhile isNameChar = n ∧
      (n ++ (attrsText as ++ c :: r)).dropWhile isNameChar = attrsText as ++ c :: r := by
    intro c r hc
    cases as with
    | nil =>
      rcases hc with rfl | rfl <;>
        exact takeWhile_stop (p := isNameChar) n _ r (isXmlName_chars hn) (by decide)
    | cons a as =>
      have : attrsText (a :: as) ++ c :: r =
          32 :: (a.1 ++ b!"=\"" ++ escapeText a.2 ++ b!"\"" ++ attrsText as ++ c :: r) := by
        simp [attrsText]
      rw [this]
      exact takeWhile_stop (p := isNameChar) n _ _ (isXmlName_chars hn) (by decide)
  obtain ⟨c0, n0, hc0, hne⟩ := xmlName_head hn
  have hnot : ∀ (t : Bytes) (s : Bytes), n ++ t = 47 :: s → False := by
    intro t s h
    rw [hc0] at h
    simp at h
    exact hne h.1
  constructor
  · have e : b!"<" ++ n ++ attrsText as ++ b!">" ++ r = 60 :: (n ++ (attrsText as ++ 62 :: r)) := by simp
    rw [e, readEvents]
    · simp only [(hstop 62 r (Or.inl rfl)).1, (hstop 62 r (Or.inl rfl)).2, hn, if_true]
      have h1 := hlen (62 :: r)
      have h2 : 0 < n.length := by rw [hc0]; simp
      rw [readAttrs_spec as ha hd _ (by rw [List.length_append]; omega) 62 r (by decide)]
      rfl
    · exact fun s h => hnot _ s h
  · have e : b!"<" ++ n ++ attrsText as ++ b!"/>" ++ r = 60 :: (n ++ (attrsText as ++ 47 :: 62 :: r)) := by
      simp
    rw [e, readEvents]
    · simp only [(hstop 47 _ (Or.inr rfl)).1, (hstop 47 _ (Or.inr rfl)).2, hn, if_true]
      have h1 := hlen (47 :: 62 :: r)
      have h2 : 0 < n.length := by rw [hc0]; simp
      rw [readAttrs_spec as ha hd _ (by rw [List.length_append]; omega) 47 (62 :: r) (by decide)]
      rfl
    · exact fun s h => hnot _ s h

theorem readEvents_text (raw t : Bytes) (hne : raw ≠ []) (hlt : ∀ c ∈ raw, c ≠ 60)
    (ht : readText raw = some t) (f : Nat) (r : Bytes) :
    readEvents (f + 1) (raw ++ 60 :: r) = (readEvents f (60 :: r)).map (.text t :: ·) := by
  have h := takeWhile_stop (p := fun x => decide (x ≠ 60)) raw 60 r (fun x hx => by simpa using hlt x hx)
    (by decide)
  obtain ⟨c, s, rfl⟩ : ∃ c s, raw = c :: s := List.exists_cons_of_ne_nil hne
  have hc : c ≠ 60 := hlt c (by simp)
  rw [List.cons_append, readEvents]
  · rw [← List.cons_append]
    simp only [h.1, h.2, ht, Option.bind_eq_bind, Option.bind_some]
    cases readEvents f (60 :: r) <;> rfl
  · simp
  · intro s h'
    simp at h'
    exact hc h'.1
  · intro s h'
    simp at h'
    exact hc h'.1

/-! ## Pieces of a document -/

/-- `s` reads as `evs`, whatever follows. -/
def Piece (s : Bytes) (evs : List XmlEvent) : Prop :=
  ∀ (F : Nat) (rest : Bytes) (es : List XmlEvent), (∀ f, F ≤ f → readEvents f rest = some es) →
    ∀ f, F + s.length ≤ f → readEvents f (s ++ rest) = some (evs ++ es)

theorem Piece.nil : Piece [] [] := fun F rest es h f hf => by simpa using h f (by simpa using hf)

theorem Piece.append {a b : Bytes} {x y : List XmlEvent} (ha : Piece a x) (hb : Piece b y) :
    Piece (a ++ b) (x ++ y) := by
  intro F rest es h f hf
  rw [List.append_assoc, List.append_assoc]
  refine ha (F + b.length) _ _ (hb F rest es h) f ?_
  simp only [List.length_append] at hf
  omega

theorem Piece.stop {n : Bytes} (hn : isXmlName n = true) : Piece (b!"</" ++ n ++ b!">") [.stop n] := by
  intro F rest es h f hf
  simp only [List.length_append, List.length_cons, List.length_nil] at hf
  obtain ⟨f, rfl⟩ : ∃ g, f = g + 1 := ⟨f - 1, by omega⟩
  rw [readEvents_stop n hn, h f (by omega)]
  rfl

/-- What a reader gets for attributes. -/
def attrsRead (as : List (Bytes × Bytes)) : List (Bytes × Bytes) :=
  as.map fun a => (a.1, attrSpaces (lineEnds a.2))

/-- Names of attributes that may be written. -/
def GoodAttrs (as : List (Bytes × Bytes)) : Prop :=
  (∀ a ∈ as, isXmlName a.1 = true) ∧ (as.map (·.1)).Nodup ∧ ∀ a ∈ as, xmlChars a.2 = true

theorem Piece.start {n : Bytes} (hn : isXmlName n = true) {as : List (Bytes × Bytes)} (ha : GoodAttrs as) :
    Piece (b!"<" ++ n ++ attrsText as ++ b!">") [.start n (attrsRead as)] := by
  intro F rest es h f hf
  simp only [List.length_append, List.length_cons, List.length_nil] at hf
  obtain ⟨f, rfl⟩ : ∃ g, f = g + 1 := ⟨f - 1, by omega⟩
  rw [(readEvents_tag n hn as ha.1 ha.2.1 f rest).1, h f (by omega)]
  rfl

theorem Piece.empty {n : Bytes} (hn : isXmlName n = true) {as : List (Bytes × Bytes)} (ha : GoodAttrs as) :
    Piece (b!"<" ++ n ++ attrsText as ++ b!"/>") [.start n (attrsRead as), .stop n] := by
  intro F rest es h f hf
  simp only [List.length_append, List.length_cons, List.length_nil] at hf
  obtain ⟨f, rfl⟩ : ∃ g, f = g + 1 := ⟨f - 1, by omega⟩
  rw [(readEvents_tag n hn as ha.1 ha.2.1 f rest).2, h f (by omega)]
  rfl

theorem Piece.text {raw t s : Bytes} {evs : List XmlEvent} (hne : raw ≠ []) (hlt : ∀ c ∈ raw, c ≠ 60)
    (ht : readText raw = some t) (hs : s.head? = some 60) (hp : Piece s evs) :
    Piece (raw ++ s) (.text t :: evs) := by
  intro F rest es h f hf
  simp only [List.length_append] at hf
  have : 0 < raw.length := List.length_pos_iff.2 hne
  obtain ⟨f, rfl⟩ : ∃ g, f = g + 1 := ⟨f - 1, by omega⟩
  have h2 := hp F rest es h f (by omega)
  obtain ⟨s', rfl⟩ : ∃ s', s = 60 :: s' := by
    cases s with
    | nil => simp at hs
    | cons c s => simp at hs; exact ⟨s, by rw [hs]⟩
  rw [List.append_assoc, List.cons_append, readEvents_text raw t hne hlt ht, ← List.cons_append, h2]
  rfl

end Semla
