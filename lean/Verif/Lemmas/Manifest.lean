import Verif.Lemmas.Xml
import Verif.Spec.Manifest

/-! # Lemmas: what the manifest writer writes, and how it reads -/

namespace Semla

open Spec

/-- The state behind a line end, with `pre` in front of it. -/
def atLine (pre : Bytes) (d : Nat) : XmlOut := ⟨pre ++ [10], d, false, true⟩

/-- The state inside a start tag. -/
def inTag (q : Bytes) (d : Nat) : XmlOut := ⟨q, d, true, false⟩

/-- A line end and indentation. -/
def ws (d : Nat) : Bytes := 10 :: List.replicate d 9

/-- XmlReady for a child element at depth `d` behind `pre`. -/
def XmlReady (x : XmlOut) (pre : Bytes) (d : Nat) : Prop :=
  x = atLine pre d ∨ ∃ q, x = inTag q d ∧ pre = q ++ b!">"

theorem openElem_ready {x : XmlOut} {pre : Bytes} {d : Nat} (h : XmlReady x pre d) (n : Bytes) :
    x.openElem n = inTag (pre ++ (ws d ++ (b!"<" ++ n))) (d + 1) := by
  rcases h with rfl | ⟨q, rfl, rfl⟩ <;>
    simp [XmlOut.openElem, XmlOut.endAttributes, XmlOut.addIndent, XmlOut.put, atLine, inTag, ws]

theorem attr_inTag (q : Bytes) (d : Nat) (k v : Bytes) :
    (inTag q d).attr k v = inTag (q ++ attrsText [(k, v)]) d := by
  simp [XmlOut.attr, XmlOut.put, inTag, attrsText]

theorem close_inTag (q : Bytes) (d : Nat) (n : Bytes) :
    (inTag q (d + 1)).closeElem n = atLine (q ++ b!"/>") d := by
  simp [XmlOut.closeElem, XmlOut.put, inTag, atLine]

theorem text_close_inline (q : Bytes) (d : Nat) (t n : Bytes) :
    ((inTag q (d + 1)).text t false).closeElem n =
      atLine (q ++ (b!">" ++ (escapeText t ++ (b!"</" ++ n ++ b!">")))) d := by
  simp [XmlOut.text, XmlOut.endAttributes, XmlOut.addIndent, XmlOut.closeElem, XmlOut.put, inTag, atLine]

theorem text_close_lines (q : Bytes) (d : Nat) (t n : Bytes) :
    ((inTag q (d + 1)).text t true).closeElem n =
      atLine (q ++ (b!">" ++ (ws (d + 1) ++ escapeText t ++ ws d ++ (b!"</" ++ n ++ b!">")))) d := by
  simp [XmlOut.text, XmlOut.endAttributes, XmlOut.addIndent, XmlOut.closeElem, XmlOut.put, inTag, atLine,
    ws]

theorem close_atLine (pre : Bytes) (d : Nat) (n : Bytes) :
    (atLine pre (d + 1)).closeElem n = atLine (pre ++ (ws d ++ (b!"</" ++ n ++ b!">"))) d := by
  simp [XmlOut.closeElem, XmlOut.addIndent, XmlOut.put, atLine, ws]

theorem attrsText_append (a b : List (Bytes × Bytes)) : attrsText (a ++ b) = attrsText a ++ attrsText b := by
  simp [attrsText]

theorem attrsText_nil : attrsText [] = [] := rfl

/-! ## Blocks: sequences of child elements, each on a line of its own -/

/-- `body` is a sequence of elements inside another one, with white space before each; `sig` is what is
to be read without that white space. -/
structure Block (body : Bytes) (sig : List XmlEvent) : Prop where
  chars : XmlStr body
  read : ∃ evs, Piece body evs ∧ (∀ es, significant (evs ++ es) = sig ++ significant es) ∧
    (∀ stack es, stack ≠ [] → nested stack true (evs ++ es) = nested stack true es) ∧
    ((body = [] ∧ evs = []) ∨ ∃ t n as r, isBlank t = true ∧ evs = .text t :: .start n as :: r)

theorem Block.nil : Block [] [] :=
  ⟨.nil, [], .nil, fun _ => rfl, fun _ _ _ => rfl, Or.inl ⟨rfl, rfl⟩⟩

theorem Block.append {a b : Bytes} {x y : List XmlEvent} (ha : Block a x) (hb : Block b y) :
    Block (a ++ b) (x ++ y) := by
  obtain ⟨h1, ev1, p1, s1, n1, f1⟩ := ha
  obtain ⟨h2, ev2, p2, s2, n2, f2⟩ := hb
  refine ⟨h1.append h2, ev1 ++ ev2, p1.append p2, fun es => ?_, fun st es hs => ?_, ?_⟩
  · rw [List.append_assoc, s1, s2, List.append_assoc]
  · rw [List.append_assoc, n1 _ _ hs, n2 _ _ hs]
  · rcases f1 with ⟨rfl, rfl⟩ | ⟨t, n, as, r, hb, rfl⟩
    · simpa using f2
    · exact Or.inr ⟨t, n, as, r ++ ev2, hb, by simp⟩

theorem ws_blank (d : Nat) : isBlank (ws d) = true := by
  simp [isBlank, ws]

theorem ws_read (d : Nat) : readText (ws d) = some (ws d) := by
  have h : ws d = escapeText (ws d) := by
    unfold ws
    rw [escapeText_cons]
    have : ∀ d, escapeText (List.replicate d 9) = List.replicate d 9 := by
      intro d
      induction d with
      | zero => rfl
      | succ d ih => rw [List.replicate_succ, escapeText_cons, ih]; rfl
    rw [this]
    rfl
  have h2 : lineEnds (ws d) = ws d := by
    have := lineEnds_plain (ws d) [] (by simp [ws])
    simpa [lineEnds] using this
  have h3 := readText_escape (ws d)
  rw [← h, h2] at h3
  exact h3

theorem ws_ne (d : Nat) : ws d ≠ [] := by simp [ws]

theorem ws_lt (d : Nat) : ∀ c ∈ ws d, c ≠ (60 : UInt8) := by
  intro c hc
  simp only [ws, List.mem_cons, List.mem_replicate] at hc
  rcases hc with rfl | ⟨-, rfl⟩ <;> decide

theorem ws_chars (d : Nat) : XmlStr (ws d) := by
  refine .one (by decide) ?_
  induction d with
  | zero => exact .nil
  | succ d ih => exact .one (by decide) ih

theorem nameChar_char1 (c : UInt8) : isNameChar c = true → char1 c = true := by
  have h : ∀ n : Fin 256, isNameChar (UInt8.ofNat n.val) = true → char1 (UInt8.ofNat n.val) = true := by
    decide +kernel
  have := h ⟨c.toNat, c.toNat_lt⟩
  simpa using this

theorem name_chars {n : Bytes} (h : isXmlName n = true) : XmlStr n := by
  have h2 := isXmlName_chars h
  clear h
  induction n with
  | nil => exact .nil
  | cons c n ih =>
    exact .one (nameChar_char1 c (h2 c (by simp))) (ih fun x hx => h2 x (by simp [hx]))

theorem lit_chars (s : Bytes) (h : xmlChars s = true) : XmlStr s := (xmlChars_iff s).1 h

theorem attrsText_chars {as : List (Bytes × Bytes)} (h : GoodAttrs as) : XmlStr (attrsText as) := by
  obtain ⟨h1, -, h3⟩ := h
  induction as with
  | nil => exact .nil
  | cons a as ih =>
    have e : attrsText (a :: as) = b!" " ++ a.1 ++ b!"=\"" ++ escapeText a.2 ++ b!"\"" ++ attrsText as := by
      simp [attrsText]
    rw [e]
    exact .append (.append (.append (.append (.append (lit_chars _ (by decide))
      (name_chars (h1 a (by simp)))) (lit_chars _ (by decide)))
      ((xmlChars_iff _).1 (h3 a (by simp))).escape) (lit_chars _ (by decide)))
      (ih (fun x hx => h1 x (by simp [hx])) (fun x hx => h3 x (by simp [hx])))

theorem nested_text {stack : List Bytes} (h : stack ≠ []) (seen : Bool) (t : Bytes) (es : List XmlEvent) :
    nested stack seen (.text t :: es) = nested stack seen es := by
  cases stack with
  | nil => exact absurd rfl h
  | cons m st => simp [nested]

theorem nested_start {stack : List Bytes} (h : stack ≠ []) (n : Bytes) (as : List (Bytes × Bytes))
    (es : List XmlEvent) : nested stack true (.start n as :: es) = nested (n :: stack) true es := by
  cases stack with
  | nil => exact absurd rfl h
  | cons m st => simp [nested]

theorem nested_stop (n : Bytes) (stack : List Bytes) (es : List XmlEvent) :
    nested (n :: stack) true (.stop n :: es) = nested stack true es := by
  simp [nested]

theorem sig_blank {t : Bytes} (h : isBlank t = true) (es : List XmlEvent) :
    significant (.text t :: es) = significant es := by
  rw [significant, if_pos h]

theorem sig_stop (n : Bytes) (es : List XmlEvent) :
    significant (.stop n :: es) = .stop n :: significant es := by
  rw [significant]
  all_goals (intros; simp_all)

theorem sig_start_start (n m : Bytes) (as bs : List (Bytes × Bytes)) (t : Bytes)
    (es : List XmlEvent) : significant (.start n as :: .text t :: .start m bs :: es) =
      .start n as :: significant (.text t :: .start m bs :: es) := by
  simp [significant]

theorem sig_start_stop (n m : Bytes) (as : List (Bytes × Bytes)) (es : List XmlEvent) :
    significant (.start n as :: .stop m :: es) = .start n as :: .stop m :: significant es := by
  rw [significant, sig_stop]
  all_goals (intros; simp_all)

theorem sig_leaf (n m : Bytes) (as : List (Bytes × Bytes)) (t : Bytes) (es : List XmlEvent) :
    significant (.start n as :: .text t :: .stop m :: es) =
      .start n as :: .text t :: .stop m :: significant es := by
  rw [significant]

/-- An element without content. -/
theorem Block.leaf (d : Nat) {n : Bytes} (hn : isXmlName n = true) {as : List (Bytes × Bytes)}
    (ha : GoodAttrs as) :
    Block (ws d ++ (b!"<" ++ n ++ attrsText as ++ b!"/>")) [.start n (attrsRead as), .stop n] := by
  refine ⟨?_, [.text (ws d), .start n (attrsRead as), .stop n], ?_, fun es => ?_, fun st es hs => ?_, ?_⟩
  · exact (ws_chars d).append (.append (.append (.append (lit_chars _ (by decide)) (name_chars hn))
      (attrsText_chars ha)) (lit_chars _ (by decide)))
  · exact Piece.text (ws_ne d) (ws_lt d) (ws_read d) (by simp) (Piece.empty hn ha)
  · simp only [List.cons_append, List.nil_append]
    rw [sig_blank (ws_blank d), sig_start_stop]
  · simp only [List.cons_append, List.nil_append]
    rw [nested_text hs, nested_start hs, nested_stop]
  · exact Or.inr ⟨_, _, _, _, ws_blank d, rfl⟩

/-- An element with text. -/
theorem Block.text (d : Nat) {n : Bytes} (hn : isXmlName n = true) {raw t : Bytes} (hne : raw ≠ [])
    (hlt : ∀ c ∈ raw, c ≠ (60 : UInt8)) (hr : readText raw = some t) (hc : XmlStr raw) :
    Block (ws d ++ (b!"<" ++ n ++ b!">" ++ (raw ++ (b!"</" ++ n ++ b!">"))))
      [.start n [], .text t, .stop n] := by
  have ga : GoodAttrs [] := by simp [GoodAttrs]
  refine ⟨?_, [.text (ws d), .start n [], .text t, .stop n], ?_, fun es => ?_, fun st es hs => ?_, ?_⟩
  · exact (ws_chars d).append (.append (.append (.append (lit_chars _ (by decide)) (name_chars hn))
      (lit_chars _ (by decide))) (.append hc (.append (.append (lit_chars _ (by decide))
      (name_chars hn)) (lit_chars _ (by decide)))))
  · have h1 := Piece.start hn ga
    rw [attrsText_nil, List.append_nil] at h1
    have h2 : Piece (raw ++ (b!"</" ++ n ++ b!">")) [.text t, .stop n] :=
      Piece.text hne hlt hr (by simp) (Piece.stop hn)
    exact Piece.text (ws_ne d) (ws_lt d) (ws_read d) (by simp) (h1.append h2)
  · simp only [List.cons_append, List.nil_append]
    rw [sig_blank (ws_blank d), sig_leaf]
  · simp only [List.cons_append, List.nil_append]
    rw [nested_text hs, nested_start hs, nested_text (by simp), nested_stop]
  · exact Or.inr ⟨_, _, _, _, ws_blank d, rfl⟩

/-- An element with child elements. -/
theorem Block.parent (d : Nat) {n : Bytes} (hn : isXmlName n = true) {as : List (Bytes × Bytes)}
    (ha : GoodAttrs as) {body : Bytes} {sig : List XmlEvent} (hb : Block body sig) (hne : body ≠ []) :
    Block (ws d ++ (b!"<" ++ n ++ attrsText as ++ b!">" ++ (body ++ (ws d ++ (b!"</" ++ n ++ b!">")))))
      (.start n (attrsRead as) :: sig ++ [.stop n]) := by
  obtain ⟨hc, evs, hp, hs, hn', hf⟩ := hb
  have hf' : ∃ t m bs r, isBlank t = true ∧ evs = .text t :: .start m bs :: r := by
    rcases hf with ⟨h, -⟩ | hf
    · exact absurd h hne
    · exact hf
  obtain ⟨t, m, bs, r, ht, he⟩ := hf'
  refine ⟨?_, .text (ws d) :: .start n (attrsRead as) :: (evs ++ [.text (ws d), .stop n]), ?_,
    fun es => ?_, fun st es hst => ?_, ?_⟩
  · exact (ws_chars d).append (.append (.append (.append (.append (lit_chars _ (by decide))
      (name_chars hn)) (attrsText_chars ha)) (lit_chars _ (by decide))) (.append hc
      (.append (ws_chars d) (.append (.append (lit_chars _ (by decide)) (name_chars hn))
      (lit_chars _ (by decide))))))
  · have h2 : Piece (ws d ++ (b!"</" ++ n ++ b!">")) [.text (ws d), .stop n] :=
      Piece.text (ws_ne d) (ws_lt d) (ws_read d) (by simp) (Piece.stop hn)
    exact Piece.text (ws_ne d) (ws_lt d) (ws_read d) (by simp)
      ((Piece.start hn ha).append (hp.append h2))
  · have : significant (.start n (attrsRead as) :: (evs ++ ([.text (ws d), .stop n] ++ es))) =
        .start n (attrsRead as) :: significant (evs ++ ([.text (ws d), .stop n] ++ es)) := by
      rw [he]
      exact sig_start_start _ _ _ _ _ _
    simp only [List.cons_append, List.append_assoc]
    rw [sig_blank (ws_blank d)]
    rw [show evs ++ ([.text (ws d), .stop n] ++ es) = evs ++ (.text (ws d) :: .stop n :: es) from rfl] at this
    simp only [List.nil_append]
    rw [this, hs, sig_blank (ws_blank d), sig_stop]
  · simp only [List.cons_append, List.append_assoc, List.nil_append]
    rw [nested_text hst, nested_start hst, hn' _ _ (by simp), nested_text (by simp), nested_stop]
  · exact Or.inr ⟨_, _, _, _, ws_blank d, rfl⟩

end Semla

namespace Semla

open Spec

/-! ## The parts of the writer -/

/-- `x'` is `x` with a block of elements added. -/
def Adds (x : XmlOut) (pre : Bytes) (d : Nat) (sig : List XmlEvent) (x' : XmlOut) : Prop :=
  ∃ body, Block body sig ∧ XmlReady x' (pre ++ body) d ∧ (x = atLine pre d ∨ body ≠ [] →
    x' = atLine (pre ++ body) d)

theorem Adds.skip {x : XmlOut} {pre : Bytes} {d : Nat} (h : XmlReady x pre d) : Adds x pre d [] x :=
  ⟨[], .nil, by simpa using h, by
    rintro (h | h)
    · simpa using h
    · exact absurd rfl h⟩

theorem adds_leaf {x : XmlOut} {pre : Bytes} {d : Nat} {n : Bytes}
    (hn : isXmlName n = true) {as : List (Bytes × Bytes)} (ha : GoodAttrs as) (x' : XmlOut)
    (hx : x' = (inTag (pre ++ (ws d ++ (b!"<" ++ n)) ++ attrsText as) (d + 1)).closeElem n) :
    Adds x pre d [.start n (attrsRead as), .stop n] x' ∧ ∃ body, x' = atLine (pre ++ body) d := by
  rw [close_inTag] at hx
  have e : pre ++ (ws d ++ (b!"<" ++ n)) ++ attrsText as ++ b!"/>" =
      pre ++ (ws d ++ (b!"<" ++ n ++ attrsText as ++ b!"/>")) := by simp
  rw [e] at hx
  exact ⟨⟨_, Block.leaf d hn ha, Or.inl hx, fun _ => hx⟩, _, hx⟩

theorem escape_ne {v : Bytes} (h : v ≠ []) : escapeText v ≠ [] := by
  obtain ⟨c, s, rfl⟩ := List.exists_cons_of_ne_nil h
  rw [escapeText_cons]
  rcases escapeByte_cases c with ⟨h', e⟩ | ⟨h', e⟩ | ⟨h', e⟩ | ⟨h', e⟩ | ⟨h1, h2, h3, h4, e⟩ <;>
    rw [e] <;> simp

theorem adds_valueText {x : XmlOut} {pre : Bytes} (h : XmlReady x pre 2) (d : ArgData)
    (n arg : Bytes) (hv : ∀ v, getValueOf d arg = some v → v ≠ [] ∧ xmlChars v = true)
    (hn : isXmlName n = true) (sep : Bool) :
    Adds x pre 2 (ifGiven (getValueOf d arg) fun v =>
      textElem n (asText (if sep then ownLine v else v))) (x.valueText d n arg sep) := by
  unfold XmlOut.valueText
  cases hg : getValueOf d arg with
  | none => exact .skip h
  | some v =>
    obtain ⟨hne, hc⟩ := hv v hg
    simp only [ifGiven, textElem]
    rw [openElem_ready h]
    cases sep with
    | false =>
      have e := text_close_inline (pre ++ (ws 2 ++ (b!"<" ++ n))) 2 v n
      have e2 : pre ++ (ws 2 ++ (b!"<" ++ n)) ++ (b!">" ++ (escapeText v ++ (b!"</" ++ n ++ b!">"))) =
          pre ++ (ws 2 ++ (b!"<" ++ n ++ b!">" ++ (escapeText v ++ (b!"</" ++ n ++ b!">")))) := by simp
      rw [e2] at e
      refine ⟨_, Block.text 2 hn (escape_ne hne) (fun c hc => (escape_no_markup v c hc).1)
        (by simpa [asText] using readText_escape v) ((xmlChars_iff v).1 hc).escape, ?_⟩
      exact ⟨Or.inl e, fun _ => e⟩
    | true =>
      have e := text_close_lines (pre ++ (ws 2 ++ (b!"<" ++ n))) 2 v n
      have e2 : pre ++ (ws 2 ++ (b!"<" ++ n)) ++
          (b!">" ++ (ws 3 ++ escapeText v ++ ws 2 ++ (b!"</" ++ n ++ b!">"))) =
          pre ++ (ws 2 ++ (b!"<" ++ n ++ b!">" ++ ((ws 3 ++ escapeText v ++ ws 2) ++
            (b!"</" ++ n ++ b!">")))) := by simp
      rw [show (2 : Nat) + 1 = 3 from rfl, e2] at e
      have e3 : ws 3 ++ escapeText v ++ ws 2 = escapeText (ownLine v) := by
        rw [ownLine, escapeText_append, escapeText_append]
        rfl
      refine ⟨_, Block.text 2 hn (raw := ws 3 ++ escapeText v ++ ws 2) (by simp [ws]) ?_
        (t := asText (ownLine v)) ?_ ?_, Or.inl e, fun _ => e⟩
      · rw [e3]
        exact fun c hc => (escape_no_markup _ c hc).1
      · rw [e3]
        exact readText_escape _
      · exact .append (.append (ws_chars 3) ((xmlChars_iff v).1 hc).escape) (ws_chars 2)

theorem valueAttribute_inTag (q : Bytes) (dd : Nat) (d : ArgData) (k arg : Bytes) :
    (inTag q dd).valueAttribute d k arg =
      inTag (q ++ attrsText (ifGiven (getValueOf d arg) fun v => [(k, v)])) dd := by
  unfold XmlOut.valueAttribute
  cases getValueOf d arg with
  | none => simp [ifGiven, attrsText]
  | some v => exact attr_inTag q dd k v

theorem attrsRead_append (a b : List (Bytes × Bytes)) : attrsRead (a ++ b) = attrsRead a ++ attrsRead b := by
  simp [attrsRead]

theorem attrsRead_ifGiven (o : Option Bytes) (k : Bytes) :
    attrsRead (ifGiven o fun v => [(k, v)]) = ifGiven o fun v => [(k, asValue v)] := by
  cases o <;> rfl

theorem adds_valueElem {x : XmlOut} {pre : Bytes} (h : XmlReady x pre 2) (d : ArgData)
    (n k arg : Bytes) (hv : ∀ v, getValueOf d arg = some v → v ≠ [] ∧ xmlChars v = true)
    (hn : isXmlName n = true) (hk : isXmlName k = true) :
    Adds x pre 2 (ifGiven (getValueOf d arg) fun v => leafElem n [(k, asValue v)])
      (x.valueElem d n k arg) := by
  unfold XmlOut.valueElem
  cases hg : getValueOf d arg with
  | none => exact .skip h
  | some v =>
    simp only [ifGiven]
    refine (adds_leaf (as := [(k, v)]) hn ?_ _ ?_).1
    · exact ⟨by simpa using hk, by simp, by simpa using (hv v hg).2⟩
    · rw [openElem_ready h, attr_inTag]

theorem Adds.trans {x x1 x2 : XmlOut} {pre : Bytes} {d : Nat} {s1 s2 : List XmlEvent}
    (h1 : Adds x pre d s1 x1) (h2 : ∀ pre1, XmlReady x1 pre1 d → Adds x1 pre1 d s2 x2) :
    Adds x pre d (s1 ++ s2) x2 := by
  obtain ⟨b1, hb1, r1, a1⟩ := h1
  obtain ⟨b2, hb2, r2, a2⟩ := h2 _ r1
  refine ⟨b1 ++ b2, hb1.append hb2, by simpa using r2, fun h => ?_⟩
  rw [List.append_assoc] at a2
  apply a2
  by_cases hb : b2 = []
  · subst hb
    left
    apply a1
    rcases h with h | h
    · exact Or.inl h
    · exact Or.inr (by simpa using h)
  · exact Or.inr hb

theorem executables_adds (lves : List (Bytes × Bytes))
    (hl : ∀ l ∈ lves, extractPlatform l.1 = l.2 ∧ xmlChars l.1 = true ∧ xmlChars l.2 = true ∧
      asValue l.1 = l.1 ∧ asValue l.2 = l.2) (x : XmlOut) (pre : Bytes) (h : XmlReady x pre 3) :
    Adds x pre 3 (lves.flatMap fun l => leafElem b!"executable" [(b!"path", b!".library/" ++ l.1),
      (b!"platform", l.2), (b!"licensing", b!"true")])
      ((lves.map (·.1)).foldl XmlOut.executable x) := by
  induction lves generalizing x pre with
  | nil => exact .skip h
  | cons l lves ih =>
    obtain ⟨hp, hc1, hc2, hv1, hv2⟩ := hl l (by simp)
    simp only [List.map_cons, List.foldl_cons, List.flatMap_cons]
    refine Adds.trans ?_ fun pre1 h1 => ih (fun l hl' => hl l (by simp [hl'])) _ _ h1
    have hva : ∀ v, asValue (b!".library/" ++ v) = b!".library/" ++ asValue v := by
      intro v
      simp only [asValue]
      rw [lineEnds_plain _ _ (by decide)]
      simp [attrSpaces]
    have e : leafElem b!"executable" [(b!"path", b!".library/" ++ l.1), (b!"platform", l.2),
        (b!"licensing", b!"true")] = [.start b!"executable" (attrsRead [(b!"path", b!".library/" ++ l.1),
        (b!"platform", l.2), (b!"licensing", b!"true")]), .stop b!"executable"] := by
      have e1 := hva l.1
      rw [hv1] at e1
      simp only [asValue] at e1 hv2
      simp only [leafElem, attrsRead, List.map_cons, List.map_nil, e1, hv2]
      rfl
    rw [e]
    refine (adds_leaf (by decide) ?_ _ ?_).1
    · refine ⟨by simp; decide, by simp, ?_⟩
      simp only [List.mem_cons, List.not_mem_nil, or_false]
      rintro a (rfl | rfl | rfl)
      · exact (xmlChars_iff _).2 (.append (lit_chars _ (by decide)) ((xmlChars_iff _).1 hc1))
      · exact hc2
      · decide
    · unfold XmlOut.executable
      rw [openElem_ready h, attr_inTag, attr_inTag, attr_inTag, hp]
      simp [attrsText]


theorem Block.sig_nil {sig : List XmlEvent} (h : Block [] sig) : sig = [] := by
  obtain ⟨-, evs, hp, hs, -, -⟩ := h
  have h1 := hp 0 [] [] (fun f _ => readEvents_nil f) 0 (by simp)
  simp only [List.append_nil, readEvents_nil, Option.some.injEq] at h1
  subst h1
  have h2 := hs []
  simpa [significant] using h2

theorem adds_encryption {x : XmlOut} {pre : Bytes} (h : XmlReady x pre 2) (d : ArgData)
    (lves : List (Bytes × Bytes))
    (hl : ∀ l ∈ lves, extractPlatform l.1 = l.2 ∧ xmlChars l.1 = true ∧ xmlChars l.2 = true ∧
      asValue l.1 = l.1 ∧ asValue l.2 = l.2) :
    Adds x pre 2 (match (if usingEncryption d then some lves else none) with
      | some ls => [.start b!"encryption" []] ++
        ls.flatMap (fun l => leafElem b!"executable" [(b!"path", b!".library/" ++ l.1), (b!"platform", l.2),
          (b!"licensing", b!"true")]) ++ [.stop b!"encryption"]
      | none => []) (x.encryption d (lves.map (·.1))) := by
  unfold XmlOut.encryption
  by_cases hu : usingEncryption d = true
  · simp only [hu, if_true]
    have ga : GoodAttrs [] := by simp [GoodAttrs]
    rw [openElem_ready h]
    cases lves with
    | nil =>
      refine (adds_leaf (as := []) (by decide) ga _ ?_).1
      simp [attrsText]
    | cons l lves =>
      obtain ⟨body, hb, hr, ha⟩ := executables_adds (l :: lves) hl
        (inTag (pre ++ (ws 2 ++ (b!"<" ++ b!"encryption"))) (2 + 1))
        (pre ++ (ws 2 ++ (b!"<" ++ b!"encryption")) ++ b!">") (Or.inr ⟨_, rfl, rfl⟩)
      have hne : body ≠ [] := by
        rintro rfl
        have := hb.sig_nil
        simp [leafElem] at this
      rw [ha (Or.inr hne), close_atLine]
      have e : pre ++ (ws 2 ++ (b!"<" ++ b!"encryption")) ++ b!">" ++ body ++
          (ws 2 ++ (b!"</" ++ b!"encryption" ++ b!">")) =
          pre ++ (ws 2 ++ (b!"<" ++ b!"encryption" ++ attrsText [] ++ b!">" ++
            (body ++ (ws 2 ++ (b!"</" ++ b!"encryption" ++ b!">"))))) := by
        simp [attrsText]
      rw [e]
      have hp := Block.parent 2 (n := b!"encryption") (by decide) ga hb hne
      exact ⟨_, by simpa [attrsRead] using hp, Or.inl rfl, fun _ => rfl⟩
  · simp only [hu]
    exact .skip h

theorem adds_icon {x : XmlOut} {pre : Bytes} (h : XmlReady x pre 2) (d : ArgData)
    (icon : Option Bytes) (hi : ∀ p, icon = some p → xmlChars p = true)
    (hic : containsKey d b!"icon" = icon.isSome) :
    ∃ x', x.iconElem d icon = .ok x' ∧
      Adds x pre 2 (ifGiven icon (fun p => leafElem b!"icon" [(b!"file", asValue p)])) x' := by
  unfold XmlOut.iconElem
  cases icon with
  | none =>
    simp only [Option.isSome_none] at hic
    simp only [hic]
    exact ⟨x, rfl, .skip h⟩
  | some p =>
    simp only [Option.isSome_some] at hic
    simp only [hic, if_true]
    refine ⟨_, rfl, (adds_leaf (as := [(b!"file", p)]) (by decide) ?_ _ ?_).1⟩
    · exact ⟨by simp; decide, by simp, by simpa using hi p rfl⟩
    · rw [openElem_ready h, attr_inTag]

/-- The elements inside `library`. -/
theorem library_adds (d : ArgData)
    (hv : ∀ k ∈ manifestArgs, ∀ v, getValueOf d k = some v → v ≠ [] ∧ xmlChars v = true)
    (hver : (getValueOf d b!"version").isSome = true)
    (lves : List (Bytes × Bytes))
    (hl : ∀ l ∈ lves, extractPlatform l.1 = l.2 ∧ xmlChars l.1 = true ∧ xmlChars l.2 = true ∧
      asValue l.1 = l.1 ∧ asValue l.2 = l.2)
    (icon : Option Bytes) (hi : ∀ p, icon = some p → xmlChars p = true)
    (hic : containsKey d b!"icon" = icon.isSome) (q id : Bytes) (hid : xmlChars id = true) (x : XmlOut)
    (hx : x = atLine q 1) :
    ∃ x1 body, ((x.libraryHeader d id).encryption d (lves.map (·.1))).iconElem d icon = .ok x1 ∧
      x1 = atLine (q ++ (ws 1 ++ (b!"<library" ++ attrsText ([(b!"id", id)] ++
        ifGiven (getValueOf d b!"enabled") fun v => [(b!"enabled", v)]) ++ b!">" ++ body))) 2 ∧
      body ≠ [] ∧
      Block body (libraryParts (getValueOf d) (if usingEncryption d then some lves else none) icon) := by
  obtain ⟨ver, hver⟩ := Option.isSome_iff_exists.1 hver
  have hr0 : XmlReady x q 1 := Or.inl hx
  generalize hq : q ++ (ws 1 ++ (b!"<library" ++ attrsText ([(b!"id", id)] ++
        ifGiven (getValueOf d b!"enabled") fun v => [(b!"enabled", v)]))) = q1
  have e1 : ((x.openElem b!"library").attr b!"id" id).valueAttribute d b!"enabled" b!"enabled" =
      inTag q1 2 := by
    rw [openElem_ready hr0, attr_inTag, valueAttribute_inTag, ← hq]
    simp [attrsText]
  -- version has no optional part
  have hversion : ∀ x pre, XmlReady x pre 2 → Adds x pre 2 (ifGiven (getValueOf d b!"version") (fun v =>
      leafElem b!"version" ([(b!"number", asValue v)] ++
        ifGiven (getValueOf d b!"build") (fun v => [(b!"build", asValue v)]) ++
        ifGiven (getValueOf d b!"date") (fun v => [(b!"date", asValue v)]))))
      (match getValueOf d b!"version" with
        | some v => ((((x.openElem b!"version").attr b!"number" v).valueAttribute d b!"build"
            b!"build").valueAttribute d b!"date" b!"date").closeElem b!"version"
        | none => x) := by
    intro x pre h
    rw [hver]
    simp only [ifGiven.eq_1]
    have ha : GoodAttrs ([(b!"number", ver)] ++
        ifGiven (getValueOf d b!"build") (fun v => [(b!"build", v)]) ++
        ifGiven (getValueOf d b!"date") (fun v => [(b!"date", v)])) := by
      have hb := hv b!"build" (by decide)
      have hd := hv b!"date" (by decide)
      have hn := hv b!"version" (by decide) ver hver
      cases h1 : getValueOf d b!"build" with
      | none =>
        cases h2 : getValueOf d b!"date" with
        | none => exact ⟨by simp [ifGiven]; decide, by simp [ifGiven], by simpa [ifGiven] using hn.2⟩
        | some w =>
          exact ⟨by simp [ifGiven]; decide, by simp [ifGiven], by
            simpa [ifGiven] using ⟨hn.2, (hd w h2).2⟩⟩
      | some u =>
        cases h2 : getValueOf d b!"date" with
        | none => exact ⟨by simp [ifGiven]; decide, by simp [ifGiven], by
            simpa [ifGiven] using ⟨hn.2, (hb u h1).2⟩⟩
        | some w =>
          exact ⟨by simp [ifGiven]; decide, by simp [ifGiven], by
            simpa [ifGiven] using ⟨hn.2, (hb u h1).2, (hd w h2).2⟩⟩
    have hl := adds_leaf (x := x) (pre := pre) (d := 2) (n := b!"version") (by decide) ha _ rfl
    rw [attrsRead_append, attrsRead_append, attrsRead_ifGiven, attrsRead_ifGiven] at hl
    rw [openElem_ready h, attr_inTag, valueAttribute_inTag, valueAttribute_inTag]
    rw [attrsText_append, attrsText_append] at hl
    simp only [← List.append_assoc] at hl ⊢
    exact hl.1
  have r1 : XmlReady (inTag q1 2) (q1 ++ b!">") 2 := Or.inr ⟨q1, rfl, rfl⟩
  have ht := adds_valueText r1 d b!"title" b!"title" (hv _ (by decide)) (by decide) false
  have hde := ht.trans fun p hp => adds_valueText hp d b!"description" b!"description" (hv _ (by decide)) (by decide) true
  have hve := hde.trans fun p hp => hversion _ p hp
  have hla := hve.trans fun p hp => adds_valueElem hp d b!"language" b!"version" b!"language" (hv _ (by decide)) (by decide)
    (by decide)
  have hco := hla.trans fun p hp => adds_valueText hp d b!"copyright" b!"copyright" (hv _ (by decide)) (by decide) true
  have hli := hco.trans fun p hp => adds_valueText hp d b!"license" b!"license" (hv _ (by decide)) (by decide) true
  have hen := hli.trans fun p hp => adds_encryption hp d lves hl
  obtain ⟨b0, hb0, hr0', -⟩ := (fun h => h : _ → _) hen
  obtain ⟨x1, hx1, -⟩ := adds_icon hr0' d icon hi hic
  have hic2 := hen.trans (x2 := x1) fun p hp => by
    obtain ⟨x1', hx1', ha⟩ := adds_icon hp d icon hi hic
    rw [hx1] at hx1'
    injection hx1' with h'
    rw [h']
    exact ha
  obtain ⟨body, hb, -, ha⟩ := hic2
  have hne : body ≠ [] := by
    rintro rfl
    have := hb.sig_nil
    simp [hver, ifGiven, leafElem] at this
  refine ⟨x1, body, ?_, ?_, hne, ?_⟩
  · rw [← hx1]
    unfold XmlOut.libraryHeader
    dsimp only
    rw [e1]
    rfl
  · rw [ha (Or.inr hne), ← hq]
    simp
  · simp only [if_true, Bool.false_eq_true, if_false] at hb
    exact hb

/-- A document with one root element around a block. -/
theorem root_doc {n : Bytes} (hn : isXmlName n = true) {body : Bytes} {sig : List XmlEvent}
    (hb : Block body sig) (hne : body ≠ []) :
    ∃ es, readXml (b!"<?xml version=\"1.0\" encoding=\"utf-8\"?>" ++ (ws 0 ++ (b!"<" ++ n ++
      attrsText [] ++ b!">" ++ (body ++ (ws 0 ++ (b!"</" ++ n ++ b!">"))))) ++ [10]) = some es ∧
      significant es = .start n [] :: sig ++ [.stop n] := by
  have ga : GoodAttrs [] := by simp [GoodAttrs]
  have hp := hb.parent 0 hn ga hne
  obtain ⟨hc, evs, hpc, hs, hns, hf⟩ := hb
  obtain ⟨t, m, bs, r, ht, he⟩ : ∃ t m bs r, isBlank t = true ∧ evs = .text t :: .start m bs :: r := by
    rcases hf with ⟨h, -⟩ | hf
    · exact absurd h hne
    · exact hf
  have h2 : Piece (ws 0 ++ (b!"</" ++ n ++ b!">")) [.text (ws 0), .stop n] :=
    Piece.text (ws_ne 0) (ws_lt 0) (ws_read 0) (by simp) (Piece.stop hn)
  have h3 := Piece.text (ws_ne 0) (ws_lt 0) (ws_read 0) (by simp)
      ((Piece.start hn ga).append (hpc.append h2))
  have h4 : ∀ f, 1 ≤ f → readEvents f [10] = some [.text [10]] := by
    intro f hf
    obtain ⟨g, rfl⟩ : ∃ g, f = g + 1 := ⟨f - 1, by omega⟩
    simp [readEvents, readText, lineEnds, unescape]
  refine ⟨.text (ws 0) :: .start n [] :: (evs ++ [.text (ws 0), .stop n, .text [10]]), ?_, ?_⟩
  · unfold readXml
    dsimp only
    rw [if_pos]
    · rw [List.append_assoc, List.drop_append]
      rw [List.drop_of_length_le (Nat.le_refl _), List.nil_append, Nat.sub_self, List.drop_zero]
      rw [h3 1 [10] _ h4]
      · have hnest : nested [] false (.text (ws 0) :: .start n [] ::
            (evs ++ [.text (ws 0), .stop n, .text [10]])) = true := by
          have hb10 : isBlank [10] = true := by decide
          simp only [nested, ws_blank, List.isEmpty_nil, List.isEmpty_cons]
          rw [hns _ _ (by simp), nested_text (by simp), nested_stop]
          simp [nested, hb10]
        have e : [XmlEvent.text (ws 0)] = [XmlEvent.text (ws 0)] := rfl
        simp only [attrsRead, List.map_nil, List.append_assoc, List.cons_append, List.nil_append,
          Option.bind_eq_bind, Option.bind_some, Option.pure_def]
        rw [if_pos hnest]
      · simp only [List.length_append, List.length_cons, List.length_nil]
        omega
    · refine ⟨?_, ?_⟩
      · rw [List.append_assoc]
        exact List.prefix_append _ _
      · exact (xmlChars_iff _).2 (.append (.append (lit_chars _ (by decide)) hp.chars)
          (lit_chars _ (by decide)))
  · rw [sig_blank (ws_blank 0)]
    have : significant (.start n [] :: (evs ++ [.text (ws 0), .stop n, .text [10]])) =
        .start n [] :: significant (evs ++ [.text (ws 0), .stop n, .text [10]]) := by
      rw [he]
      exact sig_start_start _ _ _ _ _ _
    rw [this, hs, sig_blank (ws_blank 0), sig_stop, sig_blank (by decide)]
    simp [significant]

/-- The whole manifest, without included files. -/
theorem createManifest_reads (d : ArgData)
    (hv : ∀ k ∈ manifestArgs, ∀ v, getValueOf d k = some v → v ≠ [] ∧ xmlChars v = true)
    (hver : (getValueOf d b!"version").isSome = true)
    (lves : List (Bytes × Bytes))
    (hl : ∀ l ∈ lves, extractPlatform l.1 = l.2 ∧ xmlChars l.1 = true ∧ xmlChars l.2 = true ∧
      asValue l.1 = l.1 ∧ asValue l.2 = l.2)
    (icon : Option Bytes) (hi : ∀ p, icon = some p → xmlChars p = true)
    (hic : containsKey d b!"icon" = icon.isSome) (id : Bytes) (hid : xmlChars id = true)
    (read : Bytes → Option Bytes) (htools : getValueOf d b!"tools" = none)
    (hdeps : getValueOf d b!"dependencies" = none) :
    ∃ doc es, createManifest d id (lves.map (·.1)) icon read = .ok doc ∧ readXml doc = some es ∧
      significant es = manifestParts (getValueOf d) id (if usingEncryption d then some lves else none)
        icon := by
  have ga : GoodAttrs [] := by simp [GoodAttrs]
  have gm : GoodAttrs [(b!"version", b!"1.0")] := by
    refine ⟨?_, ?_, ?_⟩ <;> simp <;> decide
  have hdecl : (⟨[], 0, false, true⟩ : XmlOut).put b!"<?xml version=\"1.0\" encoding=\"utf-8\"?>\n" =
      atLine b!"<?xml version=\"1.0\" encoding=\"utf-8\"?>" 0 := rfl
  generalize hdec : b!"<?xml version=\"1.0\" encoding=\"utf-8\"?>" = decl at hdecl
  have hh : (⟨[], 0, false, true⟩ : XmlOut).header =
      atLine (decl ++ (ws 0 ++ (b!"<archive" ++ b!">" ++
        (ws 1 ++ (b!"<manifest" ++ attrsText [(b!"version", b!"1.0")] ++ b!"/>"))))) 1 := by
    unfold XmlOut.header
    dsimp only
    rw [hdecl, openElem_ready (Or.inl rfl), openElem_ready (Or.inr ⟨_, rfl, rfl⟩), attr_inTag, close_inTag]
    simp
  obtain ⟨x1, body, hx, rfl, hne, hb⟩ := library_adds d hv hver lves hl icon hi hic _ id hid _ hh
  have gl : GoodAttrs ([(b!"id", id)] ++
      ifGiven (getValueOf d b!"enabled") fun v => [(b!"enabled", v)]) := by
    cases he : getValueOf d b!"enabled" with
    | none => exact ⟨by simp [ifGiven]; decide, by simp [ifGiven], by simpa [ifGiven] using hid⟩
    | some v =>
      have := hv _ (by decide) v he
      refine ⟨by simp [ifGiven]; decide, by simp [ifGiven], by simpa [ifGiven] using ⟨hid, this.2⟩⟩
  have hbl := (Block.leaf 1 (n := b!"manifest") (by decide) gm).append
    (Block.parent 1 (n := b!"library") (by decide) gl hb hne)
  obtain ⟨es, he1, he2⟩ := root_doc (n := b!"archive") (by decide) hbl (by simp [ws])
  refine ⟨_, es, ?_, he1, ?_⟩
  · unfold createManifest
    dsimp only
    rw [hx]
    simp only [Res.bind_ok, XmlOut.includeFile, htools, hdeps, XmlOut.footer]
    rw [close_atLine, close_atLine]
    simp [atLine, hdec, attrsText_nil]
  · rw [he2]
    unfold manifestParts
    cases he : getValueOf d b!"enabled" with
    | none => simp [attrsRead, ifGiven, asValue, leafElem]; decide
    | some v => simp [attrsRead, ifGiven, asValue, leafElem]; decide

/-! ## Values without white space to be normalised -/

theorem lineEnds_id {v : Bytes} (h : (13 : UInt8) ∉ v) : lineEnds v = v := by
  simpa [lineEnds] using lineEnds_plain v [] h

theorem asText_plain {v : Bytes} (h : (13 : UInt8) ∉ v) : lineEnds v = v := lineEnds_id h

theorem asValue_plain {v : Bytes} (h : ∀ c ∈ v, c ≠ 9 ∧ c ≠ 10 ∧ c ≠ 13) :
    attrSpaces (lineEnds v) = v := by
  rw [lineEnds_id (fun hm => (h 13 hm).2.2 rfl)]
  unfold attrSpaces
  conv => rhs; rw [← List.map_id v]
  apply List.map_congr_left
  intro c hc
  have := h c hc
  simp [this.1, this.2.1]

theorem text_out (x : XmlOut) (v : Bytes) (sep : Bool) : ∃ pre,
    (x.text v sep).out = x.out ++ (pre ++ escapeText v ++ if sep then b!"\n" else []) ∧
    ∀ c ∈ pre, c = 62 ∨ c = 10 ∨ c = 9 := by
  obtain ⟨o, i, a, n⟩ := x
  refine ⟨(if a then b!">" ++ (if sep then b!"\n" else []) else []) ++
    (if (a && sep) || n then List.replicate i 9 else []), ?_, ?_⟩
  · cases a <;> cases sep <;> cases n <;>
      simp [XmlOut.text, XmlOut.endAttributes, XmlOut.addIndent, XmlOut.put]
  · cases a <;> cases sep <;> cases n <;> simp <;> intros <;> simp_all

theorem usingEncryption_iff (d : ArgData) :
    usingEncryption d = true ↔ Encrypts (getValueOf d b!"encrypt") := by
  unfold usingEncryption Encrypts
  cases h : getValueOf d b!"encrypt" with
  | none => simp
  | some v =>
    have e : (b!"true").map toLower = b!"true" := by decide
    constructor
    · intro h
      refine ⟨v, rfl, ?_⟩
      rw [eqNoCase, e]
      exact h
    · rintro ⟨w, hw, h⟩
      injection hw with hw
      subst hw
      rw [eqNoCase, e] at h
      exact h

theorem containsKey_eq (d : ArgData) (k : Bytes) : containsKey d k = (getValueOf d k).isSome := by
  induction d with
  | nil => rfl
  | cons p d ih =>
    obtain ⟨k', v⟩ := p
    simp only [containsKey, getValueOf]
    split
    · rfl
    · exact ih

/-! ## Included files -/

theorem copyLines_line (x : XmlOut) (first : Bool) (l : Bytes) (hl : ∀ c ∈ l, c ≠ 0 ∧ c ≠ 10 ∧ c ≠ 255)
    (acc cs : Bytes) (hlen : acc.length + l.length < 200) :
    x.copyLines first acc (l ++ 10 :: cs) =
      if first then x.copyLines false [] cs
      else (x.addIndent.put (cstr (acc ++ l) ++ b!"\n")).copyLines false [] cs := by
  induction l generalizing acc with
  | nil =>
    simp only [List.length_nil, Nat.add_zero] at hlen
    rw [List.nil_append, XmlOut.copyLines]
    simp [hlen]
  | cons c l ih =>
    have hc := hl c (by simp)
    simp only [List.length_cons] at hlen
    rw [List.cons_append, XmlOut.copyLines, if_neg hc.2.2, if_pos hc.2.1, if_pos (by omega),
      ih (fun c hc => hl c (by simp [hc])) _ (by simp; omega)]
    simp

theorem cstr_id {l : Bytes} (h : ∀ c ∈ l, c ≠ (0 : UInt8)) : cstr l = l := by
  unfold cstr
  induction l with
  | nil => rfl
  | cons c l ih =>
    rw [List.takeWhile_cons, if_pos (by simpa using h c (by simp)), ih fun c hc => h c (by simp [hc])]

theorem addIndent_out (x : XmlOut) : ∃ space, (∀ c ∈ space, c = (9 : UInt8)) ∧
    x.addIndent.out = x.out ++ space ∧ (x.newLine = false → space = []) ∧ x.addIndent.newLine = false ∧
    x.addIndent.inAttr = x.inAttr ∧ x.addIndent.indent = x.indent := by
  obtain ⟨o, i, a, n⟩ := x
  cases n
  · exact ⟨[], by simp [XmlOut.addIndent]⟩
  · exact ⟨List.replicate i 9, by simp [XmlOut.addIndent, XmlOut.put]⟩

theorem copyLines_lines (lines : List Bytes)
    (hl : ∀ l ∈ lines, l.length < 200 ∧ ∀ c ∈ l, c ≠ 0 ∧ c ≠ 10 ∧ c ≠ 255) (x : XmlOut) :
    ∃ x', x.copyLines false [] (lines.flatMap (· ++ b!"\n")) = .ok x' ∧ ∃ space, (∀ c ∈ space, c = 9) ∧
      x'.out = x.out ++ (space ++ lines.flatMap (· ++ b!"\n")) ∧
      (x.newLine = false → space = []) ∧ x'.inAttr = x.inAttr ∧ x'.indent = x.indent := by
  induction lines generalizing x with
  | nil => exact ⟨x, rfl, [], by simp, by simp, fun _ => rfl, rfl, rfl⟩
  | cons l lines ih =>
    have h1 := hl l (by simp)
    rw [List.flatMap_cons, List.append_assoc, show b!"\n" ++ lines.flatMap (· ++ b!"\n") =
      10 :: lines.flatMap (· ++ b!"\n") from rfl, copyLines_line x false l h1.2 [] _ (by simpa using h1.1)]
    simp only [Bool.false_eq_true, if_false, List.nil_append]
    rw [cstr_id fun c hc => (h1.2 c hc).1]
    obtain ⟨sp, s1, s2, s3, s4, s5, s6⟩ := addIndent_out x
    obtain ⟨x', e, sp', -, e2, e3, e4, e5⟩ := ih (fun l hm => hl l (by simp [hm]))
      (x.addIndent.put (l ++ b!"\n"))
    refine ⟨x', e, sp, s1, ?_, s3, ?_, ?_⟩
    · rw [e2, e3 s4]
      simp [XmlOut.put, s2]
    · rw [e4]; exact s5
    · rw [e5]; exact s6

theorem copyFileInformation_ok (x : XmlOut) (file : Bytes) (lines : List Bytes)
    (h : Includes file lines) :
    ∃ x', x.copyFileInformation (some file) = .ok x' ∧ ∃ space, (∀ c ∈ space, c = 9) ∧
      x'.out = x.out ++ (space ++ lines.flatMap (· ++ b!"\n")) ∧ x'.newLine = true ∧
      x'.inAttr = x.inAttr ∧ x'.indent = x.indent := by
  obtain ⟨first, rfl, hl⟩ := h
  have hf := hl first (by simp)
  obtain ⟨x', e, sp, h1, h2, -, h3, h4⟩ := copyLines_lines lines (fun l hm => hl l (by simp [hm])) x
  refine ⟨{ x' with newLine := true }, ?_, sp, h1, h2, rfl, h3, h4⟩
  unfold XmlOut.copyFileInformation
  simp only []
  rw [List.append_assoc, show b!"\n" ++ lines.flatMap (· ++ b!"\n") =
      10 :: lines.flatMap (· ++ b!"\n") from rfl, copyLines_line x true first hf.2 [] _ (by simpa using hf.1)]
  simp only [if_true]
  rw [e]
  rfl

/-! ## Nesting depth, whatever the values -/

theorem open_indent (x : XmlOut) (n : Bytes) : (x.openElem n).indent = x.indent + 1 := by
  obtain ⟨o, i, a, l⟩ := x
  cases a <;> cases l <;> rfl

theorem attr_indent (x : XmlOut) (k v : Bytes) : (x.attr k v).indent = x.indent := rfl

theorem text_indent (x : XmlOut) (v : Bytes) (sep : Bool) : (x.text v sep).indent = x.indent := by
  obtain ⟨o, i, a, l⟩ := x
  cases a <;> cases l <;> cases sep <;> rfl

theorem close_state (x : XmlOut) (n : Bytes) :
    (x.closeElem n).indent = x.indent - 1 ∧ (x.closeElem n).inAttr = false := by
  obtain ⟨o, i, a, l⟩ := x
  cases a <;> cases l <;> exact ⟨rfl, rfl⟩

theorem valueAttribute_indent (x : XmlOut) (d : ArgData) (k arg : Bytes) :
    (x.valueAttribute d k arg).indent = x.indent := by
  unfold XmlOut.valueAttribute
  split <;> rfl

/-- Same depth, and the start tag is finished if it was. -/
def SameDepth (x x' : XmlOut) : Prop := x'.indent = x.indent ∧ (x.inAttr = false → x'.inAttr = false)

theorem SameDepth.refl (x : XmlOut) : SameDepth x x := ⟨rfl, fun h => h⟩

theorem SameDepth.trans {x y z : XmlOut} (h : SameDepth x y) (h' : SameDepth y z) : SameDepth x z :=
  ⟨h'.1.trans h.1, fun e => h'.2 (h.2 e)⟩

theorem SameDepth.closed {x y : XmlOut} (n : Bytes) (h : y.indent = x.indent + 1) :
    SameDepth x (y.closeElem n) := by
  have := close_state y n
  exact ⟨by rw [this.1, h]; rfl, fun _ => this.2⟩

theorem valueText_depth (x : XmlOut) (d : ArgData) (n arg : Bytes) (sep : Bool) :
    SameDepth x (x.valueText d n arg sep) := by
  unfold XmlOut.valueText
  split
  · exact .closed _ (by rw [text_indent, open_indent])
  · exact .refl x

theorem valueElem_depth (x : XmlOut) (d : ArgData) (n k arg : Bytes) :
    SameDepth x (x.valueElem d n k arg) := by
  unfold XmlOut.valueElem
  split
  · exact .closed _ (by rw [attr_indent, open_indent])
  · exact .refl x

theorem executable_depth (x : XmlOut) (n : Bytes) : SameDepth x (x.executable n) :=
  .closed _ (by rw [attr_indent, attr_indent, attr_indent, open_indent])

theorem executables_depth (ns : List Bytes) (x : XmlOut) : SameDepth x (ns.foldl XmlOut.executable x) := by
  induction ns generalizing x with
  | nil => exact .refl x
  | cons n ns ih => exact (executable_depth x n).trans (ih _)

theorem encryption_depth (x : XmlOut) (d : ArgData) (ns : List Bytes) :
    SameDepth x (x.encryption d ns) := by
  unfold XmlOut.encryption
  split
  · exact .closed _ (by rw [(executables_depth ns _).1, open_indent])
  · exact .refl x

theorem libraryHeader_depth (x : XmlOut) (d : ArgData) (id : Bytes)
    (hver : (getValueOf d b!"version").isSome = true) :
    (x.libraryHeader d id).indent = x.indent + 1 ∧ (x.libraryHeader d id).inAttr = false := by
  obtain ⟨ver, hver⟩ := Option.isSome_iff_exists.1 hver
  unfold XmlOut.libraryHeader
  dsimp only
  generalize hy : (((((x.openElem b!"library").attr b!"id" id).valueAttribute d b!"enabled"
    b!"enabled").valueText d b!"title" b!"title" false).valueText d b!"description" b!"description"
    true) = y
  have hyi : y.indent = x.indent + 1 := by
    rw [← hy, (valueText_depth _ d _ _ _).1, (valueText_depth _ d _ _ _).1, valueAttribute_indent,
      attr_indent, open_indent]
  rw [hver]
  dsimp only
  generalize hz : ((((y.openElem b!"version").attr b!"number" ver).valueAttribute d b!"build"
    b!"build").valueAttribute d b!"date" b!"date").closeElem b!"version" = z
  have hzd : SameDepth y z := by
    rw [← hz]
    exact .closed _ (by rw [valueAttribute_indent, valueAttribute_indent, attr_indent, open_indent])
  have hza : z.inAttr = false := by
    rw [← hz]
    exact (close_state _ _).2
  have h := ((valueElem_depth z d b!"language" b!"version" b!"language").trans
    (valueText_depth _ d b!"copyright" b!"copyright" true)).trans
    (valueText_depth _ d b!"license" b!"license" true)
  exact ⟨by rw [h.1, hzd.1, hyi], h.2 hza⟩

theorem close_lines {x : XmlOut} {d : Nat} (hn : x.newLine = true) (ha : x.inAttr = false)
    (hi : x.indent = d + 1) (n : Bytes) :
    (x.closeElem n).out = x.out ++ (List.replicate d 9 ++ b!"</" ++ n ++ b!">\n") ∧
    (x.closeElem n).newLine = true ∧ (x.closeElem n).inAttr = false ∧ (x.closeElem n).indent = d := by
  obtain ⟨o, i, a, l⟩ := x
  simp only at hn ha hi
  subst hn ha hi
  simp [XmlOut.closeElem, XmlOut.addIndent, XmlOut.put]

theorem close_newLine (x : XmlOut) (n : Bytes) : (x.closeElem n).newLine = true := by
  obtain ⟨o, i, a, l⟩ := x
  cases a <;> cases l <;> rfl

theorem valueText_newLine (x : XmlOut) (d : ArgData) (n arg : Bytes) (sep : Bool)
    (h : x.newLine = true) : (x.valueText d n arg sep).newLine = true := by
  unfold XmlOut.valueText
  split
  · exact close_newLine _ _
  · exact h

theorem valueElem_newLine (x : XmlOut) (d : ArgData) (n k arg : Bytes) (h : x.newLine = true) :
    (x.valueElem d n k arg).newLine = true := by
  unfold XmlOut.valueElem
  split
  · exact close_newLine _ _
  · exact h

theorem encryption_newLine (x : XmlOut) (d : ArgData) (ns : List Bytes) (h : x.newLine = true) :
    (x.encryption d ns).newLine = true := by
  unfold XmlOut.encryption
  split
  · exact close_newLine _ _
  · exact h

theorem libraryHeader_newLine (x : XmlOut) (d : ArgData) (id : Bytes)
    (hver : (getValueOf d b!"version").isSome = true) : (x.libraryHeader d id).newLine = true := by
  obtain ⟨ver, hver⟩ := Option.isSome_iff_exists.1 hver
  unfold XmlOut.libraryHeader
  rw [hver]
  exact valueText_newLine _ _ _ _ _ (valueText_newLine _ _ _ _ _ (valueElem_newLine _ _ _ _ _
    (close_newLine _ _)))

/-- Two sets of arguments that differ in the included files only. -/
def SameButIncludes (d d' : ArgData) : Prop :=
  ∀ k, k ≠ b!"tools" → k ≠ b!"dependencies" → getValueOf d' k = getValueOf d k

theorem libraryHeader_same {d d' : ArgData} (h : SameButIncludes d d') (x : XmlOut) (id : Bytes) :
    x.libraryHeader d' id = x.libraryHeader d id := by
  simp only [XmlOut.libraryHeader, XmlOut.valueText, XmlOut.valueAttribute, XmlOut.valueElem,
    h b!"enabled" (by decide) (by decide), h b!"title" (by decide) (by decide),
    h b!"description" (by decide) (by decide), h b!"version" (by decide) (by decide),
    h b!"build" (by decide) (by decide), h b!"date" (by decide) (by decide),
    h b!"language" (by decide) (by decide), h b!"copyright" (by decide) (by decide),
    h b!"license" (by decide) (by decide)]

theorem encryption_same {d d' : ArgData} (h : SameButIncludes d d') (x : XmlOut) (ns : List Bytes) :
    x.encryption d' ns = x.encryption d ns := by
  unfold XmlOut.encryption usingEncryption
  rw [h b!"encrypt" (by decide) (by decide)]

theorem iconElem_same {d d' : ArgData} (h : SameButIncludes d d') (x : XmlOut) (icon : Option Bytes) :
    x.iconElem d' icon = x.iconElem d icon := by
  unfold XmlOut.iconElem
  rw [containsKey_eq, containsKey_eq, h b!"icon" (by decide) (by decide)]

theorem includeFile_ok (x : XmlOut) (d : ArgData) (read : Bytes → Option Bytes) (k : Bytes)
    (ls : Option (List Bytes)) (hi : Included (getValueOf d k) read ls) (hn : x.newLine = true) :
    ∃ x', x.includeFile d read k = .ok x' ∧ ∃ space, (∀ c ∈ space, c = 9) ∧
      x'.out = x.out ++ (space ++ includedText ls) ∧ x'.newLine = true ∧
      x'.inAttr = x.inAttr ∧ x'.indent = x.indent := by
  cases hi with
  | absent h =>
    refine ⟨x, by simp only [XmlOut.includeFile, h], [], by simp, ?_, hn, rfl, rfl⟩
    simp [includedText]
  | file h hr hi =>
    obtain ⟨x', e, r⟩ := copyFileInformation_ok x _ _ hi
    exact ⟨x', by simp only [XmlOut.includeFile, h, hr, e], r⟩

theorem createManifest_includes (d d' : ArgData) (id : Bytes) (lves : List Bytes) (icon : Option Bytes)
    (hver : (getValueOf d b!"version").isSome = true)
    (hic : (getValueOf d b!"icon").isSome = icon.isSome) (read : Bytes → Option Bytes)
    (lt ld : Option (List Bytes)) (ht : Included (getValueOf d b!"tools") read lt)
    (hd : Included (getValueOf d b!"dependencies") read ld) (same : SameButIncludes d d')
    (ht' : getValueOf d' b!"tools" = none) (hd' : getValueOf d' b!"dependencies" = none) :
    ∃ a b c, createManifest d' id lves icon read = .ok (a ++ b!"\t</library>\n</archive>\n") ∧
      createManifest d id lves icon read = .ok (a ++ b ++ includedText lt ++ c ++ includedText ld ++
        b!"\t</library>\n</archive>\n") ∧ ∀ x ∈ b ++ c, x = 9 := by
  unfold createManifest
  dsimp only
  rw [libraryHeader_same same, encryption_same same, iconElem_same same]
  have hl := libraryHeader_depth (⟨[], 0, false, true⟩ : XmlOut).header d id hver
  have hyn := encryption_newLine _ d lves
    (libraryHeader_newLine (⟨[], 0, false, true⟩ : XmlOut).header d id hver)
  have he := encryption_depth ((⟨[], 0, false, true⟩ : XmlOut).header.libraryHeader d id) d lves
  generalize (((⟨[], 0, false, true⟩ : XmlOut).header.libraryHeader d id).encryption d lves) = y at *
  have h0 : (⟨[], 0, false, true⟩ : XmlOut).header.indent = 1 := rfl
  have hyi : y.indent = 2 := by rw [he.1, hl.1, h0]
  have hya : y.inAttr = false := he.2 hl.2
  obtain ⟨z, hz, hzd, hzn⟩ : ∃ z, y.iconElem d icon = .ok z ∧ SameDepth y z ∧ z.newLine = true := by
    unfold XmlOut.iconElem
    rw [containsKey_eq, hic]
    cases icon with
    | none => exact ⟨y, rfl, .refl y, hyn⟩
    | some p => exact ⟨_, rfl, .closed _ (by rw [attr_indent, open_indent]), close_newLine _ _⟩
  have hzi : z.indent = 2 := by rw [hzd.1, hyi]
  have hza : z.inAttr = false := hzd.2 hya
  obtain ⟨x1, e1, sp1, hs1, o1, n1, a1, i1⟩ := includeFile_ok z d read b!"tools" lt ht hzn
  obtain ⟨x2, e2, sp2, hs2, o2, n2, a2, i2⟩ := includeFile_ok x1 d read b!"dependencies" ld hd n1
  have c1 := close_lines (d := 1) n2 (by rw [a2, a1, hza]) (by rw [i2, i1, hzi]) b!"library"
  have c2 := close_lines (d := 0) c1.2.1 c1.2.2.1 c1.2.2.2 b!"archive"
  have c1' := close_lines (d := 1) hzn hza hzi b!"library"
  have c2' := close_lines (d := 0) c1'.2.1 c1'.2.2.1 c1'.2.2.2 b!"archive"
  refine ⟨z.out, sp1, sp2, ?_, ?_, ?_⟩
  · rw [hz]
    simp only [Res.bind_ok, XmlOut.includeFile, ht', hd', XmlOut.footer, c2'.1, c1'.1]
    simp
  · rw [hz]
    simp only [Res.bind_ok, e1, e2, XmlOut.footer, c2.1, c1.1, o2, o1]
    simp
  · intro x hx
    rcases List.mem_append.1 hx with hx | hx
    · exact hs1 x hx
    · exact hs2 x hx

end Semla
