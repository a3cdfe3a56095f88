import Verif.Lemmas.Lve

/-! # Helper lemmas: replies and histories of a session -/

set_option linter.unusedSimpArgs false

namespace Semla

open Semla.Spec

/-! ### Numerals are unique -/

theorem foldl_digits_ge (ds : Bytes) (a : Nat) :
    a ≤ ds.foldl (fun a d => a * 10 + (d.toNat - 48)) a := by
  induction ds generalizing a with
  | nil => simp
  | cons d ds ih =>
    simp only [List.foldl_cons]
    exact Nat.le_trans (by omega) (ih _)

theorem numeral_unique_aux (k : Nat) : ∀ (a b : Bytes) (n : Nat), a.length = k → IsNumeral n a → IsNumeral n b →
    a = b := by
  induction k with
  | zero => intro a b n hk ha _; exact absurd (List.length_eq_zero_iff.1 hk) ha.1
  | succ k ih =>
    have dig : ∀ {d : UInt8}, 48 ≤ d ∧ d ≤ 57 → 48 ≤ d.toNat ∧ d.toNat ≤ 57 := by
      intro d h
      exact ⟨UInt8.le_iff_toNat_le.1 h.1, UInt8.le_iff_toNat_le.1 h.2⟩
    have single : ∀ {n : Nat} {d : UInt8}, IsNumeral n [d] → n + 48 = d.toNat ∧ n < 10 := by
      intro n d h
      have h1 := dig (h.2.1 d (by simp))
      have h2 := h.2.2.1
      simp at h2; omega
    have multi : ∀ {n : Nat} {init : Bytes} {d : UInt8}, init ≠ [] → IsNumeral n (init ++ [d]) →
        IsNumeral (n / 10) init ∧ 10 ≤ n ∧ n % 10 + 48 = d.toNat := by
      intro n init d hi h
      obtain ⟨h1, h2, h3, h4⟩ := h
      have hd := dig (h2 d (by simp))
      rw [List.foldl_append] at h3
      simp only [List.foldl_cons, List.foldl_nil] at h3
      have hne : init.head? ≠ some 48 := by
        intro hh
        have := h4 (by rw [List.head?_append_of_ne_nil _ hi]; exact hh)
        cases init with
        | nil => exact hi rfl
        | cons x xs => simp at this
      have hpos : 1 ≤ init.foldl (fun a d => a * 10 + (d.toNat - 48)) 0 := by
        cases init with
        | nil => exact absurd rfl hi
        | cons x xs =>
          simp only [List.foldl_cons]
          refine Nat.le_trans ?_ (foldl_digits_ge xs _)
          have hx := dig (h2 x (by simp))
          have : x.toNat ≠ 48 := fun h => hne (by
            have : x = 48 := UInt8.toNat_inj.1 h
            rw [this]; rfl)
          omega
      refine ⟨⟨hi, fun c hc => h2 c (by simp [hc]), by omega, fun hh => absurd hh hne⟩, by omega, by omega⟩
    intro a b n hk ha hb
    have hsplit : ∀ {l : Bytes}, l ≠ [] → ∃ i d, l = i ++ [d] := fun h => ⟨_, _, (List.dropLast_append_getLast h).symm⟩
    obtain ⟨i, d, rfl⟩ := hsplit ha.1
    obtain ⟨j, e, rfl⟩ := hsplit hb.1
    by_cases hi : i = []
    · subst hi
      have h1 := single (by simpa using ha)
      by_cases hj : j = []
      · subst hj
        have h2 := single (by simpa using hb)
        have : d = e := UInt8.toNat_inj.1 (by omega)
        rw [this]
      · have := (multi hj hb).2.1; omega
    · obtain ⟨h1, h2, h3⟩ := multi hi ha
      by_cases hj : j = []
      · subst hj
        have h2 := single (by simpa using hb)
        omega
      · obtain ⟨h4, h5, h6⟩ := multi hj hb
        have : d = e := UInt8.toNat_inj.1 (by omega)
        rw [this, ih i j (n / 10) (by simpa using hk) h1 h4]

theorem numeral_unique {n : Nat} {a b : Bytes} (ha : IsNumeral n a) (hb : IsNumeral n b) : a = b :=
  numeral_unique_aux a.length a b n rfl ha hb

theorem numeral_value {n m : Nat} {a : Bytes} (ha : IsNumeral n a) (hb : IsNumeral m a) : n = m := by
  rw [← ha.2.2.1, ← hb.2.2.1]

/-- First words ending at a space agree. -/
theorem split_space {a b x y : Bytes} (ha : (32 : UInt8) ∉ a) (hb : (32 : UInt8) ∉ b)
    (h : a ++ 32 :: x = b ++ 32 :: y) : a = b := by
  induction a generalizing b with
  | nil =>
    cases b with
    | nil => rfl
    | cons c cs => simp at h; exact absurd (h.1 ▸ List.mem_cons_self) hb
  | cons c cs ih =>
    cases b with
    | nil => simp at h; exact absurd (h.1 ▸ List.mem_cons_self) ha
    | cons d ds =>
      simp only [List.cons_append, List.cons.injEq] at h
      rw [h.1, ih (fun hm => ha (by simp [hm])) (fun hm => hb (by simp [hm])) h.2]

theorem numeral_no_space {n : Nat} {a : Bytes} (h : IsNumeral n a) : (32 : UInt8) ∉ a := by
  intro hm; have := h.2.1 _ hm; revert this; decide

theorem errorReply_code {c1 c2 : Nat} {t1 t2 r : Bytes} (h1 : ErrorReply c1 t1 r)
    (h2 : ErrorReply c2 t2 r) : c1 = c2 := by
  obtain ⟨n1, d1, hn1, -, rfl⟩ := h1
  obtain ⟨n2, d2, hn2, -, he⟩ := h2
  simp only [line3, List.append_assoc, List.cons_append, List.nil_append, List.cons.injEq, true_and] at he
  have := split_space (numeral_no_space hn1) (numeral_no_space hn2) he
  subst this
  exact numeral_value hn1 hn2

theorem errorReply_kind {c : Nat} {t r : Bytes} (h : ErrorReply c t r) : OfKind b!"ERROR" r := by
  obtain ⟨ns, ds, -, -, rfl⟩ := h
  exact Or.inl ⟨ns ++ b!" " ++ ds ++ b!"\n" ++ t, by simp [line3]⟩

theorem dataReply_kind {name d r : Bytes} (h : DataReply name d r) : OfKind name r := by
  obtain ⟨ds, -, rfl⟩ := h
  exact Or.inl ⟨ds ++ b!"\n" ++ d, by simp [line2]⟩

/-- Kinds of different names exclude each other. -/
theorem kind_unique {a b : CmdId} {r : Bytes} (h1 : OfKind a.name r) (h2 : OfKind b.name r) : a = b := by
  have key : ∀ (x y : Bytes), (∀ c ∈ x, c ≠ 32 ∧ c ≠ 10) → (∀ c ∈ y, c ≠ 32 ∧ c ≠ 10) → ∀ s t : Bytes,
      (∀ c ∈ s.head?, c = 32 ∨ c = 10) → (∀ c ∈ t.head?, c = 32 ∨ c = 10) → s ≠ [] → t ≠ [] →
      x ++ s = y ++ t → x = y := by
    intro x
    induction x with
    | nil =>
      intro y _ hy s t hs _ hsn _ h
      cases y with
      | nil => rfl
      | cons c cs =>
        cases s with
        | nil => exact absurd rfl hsn
        | cons e es =>
          simp at h
          have := hs e (by simp); have h2 := hy c (by simp)
          rw [h.1] at this; rcases this with h3 | h3
          · exact absurd h3 h2.1
          · exact absurd h3 h2.2
    | cons c cs ih =>
      intro y hx hy s t hs ht hsn htn h
      cases y with
      | nil =>
        cases t with
        | nil => exact absurd rfl htn
        | cons e es =>
          simp at h
          have := ht e (by simp); have h2 := hx c (by simp)
          rw [← h.1] at this; rcases this with h3 | h3
          · exact absurd h3 h2.1
          · exact absurd h3 h2.2
      | cons d ds =>
        simp only [List.cons_append, List.cons.injEq] at h
        rw [h.1, ih ds (fun c hc => hx c (by simp [hc])) (fun c hc => hy c (by simp [hc])) s t hs ht hsn htn h.2]
  have form : ∀ {n r : Bytes}, OfKind n r → ∃ s, r = n ++ s ∧ s ≠ [] ∧ ∀ c ∈ s.head?, c = 32 ∨ c = 10 := by
    rintro n r (⟨t, rfl⟩ | ⟨t, rfl⟩)
    · exact ⟨32 :: t, by simp, by simp, by simp⟩
    · exact ⟨10 :: t, by simp, by simp, by simp⟩
  obtain ⟨s, rfl, hs1, hs2⟩ := form h1
  obtain ⟨t, he, ht1, ht2⟩ := form h2
  have pl : ∀ c : CmdId, ∀ x ∈ c.name, x ≠ 32 ∧ x ≠ 10 := fun c x hx =>
    ⟨((name_plain c).2 x hx).2.2, ((name_plain c).2 x hx).2.1⟩
  have := key _ _ (pl a) (pl b) s t hs2 ht2 hs1 ht1 he
  revert this; cases a <;> cases b <;> decide

/-! ### Replies -/

/-- One ERROR reply, or none for want of memory. -/
def ErrOut (w : World) (code : Nat) (text : Bytes) (out : List Bytes) : Prop :=
  (∃ r, out = [r] ∧ ErrorReply code text r) ∨ (out = [] ∧ ¬ Ample w)

/-- One reply with data, or none for want of memory. -/
def DataOut (w : World) (name data : Bytes) (out : List Bytes) : Prop :=
  (∃ r, out = [r] ∧ DataReply name data r) ∨ (out = [] ∧ ¬ Ample w)

theorem reply_error {w : World} {code : Nat} {t : Bytes} {out : List Bytes}
    (h : reply false (sendError w.malloc (code : Int) (some t)) = .ok out) : ErrOut w code (cstr t) out := by
  simp only [reply, Bool.false_eq_true, if_false, Res.bind_eq_ok, Res.ok.injEq, sendError,
    sendNumberAndLength] at h
  obtain ⟨m, h, rfl⟩ := h
  split at h
  · rw [Res.bind_eq_ok] at h
    obtain ⟨r, h1, h2⟩ := h
    simp only [Res.ok.injEq] at h2
    subst h2
    unfold composeWithData at h1
    split at h1
    · simp only [Res.ok.injEq] at h1
      refine Or.inl ⟨r, rfl, decNat code, decNat (cstr t).length, decNat_numeral _, decNat_numeral _, ?_⟩
      rw [← h1]
      have : decInt (code : Int) = decNat code := by simp [decInt]
      rw [this]
      rfl
    · cases h1
  · rename_i hm
    simp only [Res.ok.injEq] at h
    subst h
    exact Or.inr ⟨rfl, fun ha => hm (ha _)⟩

theorem reply_length {w : World} {c : CmdId} {d : Bytes} {out : List Bytes}
    (h : reply false (sendLength w.malloc c d) = .ok out) : DataOut w c.name d out := by
  simp only [reply, Bool.false_eq_true, if_false, Res.bind_eq_ok, Res.ok.injEq, sendLength] at h
  obtain ⟨m, h, rfl⟩ := h
  split at h
  · rw [Res.bind_eq_ok] at h
    obtain ⟨r, h1, h2⟩ := h
    simp only [Res.ok.injEq] at h2
    subst h2
    unfold composeWithData at h1
    split at h1
    · simp only [Res.ok.injEq] at h1
      refine Or.inl ⟨r, rfl, decNat d.length, decNat_numeral _, ?_⟩
      rw [← h1]
      rfl
    · cases h1
  · rename_i hm
    simp only [Res.ok.injEq] at h
    subst h
    exact Or.inr ⟨rfl, fun ha => hm (ha _)⟩

theorem reply_error_ok {w : World} (ha : Ample w) {code : Int} (h1 : longMin ≤ code) (h2 : code ≤ longMax)
    {t : Bytes} (hl : (cstr t).length < 2 ^ 63) :
    reply false (sendError w.malloc code (some t)) =
      .ok [line3 b!"ERROR" (decInt code) (decNat (cstr t).length) ++ cstr t] := by
  simp only [reply, Bool.false_eq_true, if_false, sendError]
  rw [send_numlen_aux .error code (cstr t) h1 h2 hl, if_pos (ha _)]
  rfl

theorem reply_length_ok {w : World} (ha : Ample w) {c : CmdId} {d : Bytes} (hl : d.length < 2 ^ 63) :
    reply false (sendLength w.malloc c d) = .ok [line2 c.name (decNat d.length) ++ d] := by
  simp only [reply, Bool.false_eq_true, if_false]
  rw [send_length_aux c d hl, if_pos (ha _)]
  rfl

theorem errOut_kind {w : World} {code : Nat} {t : Bytes} {out : List Bytes} (h : ErrOut w code t out) :
    ∀ r ∈ out, OfKind b!"ERROR" r := by
  rcases h with ⟨r, rfl, h⟩ | ⟨rfl, -⟩
  · intro r' hr; simp at hr; subst hr; exact errorReply_kind h
  · simp

theorem errOut_code {w : World} {code : Nat} {t : Bytes} {out : List Bytes} (h : ErrOut w code t out) :
    ∀ r ∈ out, ∀ c t', ErrorReply c t' r → c = code := by
  rcases h with ⟨r, rfl, h⟩ | ⟨rfl, -⟩
  · intro r' hr c t' h'; simp at hr; subst hr; exact errorReply_code h' h
  · simp

theorem dataOut_kind {w : World} {n t : Bytes} {out : List Bytes} (h : DataOut w n t out) :
    ∀ r ∈ out, OfKind n r := by
  rcases h with ⟨r, rfl, h⟩ | ⟨rfl, -⟩
  · intro r' hr; simp at hr; subst hr; exact dataReply_kind h
  · simp

theorem simple_kind (c : CmdId) : OfKind c.name (sendSimple c) := by
  rw [sendSimple_eq]; exact Or.inr (List.prefix_refl _)

theorem number_kind {n : Int} (h1 : longMin ≤ n) (h2 : n ≤ longMax) (c : CmdId) :
    OfKind c.name (sendNumber c n) := by
  rw [send_number_aux c n h1 h2]
  exact Or.inl ⟨decInt n ++ b!"\n", by simp [line2]⟩

theorem kind_not_error {c : CmdId} (hc : c ≠ .error) {r : Bytes} (h : OfKind c.name r) {code : Nat} {t : Bytes} :
    ¬ ErrorReply code t r := fun he => hc (kind_unique h (b := .error) (errorReply_kind he))

/-! ### Histories -/

theorem run_cons {conf : LveConf} {st st' : LveSt} {w : World} {msg : Bytes} {rest : List (World × Bytes)}
    {outs : List (List Bytes)} (h : lveRun conf st ((w, msg) :: rest) = .ok (st', outs)) :
    ∃ st1 out outs', lveStep conf w st msg = .ok (st1, out) ∧ lveRun conf st1 rest = .ok (st', outs') ∧
      outs = out :: outs' := by
  unfold lveRun at h
  rw [Res.bind_eq_ok] at h
  obtain ⟨⟨st1, out⟩, h1, h⟩ := h
  rw [Res.bind_eq_ok] at h
  obtain ⟨⟨st2, outs'⟩, h2, h⟩ := h
  simp only [Res.ok.injEq, Prod.mk.injEq] at h
  obtain ⟨rfl, rfl⟩ := h
  exact ⟨st1, out, outs', h1, h2, rfl⟩

theorem run_append {conf : LveConf} {t1 t2 : List (World × Bytes)} {st : LveSt} :
    lveRun conf st (t1 ++ t2) = (do
      let (st1, o1) ← lveRun conf st t1
      let (st2, o2) ← lveRun conf st1 t2
      .ok (st2, o1 ++ o2)) := by
  induction t1 generalizing st with
  | nil =>
    simp only [List.nil_append, lveRun, Res.bind_ok]
    cases lveRun conf st t2 <;> rfl
  | cons t ts ih =>
    obtain ⟨w, msg⟩ := t
    simp only [List.cons_append, lveRun]
    cases lveStep conf w st msg with
    | ub k => rfl
    | ok r =>
      obtain ⟨st1, out⟩ := r
      simp only [Res.bind_ok, ih]
      cases lveRun conf st1 ts with
      | ub k => rfl
      | ok r =>
        obtain ⟨st2, o2⟩ := r
        simp only [Res.bind_ok]
        cases lveRun conf st2 t2 with
        | ub k => rfl
        | ok r => rfl

/-- Induction over histories. -/
theorem run_forall {conf : LveConf} {P : LveSt → Prop} {Q : World × Bytes → List Bytes → Prop}
    (hstep : ∀ w st msg st' out, P st → Effect conf w st msg st' out → P st' ∧ Q (w, msg) out) :
    ∀ {turns : List (World × Bytes)} {st st' : LveSt} {outs : List (List Bytes)}, P st →
      lveRun conf st turns = .ok (st', outs) → P st' ∧ List.Forall₂ Q turns outs := by
  intro turns
  induction turns with
  | nil =>
    intro st st' outs hp h
    simp only [lveRun, Res.ok.injEq, Prod.mk.injEq] at h
    obtain ⟨rfl, rfl⟩ := h
    exact ⟨hp, .nil⟩
  | cons t ts ih =>
    intro st st' outs hp h
    obtain ⟨w, msg⟩ := t
    obtain ⟨st1, out, outs', h1, h2, rfl⟩ := run_cons h
    obtain ⟨hp1, hq⟩ := hstep _ _ _ _ _ hp (step_effect h1)
    obtain ⟨hp2, hqs⟩ := ih hp1 h2
    exact ⟨hp2, .cons hq hqs⟩

theorem run_inv {conf : LveConf} {P : LveSt → Prop}
    (hstep : ∀ w st msg st' out, P st → Effect conf w st msg st' out → P st')
    {turns : List (World × Bytes)} {st st' : LveSt} {outs : List (List Bytes)} (hp : P st)
    (h : lveRun conf st turns = .ok (st', outs)) : P st' :=
  (run_forall (Q := fun _ _ => True) (fun w st msg st' out hp he => ⟨hstep w st msg st' out hp he, trivial⟩)
    hp h).1

theorem run_length {conf : LveConf} {turns : List (World × Bytes)} {st st' : LveSt} {outs : List (List Bytes)}
    (h : lveRun conf st turns = .ok (st', outs)) : outs.length = turns.length :=
  ((run_forall (P := fun _ => True) (Q := fun _ _ => True) (fun _ _ _ _ _ _ _ => ⟨trivial, trivial⟩)
    trivial h).2.length_eq).symm

theorem start_eq {conf : LveConf} {k : Option Bytes} {st : LveSt} (h : lveStart conf k = .ok st) :
    st = { LveSt.initial with approved := true } ∨
    st = { LveSt.initial with approved := false, toolErrMsg := some b!"Not a valid tool", toolErrType := 5 } := by
  unfold lveStart validatePubkey at h
  rw [Res.bind_eq_ok] at h
  obtain ⟨b, -, h⟩ := h
  split at h
  · simp only [Res.ok.injEq] at h; exact Or.inl h.symm
  · simp only [Res.ok.injEq] at h; exact Or.inr h.symm

end Semla
