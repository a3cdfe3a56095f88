import Verif.Model.Uthash

/-! Lemmas on the hash table of key masks. -/

namespace Semla

/-! ## The hash function -/

theorem keyByte_ok {k : Bytes} {i : Nat} (h : i < k.length) : ∃ x, keyByte k i = .ok x := by
  simp [keyByte, h]

theorem keyWord_ok {k : Bytes} {i : Nat} (h : i + 3 < k.length) : ∃ x, keyWord k i = .ok x := by
  obtain ⟨a, ha⟩ := keyByte_ok (k := k) (i := i) (by omega)
  obtain ⟨b, hb⟩ := keyByte_ok (k := k) (i := i + 1) (by omega)
  obtain ⟨c, hc⟩ := keyByte_ok (k := k) (i := i + 2) (by omega)
  obtain ⟨d, hd⟩ := keyByte_ok (k := k) (i := i + 3) (by omega)
  simp [keyWord, ha, hb, hc, hd]

theorem jenLoop_ok {k : Bytes} : ∀ (n off : Nat) (j : Jen), off + 12 * n ≤ k.length →
    ∃ r, jenLoop k n off j = .ok r
  | 0, _, j, _ => ⟨j, rfl⟩
  | n + 1, off, j, h => by
    obtain ⟨x, hx⟩ := keyWord_ok (k := k) (i := off) (by omega)
    obtain ⟨y, hy⟩ := keyWord_ok (k := k) (i := off + 4) (by omega)
    obtain ⟨z, hz⟩ := keyWord_ok (k := k) (i := off + 8) (by omega)
    simp only [jenLoop, hx, hy, hz, Res.bind_ok]
    exact jenLoop_ok n (off + 12) _ (by omega)

theorem jenByte_ok {k : Bytes} {off n i : Nat} {s : UInt32} (h : off + n ≤ k.length) :
    ∃ x, jenByte k off n i s = .ok x := by
  unfold jenByte
  split
  · obtain ⟨a, ha⟩ := keyByte_ok (k := k) (i := off + i) (by omega)
    simp [ha]
  · exact ⟨_, rfl⟩

theorem jenTail_ok {k : Bytes} {off n : Nat} (j : Jen) (h : off + n ≤ k.length) :
    ∃ r, jenTail k off n j = .ok r := by
  obtain ⟨x10, h10⟩ := jenByte_ok (i := 10) (s := 24) h
  obtain ⟨x9, h9⟩ := jenByte_ok (i := 9) (s := 16) h
  obtain ⟨x8, h8⟩ := jenByte_ok (i := 8) (s := 8) h
  obtain ⟨x7, h7⟩ := jenByte_ok (i := 7) (s := 24) h
  obtain ⟨x6, h6⟩ := jenByte_ok (i := 6) (s := 16) h
  obtain ⟨x5, h5⟩ := jenByte_ok (i := 5) (s := 8) h
  obtain ⟨x4, h4⟩ := jenByte_ok (i := 4) (s := 0) h
  obtain ⟨x3, h3⟩ := jenByte_ok (i := 3) (s := 24) h
  obtain ⟨x2, h2⟩ := jenByte_ok (i := 2) (s := 16) h
  obtain ⟨x1, h1⟩ := jenByte_ok (i := 1) (s := 8) h
  obtain ⟨x0, h0⟩ := jenByte_ok (i := 0) (s := 0) h
  simp [jenTail, h10, h9, h8, h7, h6, h5, h4, h3, h2, h1, h0]

theorem hashJen_ok {k : Bytes} {n : UInt32} (h : n.toNat ≤ k.length) : ∃ x, hashJen k n = .ok x := by
  obtain ⟨j, hj⟩ := jenLoop_ok (k := k) (n.toNat / 12) 0 ⟨0x9e3779b9, 0x9e3779b9, 0xfeedbeef⟩ (by omega)
  obtain ⟨r, hr⟩ := jenTail_ok (k := k) (off := 12 * (n.toNat / 12)) (n := n.toNat % 12)
    { j with c := j.c + n } (by omega)
  simp [hashJen, hj, hr]

theorem uLen_toNat {k : Bytes} (h : k.length < 4294967296) : (uLen k).toNat = k.length := by
  simp [uLen]; omega

/-! ## Buckets -/

/-- The item is filed under its own key. -/
def HItem.Valid (it : HItem) : Prop :=
  it.key.length < 4294967296 ∧ it.keylen = uLen it.key ∧ hashJen it.key (uLen it.key) = .ok it.hashv

/-- The item is in one of the chains. -/
def InBuckets (bs : List HBucket) (it : HItem) : Prop := ∃ (i : Nat) (b : HBucket), bs[i]? = some b ∧ it ∈ b.chain

/-- Every item is in the bucket of its hash value. -/
def Placed (bs : List HBucket) (num : UInt32) : Prop :=
  ∀ (i : Nat) (b : HBucket), bs[i]? = some b → ∀ it ∈ b.chain, toBkt it.hashv num = i ∧ it.Valid

theorem toBkt_lt (h num : UInt32) (hn : 0 < num.toNat) : toBkt h num < num.toNat := by
  unfold toBkt
  rw [UInt32.toNat_and]
  have h1 : (num - 1).toNat = num.toNat - 1 := by
    rw [UInt32.toNat_sub_of_le]
    · rfl
    · rw [UInt32.le_iff_toNat_le]; exact hn
  have := Nat.and_le_right (n := h.toNat) (m := (num - 1).toNat)
  omega

/-- Putting an item at the head of its bucket. -/
theorem put_item {bs : List HBucket} {num : UInt32} {it : HItem} {b : HBucket} {c m : UInt32}
    (hb : bs[toBkt it.hashv num]? = some b) (hv : it.Valid) (hp : Placed bs num) :
    Placed (bs.set (toBkt it.hashv num) ⟨it :: b.chain, c, m⟩) num ∧
    ∀ x, InBuckets (bs.set (toBkt it.hashv num) ⟨it :: b.chain, c, m⟩) x ↔ InBuckets bs x ∨ x = it := by
  have hlt : toBkt it.hashv num < bs.length := (List.getElem?_eq_some_iff.1 hb).1
  constructor
  · intro i b' hb' x hx
    rw [List.getElem?_set] at hb'
    by_cases hi : toBkt it.hashv num = i
    · subst hi
      simp only [hlt, ↓reduceIte, Option.some.injEq] at hb'
      subst hb'
      rcases List.mem_cons.1 hx with rfl | hx
      · exact ⟨rfl, hv⟩
      · exact hp _ _ hb _ hx
    · simp only [hi, ↓reduceIte] at hb'
      exact hp _ _ hb' _ hx
  · intro x
    constructor
    · rintro ⟨i, b', hb', hx⟩
      rw [List.getElem?_set] at hb'
      by_cases hi : toBkt it.hashv num = i
      · subst hi
        simp only [hlt, ↓reduceIte, Option.some.injEq] at hb'
        subst hb'
        rcases List.mem_cons.1 hx with rfl | hx
        · exact .inr rfl
        · exact .inl ⟨_, _, hb, hx⟩
      · simp only [hi, ↓reduceIte] at hb'
        exact .inl ⟨_, _, hb', hx⟩
    · rintro (⟨i, b', hb', hx⟩ | rfl)
      · by_cases hi : toBkt it.hashv num = i
        · subst hi
          rw [hb] at hb'
          cases hb'
          exact ⟨toBkt it.hashv num, _, by rw [List.getElem?_set]; simp only [hlt, ↓reduceIte]; rfl,
            List.mem_cons_of_mem _ hx⟩
        · exact ⟨i, b', by rw [List.getElem?_set]; simp only [hi, ↓reduceIte]; exact hb', hx⟩
      · exact ⟨toBkt x.hashv num, _, by rw [List.getElem?_set]; simp only [hlt, ↓reduceIte]; rfl,
          List.mem_cons_self⟩

/-! ## Expansion -/

theorem moveItem_ok {num2 ideal : UInt32} {st : List HBucket × UInt32} {it : HItem}
    (hl : toBkt it.hashv num2 < st.1.length) (hv : it.Valid) (hp : Placed st.1 num2) :
    ∃ st', moveItem num2 ideal st it = .ok st' ∧ st'.1.length = st.1.length ∧ Placed st'.1 num2 ∧
      ∀ x, InBuckets st'.1 x ↔ InBuckets st.1 x ∨ x = it := by
  have hb : st.1[toBkt it.hashv num2]? = some st.1[toBkt it.hashv num2] := List.getElem?_eq_getElem hl
  unfold moveItem
  simp only [hb]
  refine ⟨_, rfl, by simp, ?_⟩
  exact put_item hb hv hp

theorem moveChain_ok {num2 ideal : UInt32} : ∀ (l : List HItem) (st : List HBucket × UInt32),
    (∀ it ∈ l, toBkt it.hashv num2 < st.1.length ∧ it.Valid) → Placed st.1 num2 →
    ∃ st', moveChain num2 ideal l st = .ok st' ∧ st'.1.length = st.1.length ∧ Placed st'.1 num2 ∧
      ∀ x, InBuckets st'.1 x ↔ InBuckets st.1 x ∨ x ∈ l
  | [], st, _, hp => ⟨st, rfl, rfl, hp, by simp⟩
  | it :: rest, st, h, hp => by
    obtain ⟨h1, h2⟩ := h it List.mem_cons_self
    obtain ⟨s1, e1, l1, p1, m1⟩ := moveItem_ok (ideal := ideal) h1 h2 hp
    obtain ⟨s2, e2, l2, p2, m2⟩ := moveChain_ok (ideal := ideal) rest s1
      (fun x hx => ⟨by rw [l1]; exact (h x (List.mem_cons_of_mem _ hx)).1, (h x (List.mem_cons_of_mem _ hx)).2⟩) p1
    refine ⟨s2, by simp [moveChain, e1, e2], by omega, p2, fun x => ?_⟩
    rw [m2, m1, List.mem_cons]
    exact or_assoc

theorem moveAll_ok {num2 ideal : UInt32} : ∀ (bs : List HBucket) (st : List HBucket × UInt32),
    (∀ b ∈ bs, ∀ it ∈ b.chain, toBkt it.hashv num2 < st.1.length ∧ it.Valid) → Placed st.1 num2 →
    ∃ st', moveAll num2 ideal bs st = .ok st' ∧ st'.1.length = st.1.length ∧ Placed st'.1 num2 ∧
      ∀ x, InBuckets st'.1 x ↔ InBuckets st.1 x ∨ ∃ b ∈ bs, x ∈ b.chain
  | [], st, _, hp => ⟨st, rfl, rfl, hp, by simp⟩
  | b :: rest, st, h, hp => by
    obtain ⟨s1, e1, l1, p1, m1⟩ := moveChain_ok (ideal := ideal) b.chain st (h b List.mem_cons_self) hp
    obtain ⟨s2, e2, l2, p2, m2⟩ := moveAll_ok (ideal := ideal) rest s1
      (fun c hc it hit => ⟨by rw [l1]; exact (h c (List.mem_cons_of_mem _ hc) it hit).1,
        (h c (List.mem_cons_of_mem _ hc) it hit).2⟩) p1
    refine ⟨s2, by simp [moveAll, e1, e2], by omega, p2, fun x => ?_⟩
    rw [m2, m1, or_assoc]
    simp

/-- What holds of every table: as many buckets as it says, fewer than 2^32, and every item in its place. -/
structure HTable.Good (t : HTable) : Prop where
  pos : 0 < t.num.toNat
  len : t.buckets.length = t.num.toNat
  placed : Placed t.buckets t.num

theorem placed_replicate (n : Nat) (num : UInt32) : Placed (List.replicate n HBucket.zero) num := by
  intro i b hb it hit
  have : b = HBucket.zero := List.eq_of_mem_replicate (List.mem_of_getElem? hb)
  subst this
  simp [HBucket.zero] at hit

theorem inBuckets_replicate (n : Nat) (it : HItem) : ¬ InBuckets (List.replicate n HBucket.zero) it := by
  rintro ⟨i, b, hb, hit⟩
  have : b = HBucket.zero := List.eq_of_mem_replicate (List.mem_of_getElem? hb)
  subst this
  simp [HBucket.zero] at hit

theorem inBuckets_iff {bs : List HBucket} {x : HItem} : InBuckets bs x ↔ ∃ b ∈ bs, x ∈ b.chain := by
  constructor
  · rintro ⟨i, b, hb, hx⟩
    exact ⟨b, List.mem_of_getElem? hb, hx⟩
  · rintro ⟨b, hb, hx⟩
    obtain ⟨i, hi⟩ := List.mem_iff_getElem?.1 hb
    exact ⟨i, b, hi, hx⟩

theorem expandBuckets_ok {alloc : Nat → Bool} {t : HTable} (hg : t.Good)
    (hm : ∀ n, 68719476736 ≤ n → alloc n = false) :
    ∃ r, expandBuckets alloc t = .ok r ∧
      (r = none → alloc (2 * t.num.toNat * 16) = false) ∧
      ∀ t', r = some t' → t'.Good ∧ ∀ x, InBuckets t'.buckets x ↔ InBuckets t.buckets x := by
  unfold expandBuckets
  by_cases ha : alloc (2 * t.num.toNat * 16) = true
  · have hn : 2 * t.num.toNat * 16 < 68719476736 := by
      rcases Nat.lt_or_ge (2 * t.num.toNat * 16) 68719476736 with h | h
      · exact h
      · rw [hm _ h] at ha; cases ha
    have hlen := hg.len
    have hnl : ¬ t.buckets.length < t.num.toNat := by omega
    have h2 : (t.num * 2).toNat = 2 * t.num.toNat := by
      rw [UInt32.toNat_mul]; simp; omega
    have hpos := hg.pos
    have htake : t.buckets.take t.num.toNat = t.buckets := List.take_of_length_le (by omega)
    simp only [ha, Bool.not_true, Bool.false_eq_true, ↓reduceIte, hnl, htake]
    obtain ⟨st, e, l, p, m⟩ := moveAll_ok (num2 := t.num * 2)
      (ideal := (t.items >>> (t.log2 + 1)) + (if t.items &&& (t.num * 2 - 1) ≠ 0 then 1 else 0))
      t.buckets (List.replicate (2 * t.num.toNat) HBucket.zero, 0)
      (by
        intro b hb it hit
        constructor
        · simp only [List.length_replicate]
          rw [← h2]
          exact toBkt_lt _ _ (by omega)
        · obtain ⟨i, hi⟩ := List.mem_iff_getElem?.1 hb
          exact (hg.placed _ _ hi _ hit).2)
      (placed_replicate _ _)
    rw [e]
    refine ⟨_, rfl, fun h => (by cases h), fun t' ht' => ?_⟩
    injection ht' with ht'
    subst ht'
    refine ⟨⟨by rw [h2]; omega, by rw [l, h2]; simp, p⟩, fun x => ?_⟩
    rw [m, ← inBuckets_iff]
    constructor
    · rintro (h | h)
      · exact absurd h (inBuckets_replicate _ _)
      · exact h
    · exact .inr
  · simp only [Bool.not_eq_true] at ha
    simp [ha]

/-! ## Adding -/

theorem addToTable_ok {alloc : Nat → Bool} {t : HTable} {it : HItem} (hg : t.Good) (hv : it.Valid)
    (hm : ∀ n, 68719476736 ≤ n → alloc n = false) :
    ∃ r, addToTable alloc t it = .ok r ∧ (r = none → ∃ n, alloc n = false) ∧
      ∀ t', r = some t' → t'.Good ∧ ∀ x, InBuckets t'.buckets x ↔ InBuckets t.buckets x ∨ x = it := by
  have hl : toBkt it.hashv t.num < t.buckets.length := by
    rw [hg.len]; exact toBkt_lt _ _ hg.pos
  have hb : t.buckets[toBkt it.hashv t.num]? = some t.buckets[toBkt it.hashv t.num] :=
    List.getElem?_eq_getElem hl
  unfold addToTable
  simp only [hb]
  have hput := put_item (c := t.buckets[toBkt it.hashv t.num].count + 1)
    (m := t.buckets[toBkt it.hashv t.num].mult) hb hv hg.placed
  split
  · obtain ⟨r, e, h1, h2⟩ := expandBuckets_ok (alloc := alloc)
      (t := { t with
        items := t.items + 1,
        buckets := t.buckets.set (toBkt it.hashv t.num)
          ⟨it :: t.buckets[toBkt it.hashv t.num].chain, t.buckets[toBkt it.hashv t.num].count + 1,
            t.buckets[toBkt it.hashv t.num].mult⟩ })
      ⟨hg.pos, by simp [hg.len], hput.1⟩ hm
    refine ⟨r, e, fun h => ⟨_, h1 h⟩, fun t' ht' => ?_⟩
    obtain ⟨g, hx⟩ := h2 t' ht'
    exact ⟨g, fun x => by rw [hx]; exact hput.2 x⟩
  · refine ⟨_, rfl, fun h => (by cases h), fun t' ht' => ?_⟩
    injection ht' with ht'
    subst ht'
    exact ⟨⟨hg.pos, by simp [hg.len], hput.1⟩, hput.2⟩

theorem makeTable_good {alloc : Nat → Bool} {t : HTable} (h : makeTable alloc = some t) :
    t.Good ∧ ∀ x, ¬ InBuckets t.buckets x := by
  unfold makeTable at h
  split at h
  · cases h
  · split at h
    · cases h
    · injection h with h
      subst h
      exact ⟨⟨by decide, by decide, placed_replicate _ _⟩, inBuckets_replicate _⟩

/-! ## Finding -/

theorem findInBkt_ok {k : Bytes} {h : UInt32} (hk : k.length < 4294967296) : ∀ (l : List HItem),
    (∀ it ∈ l, it.Valid) → hashJen k (uLen k) = .ok h →
    ∃ r, findInBkt l k (uLen k) h = .ok r ∧ (∀ it, r = some it → it ∈ l ∧ it.key = k) ∧
      (r = none → ∀ it ∈ l, it.key ≠ k)
  | [], _, _ => ⟨none, rfl, by simp, by simp⟩
  | it :: rest, hv, hh => by
    obtain ⟨r, e, h1, h2⟩ := findInBkt_ok hk rest (fun x hx => hv x (List.mem_cons_of_mem _ hx)) hh
    obtain ⟨v1, v2, v3⟩ := hv it List.mem_cons_self
    have rest_case (hne : it.key ≠ k) : ∃ r, findInBkt rest k (uLen k) h = .ok r ∧
        (∀ x, r = some x → x ∈ it :: rest ∧ x.key = k) ∧ (r = none → ∀ x ∈ it :: rest, x.key ≠ k) := by
      refine ⟨r, e, fun x hx => ⟨List.mem_cons_of_mem _ (h1 x hx).1, (h1 x hx).2⟩, fun hr x hx => ?_⟩
      rcases List.mem_cons.1 hx with rfl | hx
      · exact hne
      · exact h2 hr x hx
    unfold findInBkt
    split
    · rename_i hc
      have hlen : it.key.length = k.length := by
        have := congrArg UInt32.toNat hc.2
        rw [v2, uLen_toNat v1, uLen_toNat hk] at this
        exact this
      have hn : ¬ (it.key.length < (uLen k).toNat ∨ k.length < (uLen k).toNat) := by
        rw [uLen_toNat hk]; omega
      simp only [memEq, hn, ↓reduceIte, Res.bind_ok]
      rw [uLen_toNat hk, List.take_of_length_le (by omega), List.take_of_length_le (by omega)]
      by_cases heq : it.key = k
      · simp only [heq, beq_self_eq_true, ↓reduceIte]
        exact ⟨some it, rfl, fun x hx => by cases hx; exact ⟨List.mem_cons_self, heq⟩, fun hx => by cases hx⟩
      · simp only [beq_eq_false_iff_ne.2 heq, Bool.false_eq_true, ↓reduceIte]
        exact rest_case heq
    · rename_i hc
      refine rest_case (fun heq => hc ?_)
      subst heq
      rw [hh] at v3
      injection v3 with v3
      exact ⟨v3.symm, v2⟩

theorem hashFind_ok {t : HTable} (hg : t.Good) {k : Bytes} (hk : k.length < 4294967296) :
    ∃ r, hashFind (some t) k = .ok r ∧ (∀ it, r = some it → InBuckets t.buckets it ∧ it.key = k) ∧
      (r = none → ∀ it, InBuckets t.buckets it → it.key ≠ k) := by
  obtain ⟨h, hh⟩ := hashJen_ok (k := k) (n := uLen k) (by rw [uLen_toNat hk]; exact Nat.le_refl _)
  have hl : toBkt h t.num < t.buckets.length := by
    rw [hg.len]; exact toBkt_lt _ _ hg.pos
  have hb : t.buckets[toBkt h t.num]? = some t.buckets[toBkt h t.num] := List.getElem?_eq_getElem hl
  obtain ⟨r, e, h1, h2⟩ := findInBkt_ok hk t.buckets[toBkt h t.num].chain
    (fun it hit => (hg.placed _ _ hb it hit).2) hh
  refine ⟨r, by simp [hashFind, hh, hb, e], fun it hit => ⟨⟨_, _, hb, (h1 it hit).1⟩, (h1 it hit).2⟩, ?_⟩
  rintro hr it ⟨i, b, hbi, hit⟩ heq
  obtain ⟨p1, p2⟩ := hg.placed i b hbi it hit
  have : it.hashv = h := by
    have := p2.2.2
    rw [heq, hh] at this
    injection this with this
    exact this.symm
  rw [this] at p1
  subst p1
  rw [hb] at hbi
  cases hbi
  exact h2 hr it hit heq

end Semla
