import Verif.Model.UthashCrypt
import Verif.Lemmas.Uthash
import Verif.Lemmas.CrSafe

/-! The key mask functions with the hash table do what they do with an association list. -/

namespace Semla

/-- The hash table holds exactly the entries of the list. -/
def Rep (head : MaskHead) (t : MaskTable) : Prop :=
  match head with
  | none => t = []
  | some T => T.Good ∧ t ≠ [] ∧ (t.map (·.1)).Nodup ∧
      ∀ k m, (∃ it, InBuckets T.buckets it ∧ it.key = k ∧ it.mask = m) ↔ (k, m) ∈ t

theorem Rep.isNone {head : MaskHead} {t : MaskTable} (h : Rep head t) : head.isNone = t.isEmpty := by
  cases head with
  | none => cases h; rfl
  | some T =>
    have := h.2.1
    cases t with
    | nil => exact absurd rfl this
    | cons => rfl

theorem find_eq_none {t : MaskTable} {k : Bytes} : t.find k = none ↔ k ∉ t.map (·.1) := by
  unfold MaskTable.find
  simp only [Option.map_eq_none_iff, List.find?_eq_none, List.mem_map, not_exists, not_and]
  constructor
  · intro h e he hk; exact h e he (by simp [hk])
  · intro h e he hk; exact h e he (by simpa using hk)

theorem find_of_mem : ∀ {t : MaskTable} {k m : Bytes}, (t.map (·.1)).Nodup → (k, m) ∈ t → t.find k = some m
  | [], _, _, _, h => by cases h
  | (k', m') :: t, k, m, hn, h => by
    simp only [List.map_cons, List.nodup_cons] at hn
    rcases List.mem_cons.1 h with h | h
    · cases h; simp [MaskTable.find]
    · have hne : k' ≠ k := fun e => hn.1 (e ▸ List.mem_map_of_mem (f := (·.1)) h)
      have := find_of_mem hn.2 h
      unfold MaskTable.find at *
      simp [hne, this]

theorem Rep.find {head : MaskHead} {t : MaskTable} (h : Rep head t) {k : Bytes} (hk : k.length < 4294967296) :
    ∃ r, hashFind head k = .ok r ∧ r.map (·.mask) = t.find k := by
  cases head with
  | none => cases h; exact ⟨none, rfl, rfl⟩
  | some T =>
    obtain ⟨hg, -, hn, hc⟩ := h
    obtain ⟨r, e, h1, h2⟩ := hashFind_ok hg hk
    refine ⟨r, e, ?_⟩
    cases r with
    | some it =>
      obtain ⟨a, b⟩ := h1 it rfl
      exact (find_of_mem hn ((hc k it.mask).1 ⟨it, a, b, rfl⟩)).symm
    | none =>
      symm
      rw [Option.map_none, find_eq_none]
      intro hm
      obtain ⟨⟨k', m⟩, hm', rfl⟩ := List.mem_map.1 hm
      obtain ⟨it, a, b, -⟩ := (hc k' m).2 hm'
      exact h2 rfl it a b

/-- Large blocks of memory (64 GiB and more) are not granted. -/
def NoHuge (alloc : Nat → Bool) : Prop := ∀ n, 68719476736 ≤ n → alloc n = false

theorem Rep.add {alloc : Nat → Bool} (hm : NoHuge alloc) {head : MaskHead} {t : MaskTable} (h : Rep head t)
    {k m : Bytes} (hk : k.length < 4294967296) (hf : t.find k = none) :
    ∃ r, hashAdd alloc head k k.length m = .ok r ∧ (r = none → ∃ n, alloc n = false) ∧
      ∀ T, r = some T → Rep (some T) (t ++ [(k, m)]) := by
  obtain ⟨hv, hh⟩ := hashJen_ok (k := k) (n := uLen k) (Nat.le_of_eq (uLen_toNat hk))
  have hval : HItem.Valid ⟨k, uLen k, hv, m⟩ := ⟨hk, rfl, hh⟩
  have key : ∀ (T : HTable), T.Good → (t.map (·.1)).Nodup →
      (∀ k' m', (∃ it, InBuckets T.buckets it ∧ it.key = k' ∧ it.mask = m') ↔ (k', m') ∈ t) →
      ∃ r, addToTable alloc T ⟨k, uLen k, hv, m⟩ = .ok r ∧ (r = none → ∃ n, alloc n = false) ∧
        ∀ T', r = some T' → Rep (some T') (t ++ [(k, m)]) := by
    intro T hg hn hc
    obtain ⟨r, e, h1, h2⟩ := addToTable_ok hg hval hm
    refine ⟨r, e, h1, fun T' hT' => ?_⟩
    obtain ⟨g, hx⟩ := h2 T' hT'
    refine ⟨g, by simp, ?_, fun k' m' => ?_⟩
    · rw [List.map_append, List.nodup_append]
      refine ⟨hn, by simp, fun a ha b hb => ?_⟩
      simp only [List.map_cons, List.map_nil, List.mem_singleton] at hb
      subst hb
      rintro rfl
      exact find_eq_none.1 hf ha
    · constructor
      · rintro ⟨it, hi, rfl, rfl⟩
        rcases (hx it).1 hi with hi | rfl
        · exact List.mem_append_left _ ((hc _ _).1 ⟨it, hi, rfl, rfl⟩)
        · simp
      · intro hm'
        rcases List.mem_append.1 hm' with hm' | hm'
        · obtain ⟨it, a, b, c⟩ := (hc _ _).2 hm'
          exact ⟨it, (hx it).2 (.inl a), b, c⟩
        · simp only [List.mem_singleton, Prod.mk.injEq] at hm'
          exact ⟨_, (hx _).2 (.inr rfl), hm'.1.symm, hm'.2.symm⟩
  unfold hashAdd
  have hl : UInt32.ofNat k.length = uLen k := rfl
  simp only [hl, hh, Res.bind_ok]
  cases head with
  | some T => exact key T h.1 h.2.2.1 h.2.2.2
  | none =>
    cases h
    cases hmk : makeTable alloc with
    | none =>
      refine ⟨none, rfl, fun _ => ?_, by simp⟩
      unfold makeTable at hmk
      split at hmk
      · rename_i h0; exact ⟨_, by simpa using h0⟩
      · split at hmk
        · rename_i h0; exact ⟨_, by simpa using h0⟩
        · cases hmk
    | some T =>
      obtain ⟨g, hx⟩ := makeTable_good hmk
      refine key T g (by simp) (fun k' m' => ⟨?_, by simp⟩)
      rintro ⟨it, hi, -⟩
      exact absurd hi (hx it)

/-! ## Refinement -/

/-- The program does what the list version does, or it has ended because it got no memory. -/
def Follows (alloc : Nat → Bool) (R : α → β → Prop) (x : Prog α) (y : Res β) : Prop :=
  (x = Prog.exit ∧ ∃ n, alloc n = false) ∨ (∃ a b, x = Res.ok (some a) ∧ y = .ok b ∧ R a b) ∨
    ∃ k, x = Res.ub k ∧ y = .ub k

theorem Follows.pure {alloc : Nat → Bool} {R : α → β → Prop} {a : α} {b : β} (h : R a b) :
    Follows alloc R (pure a) (.ok b) := .inr (.inl ⟨a, b, rfl, rfl, h⟩)

theorem Follows.ub {alloc : Nat → Bool} {R : α → β → Prop} (k : UB) :
    Follows alloc R (Prog.ub k) (.ub k) := .inr (.inr ⟨k, rfl, rfl⟩)

theorem Follows.bind {alloc : Nat → Bool} {R : α → β → Prop} {S : γ → δ → Prop} {x : Prog α} {y : Res β}
    {f : α → Prog γ} {g : β → Res δ} (h : Follows alloc R x y)
    (hf : ∀ a b, y = .ok b → R a b → Follows alloc S (f a) (g b)) : Follows alloc S (x >>= f) (y >>= g) := by
  rcases h with ⟨rfl, h⟩ | ⟨a, b, rfl, rfl, h⟩ | ⟨k, rfl, rfl⟩
  · exact .inl ⟨rfl, h⟩
  · exact hf a b rfl h
  · exact .inr (.inr ⟨k, rfl, rfl⟩)

/-- A last step that only packs the result. -/
theorem Follows.step {alloc : Nat → Bool} {R : α → β → Prop} {S : γ → δ → Prop} {x : Prog α} {b : β}
    {f : α → γ} {d : δ} (h : Follows alloc R x (.ok b)) (hf : ∀ a, R a b → S (f a) d) :
    Follows alloc S (x >>= fun a => Pure.pure (f a)) (.ok d) := by
  rcases h with ⟨rfl, h⟩ | ⟨a, b', rfl, hb, h⟩ | ⟨k, -, h⟩
  · exact .inl ⟨rfl, h⟩
  · cases hb; exact .inr (.inl ⟨_, _, rfl, rfl, hf a h⟩)
  · cases h

/-- After looking for a mask. -/
theorem Follows.find {alloc : Nat → Bool} {S : γ → δ → Prop} {head : MaskHead} {t : MaskTable}
    (h : Rep head t) {d : Bytes} (hd : d.length < 4294967296) {f : Option Bytes → Prog γ} {y : Res δ}
    (hf : Follows alloc S (f (t.find d)) y) : Follows alloc S (findMask head d >>= f) y := by
  obtain ⟨r, e, hr⟩ := h.find hd
  have : findMask head d = Res.ok (some (t.find d)) := by
    simp only [findMask, e, Prog.lift, Res.bind_ok, hr]; rfl
  rw [this]
  exact hf

theorem Follows.add {alloc : Nat → Bool} (hm : NoHuge alloc) {head : MaskHead} {t : MaskTable}
    (h : Rep head t) {d m : Bytes} (hd : d.length < 4294967296) (hf : t.find d = none) :
    Follows alloc Rep (addMask alloc head d m) (.ok (t ++ [(d, m)])) := by
  obtain ⟨r, e, h1, h2⟩ := h.add hm (m := m) hd hf
  unfold addMask
  rw [e]
  cases r with
  | none => exact .inl ⟨rfl, h1 rfl⟩
  | some T => exact .inr (.inl ⟨_, _, rfl, rfl, h2 T rfl⟩)

theorem dirKey_length (p : Bytes) : (dirKey p).length < 4294967296 := by
  unfold dirKey
  split
  · decide
  · rcases lastSlash_lt p with h | h
    · contradiction
    · rw [List.length_take]; omega

/-- Masking adds only the directories above. -/
theorem maskKey_keys (e : CrEnv) (rand : Bytes → Bytes) : ∀ (fuel : Nat) (t : MaskTable) (p key : Bytes)
    (r : MaskOut), maskKey e rand fuel t p key = .ok r →
    ∀ d ∈ r.table.map (·.1), d ∈ t.map (·.1) ∨ d.head? = some 47 ∨ d.length < p.length
  | 0, _, _, _, _, h => by simp [maskKey] at h
  | fuel + 1, t, p, key, r, h => by
    have step : ∀ (t' : MaskTable) (m : Bytes),
        (∀ d ∈ t'.map (·.1), d ∈ t.map (·.1) ∨ d.head? = some 47 ∨ d.length < p.length) →
        ∀ d ∈ (addItem t.isEmpty t' (dirKey p) m).map (·.1),
          d ∈ t.map (·.1) ∨ d.head? = some 47 ∨ d.length < p.length := by
      intro t' m ht d hd
      have hk : (dirKey p).head? = some 47 ∨ (dirKey p).length < p.length := by
        by_cases hh : (dirKey p).head? = some 47
        · exact .inl hh
        · exact .inr (dirKey_shorter hh)
      unfold addItem at hd
      split at hd
      · simp only [List.map_cons, List.map_nil, List.mem_singleton] at hd
        subst hd; exact .inr hk
      · rw [List.map_append, List.mem_append] at hd
        rcases hd with hd | hd
        · exact ht d hd
        · simp only [List.map_cons, List.map_nil, List.mem_singleton] at hd
          subst hd; exact .inr hk
    have inner : ∀ (key' : Bytes) (o : MaskOut),
        (if (dirKey p).head? = some 47 then Res.ok ⟨t, key', 0, []⟩
          else maskKey e rand fuel t (dirKey p) key') = .ok o →
        ∀ d ∈ o.table.map (·.1), d ∈ t.map (·.1) ∨ d.head? = some 47 ∨ d.length < p.length := by
      intro key' o ho d hd
      split at ho
      · cases ho; exact .inl hd
      · rename_i hh
        rcases maskKey_keys e rand fuel t (dirKey p) key' o ho d hd with h | h | h
        · exact .inl h
        · exact .inr (.inl h)
        · exact .inr (.inr (Nat.lt_trans h (dirKey_shorter hh)))
    unfold maskKey at h
    dsimp only at h
    split at h
    · split at h
      · cases h; exact fun d hd => .inl hd
      · split at h
        · rename_i hh
          obtain ⟨o, ho, h⟩ := Res.bind_eq_ok.1 h
          have hin := inner _ o (by rw [if_pos hh]; exact ho)
          split at h
          · cases h; exact hin
          · cases h; exact step _ _ hin
        · rename_i hh
          obtain ⟨o, ho, h⟩ := Res.bind_eq_ok.1 h
          have hin := inner _ o (by rw [if_neg hh]; exact ho)
          split at h
          · cases h; exact hin
          · cases h; exact step _ _ hin
    · split at h
      · cases h; exact fun d hd => .inl hd
      · split at h
        · rename_i hh
          obtain ⟨o, ho, h⟩ := Res.bind_eq_ok.1 h
          have hin := inner _ o (by rw [if_pos hh]; exact ho)
          split at h
          · cases h; exact hin
          · cases h; exact step _ _ hin
        · rename_i hh
          obtain ⟨o, ho, h⟩ := Res.bind_eq_ok.1 h
          have hin := inner _ o (by rw [if_neg hh]; exact ho)
          split at h
          · cases h; exact hin
          · cases h; exact step _ _ hin

/-- Results of masking agree. -/
def SameMask (a : MaskHead × Bytes × Int × Bytes) (b : MaskOut) : Prop :=
  Rep a.1 b.table ∧ a.2.1 = b.key ∧ a.2.2.1 = b.ret ∧ a.2.2.2 = b.stored

theorem Follows.via {alloc : Nat → Bool} (hm : NoHuge alloc) {head now : MaskHead} {t t' : MaskTable}
    (h : Rep head t) (h' : Rep now t') {d m : Bytes} (hd : d.length < 4294967296) (hf : t'.find d = none) :
    Follows alloc Rep (addMaskVia alloc head now d m) (.ok (addItem t.isEmpty t' d m)) := by
  unfold addMaskVia addItem
  rw [h.isNone]
  split
  · exact Follows.add hm (head := none) (t := []) rfl hd rfl
  · exact Follows.add hm h' hd hf

theorem ite_bind {m : Type → Type _} [Monad m] {α β : Type} (c : Prop) [Decidable c] (x y : m α) (f : α → m β) :
    (if c then x >>= f else y >>= f) = (if c then x else y) >>= f := by split <;> rfl

theorem maskKeyH_follows (e : CrEnv) {alloc : Nat → Bool} (hm : NoHuge alloc) (rand : Bytes → Bytes) :
    ∀ (fuel : Nat) (head : MaskHead) (t : MaskTable) (p key : Bytes), Rep head t →
    Follows alloc SameMask (maskKeyH e alloc rand fuel head p key) (maskKey e rand fuel t p key)
  | 0, _, _, _, _, _ => Follows.ub _
  | fuel + 1, head, t, p, key, h => by
    have hd := dirKey_length p
    have inner : ∀ key' : Bytes, Follows alloc SameMask
        (if (dirKey p).head? = some 47 then pure (head, key', 0, [])
          else maskKeyH e alloc rand fuel head (dirKey p) key')
        (if (dirKey p).head? = some 47 then Res.ok ⟨t, key', 0, []⟩
          else maskKey e rand fuel t (dirKey p) key') := by
      intro key'
      split
      · exact Follows.pure ⟨h, rfl, rfl, rfl⟩
      · exact maskKeyH_follows e hm rand fuel head t (dirKey p) key' h
    have fresh : ∀ (key' : Bytes) (o : MaskOut), t.find (dirKey p) = none →
        (if (dirKey p).head? = some 47 then Res.ok ⟨t, key', 0, []⟩
          else maskKey e rand fuel t (dirKey p) key') = .ok o → o.table.find (dirKey p) = none := by
      intro key' o hf ho
      split at ho
      · cases ho; exact hf
      · rename_i hh
        rw [find_eq_none]
        intro hd
        rcases maskKey_keys e rand fuel t (dirKey p) key' o ho _ hd with h | h | h
        · exact find_eq_none.1 hf h
        · exact hh h
        · omega
    unfold maskKeyH maskKey
    dsimp only
    split
    · refine Follows.find h hd ?_
      cases hf : t.find (dirKey p) with
      | some m => exact Follows.pure ⟨h, rfl, rfl, rfl⟩
      | none =>
        simp only [Option.isSome_none, Bool.false_eq_true, ↓reduceIte]
        rw [ite_bind, ite_bind]
        refine Follows.bind (inner key) (fun a o ho hR => ?_)
        obtain ⟨h1, h2, h3, h4⟩ := hR
        rw [h3, h2]
        split
        · exact Follows.pure ⟨h1, rfl, rfl, rfl⟩
        · exact Follows.step (Follows.via hm h h1 hd (fresh key o hf ho)) (fun a hab => ⟨hab, rfl, rfl, rfl⟩)
    · refine Follows.find h hd ?_
      cases hf : t.find (dirKey p) with
      | some m => exact Follows.pure ⟨h, rfl, rfl, rfl⟩
      | none =>
        dsimp only
        rw [ite_bind, ite_bind]
        refine Follows.bind (inner _) (fun a o ho hR => ?_)
        obtain ⟨h1, h2, h3, h4⟩ := hR
        rw [h3, h2]
        split
        · exact Follows.pure ⟨h1, rfl, rfl, rfl⟩
        · exact Follows.step (Follows.via hm h h1 hd (fresh _ o hf ho)) (fun a hab => ⟨hab, rfl, rfl, rfl⟩)

/-- Results of a call agree. -/
def SameOut (a : MaskHead × α × β) (b : MaskTable × α × β) : Prop := Rep a.1 b.1 ∧ a.2 = b.2

theorem Follows.lift {alloc : Nat → Bool} {α : Type} (x : Res α) :
    Follows alloc (fun a b => a = b) (Prog.lift x) x := by
  cases x with
  | ok a => exact .inr (.inl ⟨a, a, rfl, rfl, rfl⟩)
  | ub k => exact .inr (.inr ⟨k, rfl, rfl⟩)

theorem crEncryptH_follows (e : CrEnv) {alloc : Nat → Bool} (hm : NoHuge alloc) {head : MaskHead}
    {t : MaskTable} (h : Rep head t) (p iv : Bytes) (rand : Bytes → Bytes) (inp : Bytes) (bad : Bool)
    (wOk : Nat → Bool) :
    Follows alloc SameOut (crEncryptH e alloc head p iv rand inp bad wOk)
      (crEncrypt e t p iv rand inp bad wOk) := by
  unfold crEncryptH crEncrypt
  split
  · exact Follows.pure ⟨h, rfl⟩
  · refine Follows.bind (maskKeyH_follows e hm rand _ head t p e.key h) (fun a b _ hR => ?_)
    obtain ⟨h1, h2, h3, h4⟩ := hR
    rw [h2, h3, h4]
    split
    · exact Follows.pure ⟨h1, rfl⟩
    · refine Follows.bind (Follows.lift _) (fun c d _ hR => ?_)
      subst hR
      exact Follows.pure ⟨h1, rfl⟩

/-! ## Decryption -/

theorem storeKeymaskH_follows {alloc : Nat → Bool} (hm : NoHuge alloc) {head : MaskHead} {t : MaskTable}
    (h : Rep head t) (p m : Bytes) :
    Follows alloc Rep (storeKeymaskH alloc head p m) (storeKeymask t p m) := by
  unfold storeKeymaskH storeKeymask
  by_cases h0 : p.length < 11
  · rw [if_pos h0, if_pos h0]; exact Follows.ub _
  · rw [if_neg h0, if_neg h0]
    dsimp only
    by_cases hl : longFileNameMax ≤ p.length - 12
    · rw [if_pos hl, if_pos hl]; exact Follows.ub _
    · rw [if_neg hl, if_neg hl]
      have hd : (if p.length = 11 ∨ p.length - 12 = 0 then b!"/" else p.take (p.length - 12)).length
          < 4294967296 := by
        split
        · decide
        · simp only [longFileNameMax] at hl; rw [List.length_take]; omega
      refine Follows.find h hd ?_
      cases hf : t.find (if p.length = 11 ∨ p.length - 12 = 0 then b!"/" else p.take (p.length - 12)) with
      | some x => exact Follows.pure h
      | none => exact Follows.add hm h hd hf

theorem decryptTailH_follows (e : CrEnv) {alloc : Nat → Bool} (hm : NoHuge alloc) {head : MaskHead}
    {t : MaskTable} (h : Rep head t) (p key : Bytes) (flag : Int) (content : Bytes) :
    Follows alloc SameOut (decryptTailH e alloc head p key flag content) (decryptTail e t p key flag content) := by
  unfold decryptTailH decryptTail
  split
  · exact Follows.ub _
  · dsimp only
    cases evpDecrypt e.C key ((content ++ [0]).take 16)
      ((content.drop 16).take (cInt ((content.length : Int) - 48)).toNat) (cInt ((content.length : Int) - 48)) with
    | none => exact Follows.pure ⟨h, rfl⟩
    | some plain =>
      dsimp only
      split
      · exact Follows.pure ⟨h, rfl⟩
      · split
        · split
          · exact Follows.ub _
          · exact Follows.bind (storeKeymaskH_follows hm h _ _)
              (fun a b _ hab => Follows.pure ⟨hab, rfl⟩)
        · exact Follows.pure ⟨h, rfl⟩

theorem demaskKeyH_follows (e : CrEnv) {alloc : Nat → Bool} (hm : NoHuge alloc) :
    ∀ (fuel : Nat) (head : MaskHead) (t : MaskTable) (p key : Bytes), Rep head t →
    Follows alloc SameOut (demaskKeyH e alloc fuel head p key) (demaskKey e fuel t p key)
  | 0, _, _, _, _, _ => Follows.ub _
  | fuel + 1, head, t, p, key, h => by
    unfold demaskKeyH demaskKey
    dsimp only
    split
    · split
      · exact Follows.pure ⟨h, rfl⟩
      · refine Follows.bind (demaskKeyH_follows e hm fuel head t _ key h) (fun a b _ hR => ?_)
        obtain ⟨t', k', r'⟩ := b
        obtain ⟨h1, h2⟩ := hR
        rw [h2]
        exact Follows.pure ⟨h1, rfl⟩
    · refine Follows.find h (dirKey_length p) ?_
      cases hf : t.find (dirKey p) with
      | some m => exact Follows.pure ⟨h, rfl⟩
      | none =>
        dsimp only
        split
        · exact Follows.ub _
        · generalize (if lastSlash p = 0 then b!"package.moc" else p.take (lastSlash p) ++ b!"/package.moc") = q
          cases e.read (snprintf longFileNameMax (e.basedir ++ b!"/" ++ q)) with
          | none => exact demaskKeyH_follows e hm fuel head t _ key h
          | some content =>
            dsimp only
            refine Follows.bind (demaskKeyH_follows e hm fuel head t _ e.key h) (fun a b _ hR => ?_)
            obtain ⟨t', k', r'⟩ := b
            obtain ⟨h1, h2⟩ := hR
            rw [h2]
            refine Follows.bind (decryptTailH_follows e hm h1 _ _ _ _) (fun a b _ hR => ?_)
            obtain ⟨t'', n', o'⟩ := b
            obtain ⟨h3, h4⟩ := hR
            rw [h4]
            dsimp only
            split
            · exact Follows.pure ⟨h3, rfl⟩
            · exact Follows.pure ⟨h3, rfl⟩

theorem crDecryptH_follows (e : CrEnv) {alloc : Nat → Bool} (hm : NoHuge alloc) {head : MaskHead}
    {t : MaskTable} (h : Rep head t) (p content : Bytes) :
    Follows alloc SameOut (crDecryptH e alloc head p content) (crDecrypt e t p content) := by
  unfold crDecryptH crDecrypt
  refine Follows.bind (demaskKeyH_follows e hm _ head t p e.key h) (fun a b _ hR => ?_)
  obtain ⟨t', k', r'⟩ := b
  obtain ⟨h1, h2⟩ := hR
  rw [h2]
  exact decryptTailH_follows e hm h1 _ _ _ _

end Semla
