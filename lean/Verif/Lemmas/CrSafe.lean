import Verif.Lemmas.CrLib

/-! # Helper lemmas: definedness of encryption and decryption -/

set_option linter.unusedSimpArgs false

namespace Semla

open Semla.Spec

theorem lastSepFrom_lt (b : Bytes) (i acc : Nat) :
    lastSepFrom b i acc = acc ∨ (i ≤ lastSepFrom b i acc ∧ lastSepFrom b i acc < i + b.length) := by
  induction b generalizing i acc with
  | nil => left; rfl
  | cons c cs ih =>
    simp only [lastSepFrom, List.length_cons]
    rcases ih (i + 1) (if isSep c then i else acc) with h | h
    · rw [h]; split
      · right; omega
      · left; rfl
    · right; omega

theorem lastSlash_lt (p : Bytes) : lastSlash p = 0 ∨ lastSlash p < min 4096 p.length := by
  rcases lastSepFrom_lt (p.take longFileNameMax) 0 0 with h | h
  · left; exact h
  · right
    unfold lastSlash
    have := h.2
    simp only [List.length_take, longFileNameMax] at this ⊢
    omega

theorem dirKey_shorter {p : Bytes} (h : (dirKey p).head? ≠ some 47) : (dirKey p).length < p.length := by
  unfold dirKey at *
  split
  · rename_i h0; simp [h0] at h
  · rcases lastSlash_lt p with h1 | h1
    · contradiction
    · simp; omega

/-- Key masking never goes wrong in memory; a drawn mask is returned exactly for package files. -/
theorem maskKey_defined (e : CrEnv) (rand : Bytes → Bytes) (fuel : Nat) (t : MaskTable)
    (p key : Bytes) (hf : p.length < fuel) :
    ∃ m, maskKey e rand fuel t p key = .ok m ∧
      (m.ret = -1 ∨ (m.ret = 1 ∧ eqNoCase b!"package.mo" (fileName p) = true ∧ m.stored = rand (dirKey p)) ∨
        (m.ret = 0 ∧ eqNoCase b!"package.mo" (fileName p) = false ∧ m.stored = [])) := by
  induction fuel generalizing t p key with
  | zero => omega
  | succ fuel ih =>
    simp only [maskKey]
    by_cases hp : eqNoCase b!"package.mo" (fileName p) = true
    · simp only [hp, if_true]
      cases t.find (dirKey p) with
      | some m => exact ⟨_, rfl, Or.inl rfl⟩
      | none =>
        by_cases hh : (dirKey p).head? = some 47
        · simp only [hh, if_true, Res.bind_ok]
          exact ⟨_, rfl, by simp⟩
        · have := dirKey_shorter hh
          obtain ⟨m, h1, h2⟩ := ih t (dirKey p) key (by omega)
          simp only [hh, if_false, h1, Res.bind_ok]
          split
          · exact ⟨_, rfl, Or.inl rfl⟩
          · exact ⟨_, rfl, by simp⟩
    · simp only [hp]
      simp only [Bool.false_eq_true, if_false]
      cases t.find (dirKey p) with
      | some m => exact ⟨_, rfl, by simp⟩
      | none =>
        by_cases hh : (dirKey p).head? = some 47
        · simp only [hh, if_true, Res.bind_ok]
          exact ⟨_, rfl, by simp⟩
        · have := dirKey_shorter hh
          obtain ⟨m, h1, h2⟩ := ih t (dirKey p) (List.replicate e.keyLen 0) (by omega)
          simp only [hh, if_false, h1, Res.bind_ok]
          split
          · exact ⟨_, rfl, Or.inl rfl⟩
          · exact ⟨_, rfl, by simp⟩

theorem encBody_bad (e : CrEnv) (he : GoodEnv e) (key iv inp : Bytes) (hiv : iv.length = 16)
    (flag : Int) (stored : Bytes) :
    ∃ ws, encBody e key iv inp true flag stored = .ok (ws, false) := by
  obtain ⟨ws, h⟩ := encLoop_bad he.crypto key iv hiv (inp.length + 1) inp [] [] ⟨iv, []⟩
    (streamInv_init _ _ _) (by omega)
  exact ⟨ws, by simp [encBody, h]⟩

/-- Everything about one call of the encryptor. -/
theorem crEncrypt_spec (e : CrEnv) (he : GoodEnv e) (t : MaskTable) (p iv : Bytes)
    (hiv : iv.length = 16) (rand : Bytes → Bytes) (hr : ∀ d, (rand d).length = e.keyLen) (inp : Bytes)
    (bad : Bool) (wOk : Nat → Bool) :
    ∃ t' out ok, crEncrypt e t p iv rand inp bad wOk = .ok (t', out, ok) ∧
      (ok = true → bad = false ∧ ∃ key, Encrypted e.C key (key.take e.keyLen) iv
        (if eqNoCase b!"package.mo" (fileName p) then inp ++ rand (dirKey p) else inp) out) := by
  unfold crEncrypt
  split
  · exact ⟨t, [], false, rfl, by simp⟩
  · obtain ⟨m, h1, h2⟩ := maskKey_defined e rand (p.length + 2) t p e.key (by omega)
    simp only [h1, Res.bind_ok]
    by_cases hneg : m.ret < 0
    · simp only [hneg, if_true]
      exact ⟨_, _, _, rfl, by simp⟩
    · simp only [hneg, if_false]
      have hst : m.stored.length ≤ 32 := by
        rcases h2 with h2 | ⟨_, _, h2⟩ | ⟨_, _, h2⟩
        · omega
        · rw [h2, hr]; exact he.keyLen
        · simp [h2]
      cases bad with
      | true =>
        obtain ⟨ws, h3⟩ := encBody_bad e he m.key iv inp hiv m.ret m.stored
        simp only [h3, Res.bind_ok]
        exact ⟨_, _, _, rfl, by simp⟩
      | false =>
        obtain ⟨ws, h3, h4⟩ := encBody_spec e he m.key iv inp hiv m.ret m.stored hst
        simp only [h3, Res.bind_ok]
        refine ⟨_, _, _, rfl, ?_⟩
        intro hok
        refine ⟨by simp, m.key, ?_⟩
        have hrw : runWrites wOk 1 ws = ((runWrites wOk 1 ws).1, true) := by
          rw [Prod.eq_iff_fst_eq_snd_eq]; simp at hok; simp [hok]
        rw [runWrites_true hrw]
        have hpay : (inp ++ if m.ret ≠ 0 then m.stored else []) =
            (if eqNoCase b!"package.mo" (fileName p) then inp ++ rand (dirKey p) else inp) := by
          rcases h2 with h2 | ⟨h5, h6, h7⟩ | ⟨h5, h6, h7⟩
          · omega
          · rw [h5, h6, h7]; simp
          · rw [h5, h6]; simp
        rw [hpay] at h4
        exact h4

/-! ## Decryption -/

theorem splitBlocks_flatten (fuel : Nat) (d : Bytes) :
    (splitBlocks fuel d).1.flatten ++ (splitBlocks fuel d).2 = d ∧
      ∀ b ∈ (splitBlocks fuel d).1, b.length = 16 := by
  induction fuel generalizing d with
  | zero => simp [splitBlocks]
  | succ fuel ih =>
    unfold splitBlocks
    split
    · simp
    · rename_i h
      obtain ⟨h1, h2⟩ := ih (d.drop 16)
      refine ⟨by simp [List.append_assoc, h1], ?_⟩
      intro b hb
      rcases List.mem_cons.1 hb with rfl | hb
      · simp; omega
      · exact h2 b hb

theorem cbcDec_length_le (D : Bytes → Bytes) (hD : ∀ b, b.length = 16 → (D b).length = 16)
    (prev : Bytes) (hp : prev.length = 16) (cs : List Bytes) (hc : ∀ c ∈ cs, c.length = 16) :
    (cbcDec D prev cs).length = 16 * cs.length := by
  induction cs generalizing prev with
  | nil => rfl
  | cons c cs ih =>
    have h0 := hc c (by simp)
    simp [cbcDec, ih c h0 fun c h => hc c (by simp [h]), hD c h0, hp]; omega

theorem evpDecrypt_length {C : Crypto} (hC : C.Good) {key iv enc plain : Bytes} {n : Int}
    (hiv : iv.length = 16) (h : evpDecrypt C key iv enc n = some plain) :
    plain.length < enc.length ∧ enc.length ≤ plain.length + 16 ∧ enc.length % 16 = 0 := by
  unfold evpDecrypt at h
  split at h
  · simp at h
  · obtain ⟨h1, h2⟩ := splitBlocks_flatten enc.length enc
    simp only at h
    split at h
    · simp at h
    · rename_i hs
      simp only [ne_eq, Decidable.not_not] at hs
      rw [hs, List.append_nil] at h1
      have hl := cbcDec_length_le (C.dec key) (hC.dec_length key) iv hiv _ h2
      have hf := flatten_length16 _ h2
      rw [h1] at hf
      rw [← hf] at hl
      split at h
      · simp at h
      · rename_i hne p hp
        split at h
        · simp at h
        · rename_i hpn
          split at h
          · simp only [Option.some.injEq] at h
            have h0 : 0 < (cbcDec (C.dec key) iv (splitBlocks enc.length enc).1).length := by
              apply List.length_pos_iff.2; intro h'; rw [h'] at hp; simp at hp
            rw [← h, List.length_take, hl]
            rw [hl] at h0
            omega
          · simp at h

/-- What success of the decryption step means. -/
theorem decryptTail_ok {e : CrEnv} {t t' : MaskTable} {p key content out : Bytes} {flag n : Int}
    (h : decryptTail e t p key flag content = .ok (t', n, out)) (hn : 0 ≤ n) :
    e.C.mac (key.take e.keyLen) ((content ++ [0]).take 16 ++ out) = content.drop (content.length - 32) ∧
    evpDecrypt e.C key ((content ++ [0]).take 16)
      ((content.drop 16).take (cInt ((content.length : Int) - 48)).toNat)
      (cInt ((content.length : Int) - 48)) = some out ∧
    n = (if flag ≠ 0 then ((out.length - e.keyLen : Nat) : Int) else (out.length : Int)) := by
  unfold decryptTail at h
  split at h
  · simp at h
  · simp only at h
    split at h
    · simp at h; omega
    · rename_i plain hp
      split at h
      · simp at h; omega
      · rename_i hm
        simp only [ne_eq, Decidable.not_not] at hm
        split at h
        · rename_i hfl
          split at h
          · simp at h
          · rw [Res.bind_eq_ok] at h
            obtain ⟨t2, _, h3⟩ := h
            simp only [Res.ok.injEq, Prod.mk.injEq] at h3
            obtain ⟨_, h4, h5⟩ := h3
            subst h5
            exact ⟨hm, hp, by simp [hfl, ← h4]⟩
        · rename_i hfl
          simp only [Res.ok.injEq, Prod.mk.injEq] at h
          obtain ⟨_, h4, h5⟩ := h
          subst h5
          exact ⟨hm, hp, by simp [hfl, ← h4]⟩

/-- An encrypted file has at least the IV and the MAC. -/
theorem decryptTail_ok_length {e : CrEnv} (he : GoodEnv e) {t t' : MaskTable}
    {p key content out : Bytes} {flag n : Int}
    (h : decryptTail e t p key flag content = .ok (t', n, out)) (hn : 0 ≤ n) :
    out.length < content.length - 16 ∧ n ≤ out.length := by
  have hc : ¬ content.length + 1 < 16 := by
    intro hc; unfold decryptTail at h; simp [hc] at h
  obtain ⟨h1, h2, h3⟩ := decryptTail_ok h hn
  have := (evpDecrypt_length he.crypto (by simp; omega) h2).1
  refine ⟨by simp at this; omega, ?_⟩
  rw [h3]; split <;> omega

theorem decryptTail_out_length {e : CrEnv} (he : GoodEnv e) {t t' : MaskTable}
    {p key content out : Bytes} {flag n : Int}
    (h : decryptTail e t p key flag content = .ok (t', n, out)) :
    out.length ≤ content.length ∧ -1 ≤ n ∧ n ≤ out.length := by
  have hc : ¬ content.length + 1 < 16 := by
    intro hc; unfold decryptTail at h; simp [hc] at h
  unfold decryptTail at h
  rw [if_neg hc] at h
  simp only at h
  split at h
  · simp at h; obtain ⟨-, rfl, rfl⟩ := h; simp
  · rename_i plain hp
    have hl := (evpDecrypt_length he.crypto (by simp; omega) hp).1
    have hle : plain.length ≤ content.length := by simp at hl; omega
    split at h
    · simp only [Res.ok.injEq, Prod.mk.injEq] at h
      obtain ⟨-, rfl, rfl⟩ := h
      exact ⟨hle, by omega, by omega⟩
    · split at h
      · split at h
        · simp at h
        · rw [Res.bind_eq_ok] at h
          obtain ⟨t2, _, h3⟩ := h
          simp only [Res.ok.injEq, Prod.mk.injEq] at h3
          obtain ⟨-, rfl, rfl⟩ := h3
          exact ⟨hle, by omega, by omega⟩
      · simp only [Res.ok.injEq, Prod.mk.injEq] at h
        obtain ⟨-, rfl, rfl⟩ := h
        exact ⟨hle, by omega, by omega⟩

/-- File contents on which decryption is safe: enough for the IV, and if it is long enough to be
accepted then long enough for a key mask. -/
def SafeContent (e : CrEnv) (content : Bytes) : Prop :=
  15 ≤ content.length ∧ (content.length < 64 ∨ 64 + e.keyLen ≤ content.length) ∧
    content.length < 2 ^ 31

theorem storeKeymask_defined (t : MaskTable) (p m : Bytes) (h1 : 11 ≤ p.length)
    (h2 : p.length < 4108) : ∃ t', storeKeymask t p m = .ok t' := by
  unfold storeKeymask
  rw [if_neg (by omega)]
  simp only
  rw [if_neg (by simp [longFileNameMax]; omega)]
  cases t.find (if p.length = 11 ∨ p.length - 12 = 0 then b!"/" else p.take (p.length - 12)) with
  | some _ => exact ⟨_, rfl⟩
  | none => exact ⟨_, rfl⟩

theorem decryptTail_defined (e : CrEnv) (he : GoodEnv e) (t : MaskTable) (p key : Bytes)
    (flag : Int) (content : Bytes) (hc : SafeContent e content)
    (hp : flag ≠ 0 → 11 ≤ p.length ∧ p.length < 4108) :
    ∃ r, decryptTail e t p key flag content = .ok r := by
  obtain ⟨h1, h2, h3⟩ := hc
  unfold decryptTail
  rw [if_neg (by omega)]
  simp only
  split
  · exact ⟨_, rfl⟩
  · rename_i plain hpl
    have hl := evpDecrypt_length he.crypto (by simp; omega) hpl
    have hpos : ¬ cInt ((content.length : Int) - 48) ≤ 0 := by
      intro h; unfold evpDecrypt at hpl; simp [h] at hpl
    rw [cInt_small (by omega) (by omega)] at hl hpos
    have hlen : plain.length + 64 ≥ content.length := by
      have := hl.2.1
      simp at this; omega
    split
    · exact ⟨_, rfl⟩
    · split
      · rename_i hfl
        have h64 : 64 ≤ content.length := by
          have h5 := hl.1
          have h6 := hl.2.2
          simp at h5 h6; omega
        rw [if_neg (by omega)]
        obtain ⟨t', ht'⟩ := storeKeymask_defined t p (plain.drop (plain.length - e.keyLen)) (hp hfl).1 (hp hfl).2
        rw [ht']
        exact ⟨_, rfl⟩
      · exact ⟨_, rfl⟩

theorem demaskKey_defined (e : CrEnv) (he : GoodEnv e) (N : Nat)
    (hfs : ∀ q content, b!"package.moc" <:+ q → q.length ≤ N →
      e.read (snprintf longFileNameMax (e.basedir ++ b!"/" ++ q)) = some content → SafeContent e content)
    (fuel : Nat) (t : MaskTable) (p key : Bytes) (hp : p.length ≤ 4095)
    (hf : 2 * lastSlash p + (if eqNoCase b!"package.moc" (fileName p) then 1 else 2) ≤ fuel)
    (hls : lastSlash p + 13 ≤ 4096) (hN : lastSlash p + 12 ≤ N) :
    ∃ r, demaskKey e fuel t p key = .ok r := by
  induction fuel generalizing t p key with
  | zero => split at hf <;> omega
  | succ fuel ih =>
    -- the directory of `p`
    have hdir : ∀ t key, lastSlash p ≠ 0 → 2 * lastSlash p + 1 ≤ fuel + 1 →
        ∃ r, demaskKey e fuel t (p.take (lastSlash p)) key = .ok r := by
      intro t key h0 hf'
      have hlt := lastSlash_lt p
      have hlen : (p.take (lastSlash p)).length = lastSlash p := by simp; omega
      have h1 := lastSlash_lt (p.take (lastSlash p))
      rw [hlen] at h1
      apply ih
      · omega
      · split <;> omega
      · omega
      · omega
    -- its package file
    have hpkg : ∀ t key q, q = (if lastSlash p = 0 then b!"package.moc"
        else p.take (lastSlash p) ++ b!"/package.moc") → 2 * lastSlash p + 2 ≤ fuel + 1 →
        (∃ r, demaskKey e fuel t q key = .ok r) ∧ 11 ≤ q.length ∧ q.length < 4108 ∧ q.length ≤ N ∧
          b!"package.moc" <:+ q := by
      intro t key q hq hf'
      by_cases h0 : lastSlash p = 0
      · rw [if_pos h0] at hq
        subst hq
        have hz : lastSlash b!"package.moc" = 0 := lastSlash_name _ isName_packagec
        refine ⟨ih t _ key (by simp) ?_ (by rw [hz]; omega) (by rw [hz]; omega), by simp, by simp, by simp; omega,
          List.suffix_refl _⟩
        rw [hz]; split <;> rename_i h
        · omega
        · exfalso; apply h; unfold fileName; rw [if_pos hz]; exact eqNoCase_self _
      · have hlt := lastSlash_lt p
        have hlen : (p.take (lastSlash p)).length = lastSlash p := by simp; omega
        rw [if_neg h0, show b!"/package.moc" = b!"/" ++ b!"package.moc" from rfl, ← List.append_assoc] at hq
        have hz : lastSlash q = lastSlash p := by
          rw [hq, lastSlash_join' _ _ isName_packagec (by omega), hlen]
        have hql : q.length = lastSlash p + 12 := by rw [hq]; simp; omega
        have hfn : fileName q = b!"package.moc" := by
          unfold fileName
          rw [hz, if_neg h0, hq]
          have : lastSlash p + 1 = (p.take (lastSlash p) ++ b!"/").length := by simp; omega
          rw [this, List.drop_left]
        refine ⟨ih t q key (by omega) ?_ (by omega) (by omega), by omega, by omega, by omega,
          by rw [hq]; exact List.suffix_append _ _⟩
        rw [hz, hfn, eqNoCase_self]; simp; omega
    unfold demaskKey
    simp only
    by_cases hpk : eqNoCase b!"package.moc" (fileName p) = true
    · simp only [hpk, if_true] at hf ⊢
      by_cases h0 : lastSlash p = 0
      · rw [if_pos h0]; exact ⟨_, rfl⟩
      · rw [if_neg h0]
        obtain ⟨⟨t1, k1, r1⟩, h1⟩ := hdir t key h0 hf
        rw [h1]
        exact ⟨_, rfl⟩
    · simp only [hpk] at hf ⊢
      simp only [Bool.false_eq_true, if_false] at hf ⊢
      cases t.find (dirKey p) with
      | some m => exact ⟨_, rfl⟩
      | none =>
        simp only
        rw [if_neg (by simp only [longFileNameMax]; omega)]
        split
        · exact (hpkg t key _ rfl hf).1
        · rename_i content hread
          obtain ⟨⟨⟨t1, k1, f1⟩, h1⟩, h2, h3, h4, h5⟩ := hpkg t e.key _ rfl hf
          rw [h1]
          simp only [Res.bind_ok]
          obtain ⟨⟨t2, n2, o2⟩, h6⟩ := decryptTail_defined e he t1 _ k1 f1 content (hfs _ _ h5 h4 hread)
            (fun _ => ⟨h2, h3⟩)
          rw [h6]
          simp only [Res.bind_ok]
          split
          · exact ⟨_, rfl⟩
          · exact ⟨_, rfl⟩

end Semla
