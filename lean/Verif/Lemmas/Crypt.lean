import Verif.Spec.Crypt
import Mathlib.Tactic.Ring

/-! # Helper lemmas: CBC streaming, encryption and decryption of one file -/

set_option linter.unusedSimpArgs false

namespace Semla

open Semla.Spec

/-! ## xor -/

@[simp] theorem xorBytes_length (a b : Bytes) : (xorBytes a b).length = min a.length b.length := by
  simp [xorBytes]

theorem xorBytes_cancel (a b : Bytes) (h : a.length ≤ b.length) : xorBytes (xorBytes a b) b = a := by
  induction a generalizing b with
  | nil => simp [xorBytes]
  | cons x xs ih =>
    cases b with
    | nil => simp at h
    | cons y ys =>
      simp only [xorBytes, List.zipWith_cons_cons, List.cons.injEq] at *
      exact ⟨by rw [UInt8.xor_assoc, UInt8.xor_self, UInt8.xor_zero], ih ys (by simpa using h)⟩

theorem xorBytes_comm (a b : Bytes) : xorBytes a b = xorBytes b a := by
  unfold xorBytes; rw [List.zipWith_comm]; congr; funext x y; exact UInt8.xor_comm _ _

theorem xorBytes_assoc (a b c : Bytes) : xorBytes (xorBytes a b) c = xorBytes a (xorBytes b c) := by
  induction a generalizing b c with
  | nil => simp [xorBytes]
  | cons x xs ih =>
    cases b with
    | nil => simp [xorBytes]
    | cons y ys =>
      cases c with
      | nil => simp [xorBytes]
      | cons z zs =>
        have := ih ys zs
        simp only [xorBytes, List.zipWith_cons_cons, List.cons.injEq] at *
        exact ⟨UInt8.xor_assoc _ _ _, this⟩

theorem xorBytes_zero (a : Bytes) (n : Nat) (h : a.length ≤ n) :
    xorBytes a (List.replicate n 0) = a := by
  induction a generalizing n with
  | nil => simp [xorBytes]
  | cons x xs ih =>
    cases n with
    | zero => simp at h
    | succ n =>
      have := ih n (by simpa using h)
      simp only [xorBytes, List.replicate_succ, List.zipWith_cons_cons, List.cons.injEq] at *
      exact ⟨UInt8.xor_zero, this⟩

theorem xorBytes_right_inj (a b c : Bytes) (hb : b.length = a.length) (hc : c.length = a.length)
    (h : xorBytes a b = xorBytes a c) : b = c := by
  have h1 := xorBytes_cancel b a (by omega)
  have h2 := xorBytes_cancel c a (by omega)
  rw [xorBytes_comm b a, h, xorBytes_comm a c] at h1
  rw [← h1, h2]

/-! ## blocks -/

theorem splitBlocks_blocks (bs : List Bytes) (r : Bytes) (hb : ∀ b ∈ bs, b.length = 16)
    (hr : r.length < 16) (fuel : Nat) (hf : bs.length ≤ fuel) :
    splitBlocks fuel (bs.flatten ++ r) = (bs, r) := by
  induction bs generalizing fuel with
  | nil => cases fuel <;> simp [splitBlocks, hr]
  | cons b bs ih =>
    obtain ⟨f, rfl⟩ : ∃ f, fuel = f + 1 := ⟨fuel - 1, by simp at hf; omega⟩
    have hb0 : b.length = 16 := hb b (by simp)
    have h1 : ((b ++ (bs.flatten ++ r)).drop 16) = bs.flatten ++ r := by
      rw [← hb0, List.drop_left]
    have h2 : ((b ++ (bs.flatten ++ r)).take 16) = b := by
      rw [← hb0, List.take_left]
    have h3 : ¬ (b ++ (bs.flatten ++ r)).length < 16 := by simp; omega
    rw [List.flatten_cons, List.append_assoc, splitBlocks, if_neg h3, h1, h2,
      ih (fun b hb' => hb b (by simp [hb'])) f (by simp at hf; omega)]

theorem exists_blocks (d : Bytes) : ∃ (bs : List Bytes) (r : Bytes), (∀ b ∈ bs, b.length = 16) ∧ r.length < 16 ∧
    bs.flatten ++ r = d := by
  induction h : d.length using Nat.strongRecOn generalizing d with
  | _ n ih =>
    by_cases hd : d.length < 16
    · exact ⟨[], d, by simp, hd, by simp⟩
    · obtain ⟨bs, r, h1, h2, h3⟩ := ih (d.drop 16).length (by simp; omega) (d.drop 16) rfl
      refine ⟨d.take 16 :: bs, r, ?_, h2, ?_⟩
      · intro b hb
        rcases List.mem_cons.1 hb with rfl | hb
        · simp; omega
        · exact h1 b hb
      · simp [List.append_assoc, h3]

theorem flatten_length16 (bs : List Bytes) (hb : ∀ b ∈ bs, b.length = 16) :
    bs.flatten.length = 16 * bs.length := by
  induction bs with
  | nil => simp
  | cons b bs ih =>
    simp [hb b (by simp), ih (fun b h => hb b (by simp [h]))]; omega

theorem splitBlocks_eq (bs : List Bytes) (r d : Bytes) (hb : ∀ b ∈ bs, b.length = 16)
    (hr : r.length < 16) (hd : bs.flatten ++ r = d) : splitBlocks d.length d = (bs, r) := by
  subst hd
  apply splitBlocks_blocks bs r hb hr
  have := flatten_length16 bs hb
  rw [List.length_append]; omega

theorem cbcEnc_append (E : Bytes → Bytes) (p : Bytes) (a b : List Bytes) :
    cbcEnc E p (a ++ b) =
      ((cbcEnc E p a).1 ++ (cbcEnc E (cbcEnc E p a).2 b).1, (cbcEnc E (cbcEnc E p a).2 b).2) := by
  induction a generalizing p with
  | nil => simp [cbcEnc]
  | cons x xs ih => simp [cbcEnc, ih]

theorem cbcEnc_eq_cbc (E : Bytes → Bytes) (p : Bytes) (bs : List Bytes) :
    (cbcEnc E p bs).1 = (cbc E p bs).flatten := by
  induction bs generalizing p with
  | nil => rfl
  | cons b bs ih => simp [cbcEnc, cbc, ih, xorBytes]

theorem cbcEnc_length (E : Bytes → Bytes) (hE : ∀ b, b.length = 16 → (E b).length = 16) (p : Bytes)
    (hp : p.length = 16) (bs : List Bytes) (hb : ∀ b ∈ bs, b.length = 16) :
    (cbcEnc E p bs).1.length = 16 * bs.length ∧ (cbcEnc E p bs).2.length = 16 := by
  induction bs generalizing p with
  | nil => simp [cbcEnc, hp]
  | cons b bs ih =>
    have hc : (E (xorBytes b p)).length = 16 := hE _ (by simp [hb b (by simp), hp])
    obtain ⟨h1, h2⟩ := ih _ hc (fun b h => hb b (by simp [h]))
    simp [cbcEnc, h1, h2, hc]; omega

theorem cbc_blocks (E : Bytes → Bytes) (hE : ∀ b, b.length = 16 → (E b).length = 16) (p : Bytes)
    (hp : p.length = 16) (bs : List Bytes) (hb : ∀ b ∈ bs, b.length = 16) :
    (cbc E p bs).length = bs.length ∧ ∀ c ∈ cbc E p bs, c.length = 16 := by
  induction bs generalizing p with
  | nil => simp [cbc]
  | cons b bs ih =>
    have hc : (E (List.zipWith (· ^^^ ·) b p)).length = 16 := hE _ (by simp [hb b (by simp), hp])
    obtain ⟨h1, h2⟩ := ih _ hc (fun b h => hb b (by simp [h]))
    simp only [cbc, List.length_cons, h1, List.mem_cons, forall_eq_or_imp, true_and]
    exact ⟨hc, h2⟩

theorem cbcDec_cbc (C : Crypto) (hC : C.Good) (k p : Bytes) (hp : p.length = 16) (bs : List Bytes)
    (hb : ∀ b ∈ bs, b.length = 16) : cbcDec (C.dec k) p (cbc (C.enc k) p bs) = bs.flatten := by
  induction bs generalizing p with
  | nil => rfl
  | cons b bs ih =>
    have hb0 := hb b (by simp)
    have hx : (xorBytes b p).length = 16 := by simp [hb0, hp]
    have hc : (C.enc k (xorBytes b p)).length = 16 := hC.enc_length _ _ hx
    have := ih _ hc (fun b h => hb b (by simp [h]))
    show cbcDec (C.dec k) p (C.enc k (xorBytes b p) :: cbc (C.enc k) (C.enc k (xorBytes b p)) bs) = _
    rw [cbcDec, this, hC.dec_enc _ _ hx, xorBytes_cancel _ _ (by omega), List.flatten_cons]

/-! ## Streaming encryption -/

/-- The state of a streaming encryption after input `d`: `out` has been produced. -/
def StreamInv (C : Crypto) (key iv d : Bytes) (ctx : EncCtx) (out : Bytes) : Prop :=
  ∃ bs, (∀ b ∈ bs, b.length = 16) ∧ ctx.buf.length < 16 ∧ bs.flatten ++ ctx.buf = d ∧
    out = (cbcEnc (C.enc key) iv bs).1 ∧ ctx.prev = (cbcEnc (C.enc key) iv bs).2

theorem streamInv_init (C : Crypto) (key iv : Bytes) : StreamInv C key iv [] ⟨iv, []⟩ [] :=
  ⟨[], by simp, by simp, by simp, by simp [cbcEnc], by simp [cbcEnc]⟩

theorem streamInv_update {C : Crypto} (hC : C.Good) {key iv d out : Bytes} {ctx : EncCtx}
    (hiv : iv.length = 16)
    (h : StreamInv C key iv d ctx out) (inp : Bytes) :
    StreamInv C key iv (d ++ inp) (encUpdate C key ctx inp).2 (out ++ (encUpdate C key ctx inp).1) ∧
    (encUpdate C key ctx inp).1.length ≤ 15 + inp.length := by
  obtain ⟨bs, hb, hbuf, hd, ho, hp⟩ := h
  obtain ⟨bs', r, hb', hr, hd'⟩ := exists_blocks (ctx.buf ++ inp)
  have hs := splitBlocks_eq bs' r _ hb' hr hd'
  simp only [encUpdate, hs]
  refine ⟨⟨bs ++ bs', ?_, hr, ?_, ?_, ?_⟩, ?_⟩
  · intro b hb1; rcases List.mem_append.1 hb1 with h | h; exacts [hb b h, hb' b h]
  · rw [List.flatten_append, List.append_assoc, hd', ← List.append_assoc, hd]
  · rw [cbcEnc_append, ← hp, ho]
  · rw [cbcEnc_append, ← hp]
  · have hpl : ctx.prev.length = 16 := by
      rw [hp]; exact (cbcEnc_length _ (hC.enc_length key) iv hiv bs hb).2
    rw [(cbcEnc_length _ (hC.enc_length key) _ hpl bs' hb').1]
    have h1 := flatten_length16 bs' hb'
    have h2 := congrArg List.length hd'
    rw [List.length_append, List.length_append] at h2; omega

theorem ofNat_toNat_small {n : Nat} (h : n ≤ 16) : (UInt8.ofNat n).toNat = n := by
  simp; omega

theorem streamInv_final {C : Crypto} {key iv d out : Bytes} {ctx : EncCtx} (macKey : Bytes)
    (h : StreamInv C key iv d ctx out) :
    Encrypted C key macKey iv d (iv ++ (out ++ encFinal C key ctx) ++ C.mac macKey (iv ++ d)) := by
  obtain ⟨bs, hb, hbuf, hd, ho, hp⟩ := h
  refine ⟨bs ++ [ctx.buf ++ List.replicate (16 - ctx.buf.length) (UInt8.ofNat (16 - ctx.buf.length))],
    16 - ctx.buf.length, by omega, by omega, ?_, ?_, ?_⟩
  · intro b hb1
    rcases List.mem_append.1 hb1 with h | h
    · exact hb b h
    · simp at h; subst h; simp; omega
  · simp [← hd]
  · rw [← cbcEnc_eq_cbc, cbcEnc_append, ho, encFinal, hp]

theorem encLoop_spec {C : Crypto} (hC : C.Good) (key iv : Bytes) (hiv : iv.length = 16) (fuel : Nat)
    (inp d out : Bytes) (ctx : EncCtx) (h : StreamInv C key iv d ctx out) (hf : inp.length < fuel) :
    ∃ ws ctx', encLoop C key false fuel ctx inp = .ok (ws, some ctx') ∧
      StreamInv C key iv (d ++ inp) ctx' (out ++ ws.flatten) := by
  induction fuel generalizing inp d out ctx with
  | zero => omega
  | succ fuel ih =>
    by_cases hlen : inp.length < readBufLen
    · obtain ⟨h1, h2⟩ := streamInv_update hC hiv h inp
      refine ⟨[(encUpdate C key ctx inp).1], (encUpdate C key ctx inp).2, ?_, by simpa using h1⟩
      have : (encUpdate C key ctx inp).1.length ≤ cryptBufLen := by
        simp [cryptBufLen, readBufLen] at *; omega
      simp [encLoop, hlen, encUpdateBuf, this]
    · obtain ⟨h1, h2⟩ := streamInv_update hC hiv h (inp.take readBufLen)
      have hr : readBufLen ≤ inp.length := by omega
      have : (encUpdate C key ctx (inp.take readBufLen)).1.length ≤ cryptBufLen := by
        simp [cryptBufLen] at *; omega
      obtain ⟨ws, ctx', h3, h4⟩ := ih (inp.drop readBufLen) _ _ _ h1
        (by simp [readBufLen] at *; omega)
      refine ⟨(encUpdate C key ctx (inp.take readBufLen)).1 :: ws, ctx', ?_, ?_⟩
      · simp [encLoop, hlen, encUpdateBuf, this, h3]
      · simpa [List.append_assoc] using h4

theorem encLoop_bad {C : Crypto} (hC : C.Good) (key iv : Bytes) (hiv : iv.length = 16) (fuel : Nat)
    (inp d out : Bytes) (ctx : EncCtx) (h : StreamInv C key iv d ctx out) (hf : inp.length < fuel) :
    ∃ ws, encLoop C key true fuel ctx inp = .ok (ws, none) := by
  induction fuel generalizing inp d out ctx with
  | zero => omega
  | succ fuel ih =>
    by_cases hlen : inp.length < readBufLen
    · exact ⟨[], by simp [encLoop, hlen]⟩
    · obtain ⟨h1, h2⟩ := streamInv_update hC hiv h (inp.take readBufLen)
      have hr : readBufLen ≤ inp.length := by omega
      have : (encUpdate C key ctx (inp.take readBufLen)).1.length ≤ cryptBufLen := by
        simp [cryptBufLen] at *; omega
      obtain ⟨ws, h3⟩ := ih (inp.drop readBufLen) _ _ _ h1 (by simp [readBufLen] at *; omega)
      exact ⟨(encUpdate C key ctx (inp.take readBufLen)).1 :: ws,
        by simp [encLoop, hlen, encUpdateBuf, this, h3]⟩

theorem encBody_spec (e : CrEnv) (he : GoodEnv e) (key iv inp : Bytes) (hiv : iv.length = 16)
    (flag : Int) (stored : Bytes) (hs : stored.length ≤ 32) :
    ∃ ws, encBody e key iv inp false flag stored = .ok (ws, true) ∧
      Encrypted e.C key (key.take e.keyLen) iv (inp ++ if flag ≠ 0 then stored else [])
        (iv ++ ws.flatten) := by
  obtain ⟨ws, ctx, h1, h2⟩ := encLoop_spec he.crypto key iv hiv (inp.length + 1) inp [] [] ⟨iv, []⟩
    (streamInv_init _ _ _) (by omega)
  simp only [List.nil_append] at h2
  unfold encBody
  simp only [h1, Res.bind_ok]
  by_cases hfl : flag ≠ 0
  · obtain ⟨h3, h4⟩ := streamInv_update he.crypto hiv h2 stored
    have : (encUpdate e.C key ctx stored).1.length ≤ cryptBufLen := by
      simp [cryptBufLen, readBufLen] at *; omega
    refine ⟨_, by simp [hfl, encUpdateBuf, this]; rfl, ?_⟩
    have := streamInv_final (key.take e.keyLen) h3
    simpa [hfl, List.append_assoc] using this
  · refine ⟨_, by simp [hfl]; rfl, ?_⟩
    have := streamInv_final (key.take e.keyLen) h2
    simpa [hfl, List.append_assoc] using this

theorem runWrites_all (wOk : Nat → Bool) (hw : ∀ i, wOk i = true) (i : Nat) (ws : List Bytes) :
    runWrites wOk i ws = (ws.flatten, true) := by
  induction ws generalizing i with
  | nil => rfl
  | cons w ws ih => simp [runWrites, hw, ih]

theorem runWrites_true {wOk : Nat → Bool} {i : Nat} {ws : List Bytes} {o : Bytes}
    (h : runWrites wOk i ws = (o, true)) : o = ws.flatten := by
  induction ws generalizing i o with
  | nil => simp [runWrites] at h; simp [h]
  | cons w ws ih =>
    simp only [runWrites] at h
    split at h
    · simp only [Prod.mk.injEq] at h
      have := ih (i := i + 1) (o := (runWrites wOk (i + 1) ws).1)
        (by rw [← h.2])
      rw [← h.1, this]; simp
    · simp at h

/-! ## Decryption -/

theorem encrypted_length {C : Crypto} (hC : C.Good) {key macKey iv payload out : Bytes}
    (hiv : iv.length = 16) (h : Encrypted C key macKey iv payload out) :
    out.length = 16 + 16 * (payload.length / 16 + 1) + 32 := by
  obtain ⟨bs, pad, h1, h2, hb, hf, ho⟩ := h
  have hl := flatten_length16 bs hb
  rw [hf] at hl
  simp at hl
  obtain ⟨hc, hcl⟩ := cbc_blocks (C.enc key) (hC.enc_length key) iv hiv bs hb
  have := flatten_length16 _ hcl
  rw [ho]
  simp [hiv, hC.mac_length, hc] at this ⊢
  omega

theorem evpDecrypt_encrypted {C : Crypto} (hC : C.Good) (key iv : Bytes) (hiv : iv.length = 16)
    (payload : Bytes) (bs : List Bytes) (pad : Nat) (h1 : 1 ≤ pad) (h2 : pad ≤ 16)
    (hb : ∀ b ∈ bs, b.length = 16)
    (hf : bs.flatten = payload ++ List.replicate pad (UInt8.ofNat pad)) (n : Int) (hn : 0 < n) :
    evpDecrypt C key iv (cbc (C.enc key) iv bs).flatten n = some payload := by
  obtain ⟨hc, hcl⟩ := cbc_blocks (C.enc key) (hC.enc_length key) iv hiv bs hb
  have hs := splitBlocks_eq (cbc (C.enc key) iv bs) [] _ hcl (by simp) (List.append_nil _)
  have hd := cbcDec_cbc C hC key iv hiv bs hb
  unfold evpDecrypt
  rw [if_neg (by omega)]
  simp only [hs, hd, hf]
  have hlast : (payload ++ List.replicate pad (UInt8.ofNat pad)).getLast? = some (UInt8.ofNat pad) := by
    obtain ⟨q, rfl⟩ : ∃ q, pad = q + 1 := ⟨pad - 1, by omega⟩
    rw [List.replicate_succ', ← List.append_assoc]; simp
  simp only [hlast, ofNat_toNat_small h2]
  have h3 : ¬ (pad = 0 ∨ 16 < pad) := by omega
  simp [h3]

theorem cInt_small {n : Int} (h1 : -2147483648 ≤ n) (h2 : n < 2147483648) : cInt n = n := by
  unfold cInt; omega

/-- Decryption of an encrypted file under its own key. -/
theorem decryptTail_encrypted (e : CrEnv) (he : GoodEnv e) (t : MaskTable) (p key iv payload content : Bytes)
    (hiv : iv.length = 16) (flag : Int)
    (h : Encrypted e.C key (key.take e.keyLen) iv payload content)
    (hlen : content.length < 2 ^ 31) :
    decryptTail e t p key flag content =
      if flag ≠ 0 then
        if payload.length < e.keyLen then .ub .oobRead
        else do
          let t ← storeKeymask t p (payload.drop (payload.length - e.keyLen))
          .ok (t, ((payload.length - e.keyLen : Nat) : Int), payload)
      else .ok (t, (payload.length : Int), payload) := by
  have hl := encrypted_length he.crypto hiv h
  obtain ⟨bs, pad, h1, h2, hb, hf, ho⟩ := h
  obtain ⟨hc, hcl⟩ := cbc_blocks (e.C.enc key) (he.crypto.enc_length key) iv hiv bs hb
  have hm := he.crypto.mac_length (key.take e.keyLen) (iv ++ payload)
  have hcf := flatten_length16 _ hcl
  have hcfl : (cbc (e.C.enc key) iv bs).flatten.length + 48 = content.length := by
    rw [ho]; simp [hiv, hm] at *; omega
  unfold decryptTail
  rw [if_neg (by omega)]
  have hiv' : (content ++ [0]).take 16 = iv := by
    rw [ho, List.append_assoc, List.append_assoc, ← hiv, List.take_left]
  have hcast : cInt ((content.length : Int) - 48) = (cbc (e.C.enc key) iv bs).flatten.length := by
    rw [cInt_small (by omega) (by omega)]; omega
  have hct : (content.drop 16).take (cbc (e.C.enc key) iv bs).flatten.length =
      (cbc (e.C.enc key) iv bs).flatten := by
    rw [ho, List.append_assoc, ← hiv, List.drop_left, List.take_left]
  have hmac : content.drop (content.length - 32) = e.C.mac (key.take e.keyLen) (iv ++ payload) := by
    have : content.length - 32 = (iv ++ (cbc (e.C.enc key) iv bs).flatten).length := by
      simp [hiv] at *; omega
    rw [this, ho, List.drop_left]
  simp only [hiv', hcast, Int.toNat_natCast, hct]
  rw [evpDecrypt_encrypted he.crypto key iv hiv payload bs pad h1 h2 hb hf _ (by omega)]
  simp only [hmac, ne_eq, not_true_eq_false, if_false, ite_not]

end Semla
