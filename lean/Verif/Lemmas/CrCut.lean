import Verif.Lemmas.CrLib

/-! # Helper lemmas: encrypted files of which only the beginning is read -/

namespace Semla

open Semla.Spec

theorem cbc_take (E : Bytes → Bytes) (p : Bytes) (bs : List Bytes) (k : Nat) :
    (cbc E p bs).take k = cbc E p (bs.take k) := by
  induction bs generalizing p k with
  | nil => simp [cbc]
  | cons b bs ih =>
    cases k with
    | zero => rfl
    | succ k => simp only [cbc, List.take_succ_cons, ih]

theorem flatten_take16 (bs : List Bytes) (hb : ∀ b ∈ bs, b.length = 16) (k : Nat) :
    bs.flatten.take (16 * k) = (bs.take k).flatten := by
  induction bs generalizing k with
  | nil => simp
  | cons b bs ih =>
    have hb0 : b.length = 16 := hb b (by simp)
    cases k with
    | zero => rfl
    | succ k =>
      rw [List.flatten_cons, List.take_succ_cons, List.flatten_cons, List.take_append, hb0,
        List.take_of_length_le (by omega), show 16 * (k + 1) - 16 = 16 * k by omega,
        ih (fun b h => hb b (by simp [h]))]

/-- Decryption of the first `k` blocks fails if the last byte of what they contain is no padding. -/
theorem evpDecrypt_cut {C : Crypto} (hC : C.Good) (key iv : Bytes) (hiv : iv.length = 16) (bs : List Bytes)
    (hb : ∀ b ∈ bs, b.length = 16) (c : UInt8) (hc : bs.flatten.getLast? = some c)
    (hp : c.toNat = 0 ∨ 16 < c.toNat) (n : Int) :
    evpDecrypt C key iv (cbc (C.enc key) iv bs).flatten n = none := by
  obtain ⟨_, hcl⟩ := cbc_blocks (C.enc key) (hC.enc_length key) iv hiv bs hb
  have hs := splitBlocks_eq (cbc (C.enc key) iv bs) [] _ hcl (by simp) (List.append_nil _)
  have hd := cbcDec_cbc C hC key iv hiv bs hb
  unfold evpDecrypt
  split
  · rfl
  · simp only [hs, hd, hc, hp, if_true, not_true_eq_false, ne_eq, if_false]

/-- `mlle_cr_decrypt` on the first `48 + 16 * k` bytes of an encrypted file with more than `k` blocks: it fails
if byte `16 * k` of the contents is no padding. -/
theorem decryptTail_cut (e : CrEnv) (he : GoodEnv e) (t : MaskTable) (p key macKey iv payload content : Bytes)
    (hiv : iv.length = 16) (flag : Int) (h : Encrypted e.C key macKey iv payload content) (k : Nat) (hk : 0 < k)
    (hk2 : 48 + 16 * k < 2 ^ 31) (hlen : 48 + 16 * k < content.length) (c : UInt8)
    (hc : payload[16 * k - 1]? = some c) (hp : c.toNat = 0 ∨ 16 < c.toNat) :
    decryptTail e t p key flag (content.take (48 + 16 * k)) = .ok (t, -1, []) := by
  obtain ⟨bs, pad, h1, h2, hb, hf, ho⟩ := h
  obtain ⟨hcc, hcl⟩ := cbc_blocks (e.C.enc key) (he.crypto.enc_length key) iv hiv bs hb
  have hm := he.crypto.mac_length macKey (iv ++ payload)
  have hcf := flatten_length16 _ hcl
  have hl : (content.take (48 + 16 * k)).length = 48 + 16 * k := by
    rw [List.length_take]; omega
  have hlen' : content.length = 48 + 16 * bs.length := by
    rw [ho]; simp only [List.length_append, hiv, hm, hcf, hcc]; omega
  have hiv' : (content.take (48 + 16 * k) ++ [0]).take 16 = iv := by
    rw [List.take_append_of_le_length (by rw [hl]; omega), List.take_take, Nat.min_eq_left (by omega), ho,
      List.append_assoc, ← hiv, List.take_left]
  have hcast : cInt (((48 + 16 * k : Nat) : Int) - 48) = ((16 * k : Nat) : Int) := by
    rw [cInt_small (by omega) (by omega)]; omega
  have hct : ((content.take (48 + 16 * k)).drop 16).take (16 * k) = (cbc (e.C.enc key) iv (bs.take k)).flatten := by
    rw [List.drop_take, List.take_take, Nat.min_eq_left (by omega), ho, List.append_assoc]
    have : (iv ++ ((cbc (e.C.enc key) iv bs).flatten ++ e.C.mac macKey (iv ++ payload))).drop 16 =
        (cbc (e.C.enc key) iv bs).flatten ++ e.C.mac macKey (iv ++ payload) := by
      rw [← hiv, List.drop_left]
    rw [this, List.take_append_of_le_length (by rw [hcf, hcc]; omega), flatten_take16 _ hcl, cbc_take]
  have hlast : (bs.take k).flatten.getLast? = some c := by
    rw [← flatten_take16 bs hb k, hf, List.getLast?_eq_getElem?]
    have hpl : 16 * k - 1 < payload.length := (List.getElem?_eq_some_iff.1 hc).1
    rw [List.length_take, List.length_append, Nat.min_eq_left (by omega), List.getElem?_take,
      if_pos (by omega), List.getElem?_append_left hpl, hc]
  unfold decryptTail
  rw [if_neg (by omega), hl]
  simp only [hiv', hcast, Int.toNat_natCast, hct]
  rw [evpDecrypt_cut he.crypto key iv hiv (bs.take k) (fun b h => hb b (List.mem_of_mem_take h)) c hlast hp]

/-- The key found for a file of the library is the one it was encrypted with. -/
theorem demask_found (e : CrEnv) (he : GoodEnv e) {jobs : List Job} (hP : Complete e.keyLen jobs)
    (hlib : LibRead e jobs) (hsz : SizesOk e jobs)
    (hne : ∀ j ∈ jobs, j.isPackage → j.plain ≠ []) (j : Job) (hj : j ∈ jobs) (t : MaskTable)
    (ht : DecInv jobs t) :
    ∃ t' flag, demaskKey e (demaskFuel (j.path ++ b!"c")) t (j.path ++ b!"c") e.key =
      .ok (t', fileKeyOf e (maskOf jobs) j.dirs j.isPackage, flag) := by
  obtain ⟨hname, hcase, hdirs⟩ := hP.names j hj
  have hdn : ∀ d ∈ j.dirs, IsName d := fun d h => (hdirs d h).1
  obtain ⟨hpk, hdk⟩ := demask_lib e he hP hlib hsz hne j.dirs
  by_cases hp : j.isPackage
  · rw [package_path hp]
    obtain ⟨t1, h5, -⟩ := hpk j hj rfl hp (demaskFuel (relPath (j.dirs ++ [b!"package.moc"])))
      (by unfold demaskFuel; have := relPath_length_ge j.dirs b!"package.moc" hdn; omega) t ht
    exact ⟨t1, 1, by rw [h5]; simp [hp]⟩
  · obtain ⟨k, hk, hkd, hkp⟩ := hP.closed j hj _ (List.prefix_refl j.dirs)
    have hn2 : IsName (j.name ++ b!"c") := by
      refine ⟨by simp, fun c hc => ?_⟩
      rcases List.mem_append.1 hc with h | h
      · exact hname.2 c h
      · simp at h; subst h; decide
    have hnp2 : ¬ eqNoCase b!"package.moc" (j.name ++ b!"c") := by
      intro h
      apply hp
      apply hcase
      simp only [eqNoCase, beq_iff_eq, List.map_append] at h ⊢
      have h' : (b!"package.mo".map toLower) ++ (b!"c".map toLower) = j.name.map toLower ++ b!"c".map toLower := h
      exact List.append_cancel_right h'
    have hpath : j.path ++ b!"c" = relPath (j.dirs ++ [j.name ++ b!"c"]) := by
      unfold Job.path
      by_cases hd : j.dirs = []
      · rw [hd]; rfl
      · rw [relPath_snoc _ _ hd, relPath_snoc _ _ hd]; simp
    rw [hpath]
    obtain ⟨t1, h5, -, -⟩ := hdk k hk hkd hkp (j.name ++ b!"c") hn2 hnp2
      (demaskFuel (relPath (j.dirs ++ [j.name ++ b!"c"])))
      (by unfold demaskFuel; have := relPath_length_ge j.dirs (j.name ++ b!"c") hdn; omega) t ht e.key
    have hm := complete_unique hP hk hkp
    rw [hkd] at hm
    exact ⟨t1, 0, by rw [h5]; simp [hp, fileKeyOf, hm]⟩

end Semla
