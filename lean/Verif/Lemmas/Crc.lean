import Verif.Model.Miniz
import Verif.Spec.Zip

/-! CRC-32 four bits at a time is CRC-32 bit by bit. -/

namespace Semla
open Spec

/-- One bit of CRC-32. -/
def bvBit (r : BitVec 32) : BitVec 32 := (r >>> 1) ^^^ (if r.getLsbD 0 then 0xEDB88320#32 else 0#32)

theorem bvBit_xor (x y : BitVec 32) : bvBit (x ^^^ y) = bvBit x ^^^ bvBit y := by
  unfold bvBit
  rw [BitVec.ushiftRight_xor_distrib, BitVec.getLsbD_xor]
  cases x.getLsbD 0 <;> cases y.getLsbD 0 <;> ext i hi <;>
    simp only [Bool.bne_false, Bool.bne_true, Bool.not_true, Bool.not_false, if_true, if_false, Bool.false_eq_true,
      BitVec.getElem_xor, BitVec.xor_zero] <;>
    cases (x >>> 1)[i] <;> cases (y >>> 1)[i] <;> cases (0xEDB88320#32)[i] <;> rfl

theorem bvBit_shift (y : BitVec 32) (h : y.toNat < 2 ^ 31) : bvBit (y <<< 1) = y := by
  unfold bvBit
  have h0 : (y <<< 1).getLsbD 0 = false := by simp
  rw [h0]
  simp only [Bool.false_eq_true, if_false, BitVec.xor_zero]
  apply BitVec.eq_of_toNat_eq
  rw [BitVec.toNat_ushiftRight, BitVec.toNat_shiftLeft, Nat.shiftLeft_eq, Nat.shiftRight_eq_div_pow]
  omega

def bvFour (r : BitVec 32) : BitVec 32 := bvBit (bvBit (bvBit (bvBit r)))

theorem bvFour_xor (x y : BitVec 32) : bvFour (x ^^^ y) = bvFour x ^^^ bvFour y := by
  simp only [bvFour, bvBit_xor]

theorem bvFour_shift (y : BitVec 32) (h : y.toNat < 2 ^ 28) : bvFour (y <<< 4) = y := by
  have e : ∀ k < 4, (y <<< k).toNat = y.toNat * 2 ^ k := by
    intro k hk
    rw [BitVec.toNat_shiftLeft, Nat.shiftLeft_eq]
    apply Nat.mod_eq_of_lt
    calc y.toNat * 2 ^ k < 2 ^ 28 * 2 ^ k := Nat.mul_lt_mul_of_pos_right h (Nat.two_pow_pos k)
      _ ≤ 2 ^ 28 * 2 ^ 4 := Nat.mul_le_mul_left _ (Nat.pow_le_pow_right (by decide) (by omega))
      _ = 2 ^ 32 := by decide
  have s : ∀ k, y <<< (k + 1) = (y <<< k) <<< 1 := fun k => by rw [BitVec.shiftLeft_add]
  unfold bvFour
  rw [s 3, bvBit_shift _ (by rw [e 3 (by omega)]; omega), s 2, bvBit_shift _ (by rw [e 2 (by omega)]; omega),
    s 1, bvBit_shift _ (by rw [e 1 (by omega)]; omega), s 0, bvBit_shift _ (by rw [e 0 (by omega)]; omega)]
  simp

theorem bits15 : ∀ i < 32, (15#32).getLsbD i = decide (i < 4) := by decide

theorem bv_split (x : BitVec 32) : x = ((x >>> 4) <<< 4) ^^^ (x &&& 15#32) := by
  apply BitVec.eq_of_getLsbD_eq
  intro i hi
  rw [BitVec.getLsbD_xor, BitVec.getLsbD_shiftLeft, BitVec.getLsbD_and, BitVec.getLsbD_ushiftRight, bits15 i hi]
  by_cases h : i < 4
  · simp [h]
  · have e : 4 + (i - 4) = i := by omega
    simp [h, hi, e]

theorem crcBit_toBitVec (r : UInt32) : (crcBit r).toBitVec = bvBit r.toBitVec := by
  have h : (r &&& 1 = 1) ↔ r.toBitVec.getLsbD 0 = true := by
    rw [← UInt32.toBitVec_inj, UInt32.toBitVec_and]
    constructor
    · intro h
      have := congrArg (fun b => b.getLsbD 0) h
      simpa using this
    · intro h
      apply BitVec.eq_of_toNat_eq
      have hb : r.toBitVec.toNat % 2 = 1 := by
        rw [BitVec.getLsbD, Nat.testBit_zero] at h
        simpa using h
      rw [BitVec.toNat_and]
      simpa [Nat.and_one_is_mod] using hb
  unfold crcBit bvBit
  by_cases hr : r &&& 1 = 1
  · rw [if_pos hr, if_pos (h.1 hr)]; rfl
  · rw [if_neg hr, if_neg (fun c => hr (h.2 c))]; simp

theorem table_bv : ∀ i : Fin 16, (crcTable.getD i.val 0).toBitVec = bvFour (BitVec.ofNat 32 i.val) := by
  decide +kernel

/-- Four bits of CRC-32 with the table. -/
theorem crcHalf_bv (crc b : UInt32) (hb : b.toNat < 16) :
    (crcHalf crc b).toBitVec = bvFour (crc.toBitVec ^^^ b.toBitVec) := by
  have hlt : ((crc &&& 0xF) ^^^ b).toNat < 16 := by
    rw [UInt32.toNat_xor, UInt32.toNat_and]
    apply Nat.xor_lt_two_pow (n := 4)
    · exact Nat.and_lt_two_pow _ (by decide)
    · exact hb
  have e : (crc &&& 0xF) ^^^ b = (crc ^^^ b) &&& 0xF := by
    have hb' : b = b &&& 0xF := by
      apply UInt32.toNat_inj.1
      rw [UInt32.toNat_and]
      show b.toNat = b.toNat &&& (2 ^ 4 - 1)
      rw [Nat.and_two_pow_sub_one_eq_mod, Nat.mod_eq_of_lt hb]
    rw [← UInt32.toBitVec_inj]
    have hb'' := congrArg UInt32.toBitVec hb'
    simp only [UInt32.toBitVec_xor, UInt32.toBitVec_and] at hb'' ⊢
    rw [show crc.toBitVec &&& UInt32.toBitVec 15 ^^^ b.toBitVec =
      crc.toBitVec &&& UInt32.toBitVec 15 ^^^ (b.toBitVec &&& UInt32.toBitVec 15) from by rw [← hb'']]
    ext i hi
    simp only [BitVec.getElem_xor, BitVec.getElem_and]
    cases crc.toBitVec[i] <;> cases b.toBitVec[i] <;> cases (UInt32.toBitVec 15)[i] <;> rfl
  unfold crcHalf
  rw [UInt32.toBitVec_xor, table_bv ⟨_, hlt⟩]
  simp only
  have e2 : BitVec.ofNat 32 ((crc &&& 0xF) ^^^ b).toNat = (crc.toBitVec ^^^ b.toBitVec) &&& 15#32 := by
    rw [e]
    apply BitVec.eq_of_toNat_eq
    rw [BitVec.toNat_ofNat, Nat.mod_eq_of_lt (UInt32.toNat_lt _)]
    rfl
  rw [e2]
  have hz : (crc.toBitVec ^^^ b.toBitVec) >>> 4 = crc.toBitVec >>> 4 := by
    rw [BitVec.ushiftRight_xor_distrib]
    have : b.toBitVec >>> 4 = 0#32 := by
      apply BitVec.eq_of_toNat_eq
      rw [BitVec.toNat_ushiftRight, Nat.shiftRight_eq_div_pow]
      have : b.toBitVec.toNat < 16 := hb
      simp only [BitVec.toNat_ofNat]
      omega
    rw [this, BitVec.xor_zero]
  have hs := bv_split (crc.toBitVec ^^^ b.toBitVec)
  conv => rhs; rw [hs, bvFour_xor, hz, bvFour_shift _ (by
    rw [BitVec.toNat_ushiftRight, Nat.shiftRight_eq_div_pow]
    have := crc.toBitVec.isLt
    omega)]
  rfl

theorem crcStep_eq (crc : UInt32) (b : UInt8) : crcStep crc b = crcByte crc b := by
  have h1 : (b &&& 0xF).toUInt32.toNat < 16 := by
    rw [UInt8.toNat_toUInt32, UInt8.toNat_and]
    exact Nat.and_lt_two_pow _ (n := 4) (by decide)
  have h2 : (b >>> 4).toUInt32.toNat < 16 := by
    rw [UInt8.toNat_toUInt32, UInt8.toNat_shiftRight]
    have := b.toNat_lt
    simp [Nat.shiftRight_eq_div_pow]
    omega
  rw [← UInt32.toBitVec_inj]
  unfold crcStep crcByte
  rw [crcHalf_bv _ _ h2, crcHalf_bv _ _ h1]
  simp only [crcBit_toBitVec, UInt32.toBitVec_xor]
  have hb : b.toUInt32.toBitVec = (b &&& 0xF).toUInt32.toBitVec ^^^ ((b >>> 4).toUInt32.toBitVec <<< 4) := by
    have : ∀ c : Fin 256, (UInt8.ofNat c.val).toUInt32.toBitVec =
        ((UInt8.ofNat c.val) &&& 0xF).toUInt32.toBitVec ^^^ (((UInt8.ofNat c.val) >>> 4).toUInt32.toBitVec <<< 4) := by
      decide +kernel
    have h := this ⟨b.toNat, b.toNat_lt⟩
    simpa using h
  show bvFour (bvFour _ ^^^ _) = bvFour (bvFour _)
  rw [hb, ← BitVec.xor_assoc]
  conv => rhs; rw [bvFour_xor]
  rw [bvFour_shift]
  have : (b >>> 4).toUInt32.toBitVec.toNat < 16 := h2
  omega

/-- `mz_crc32` computes CRC-32. -/
theorem mzCrc32_eq (d : Bytes) : mzCrc32 d = crc32 d := by
  unfold mzCrc32 crc32
  have : crcStep = crcByte := by funext c b; exact crcStep_eq c b
  rw [this]
  rfl

end Semla
