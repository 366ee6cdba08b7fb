import Verif.WireSpec

/-! # Lemmas about ZigZag -/

namespace Fourleaf
open Spec

theorem bv_sshr63 (x : BitVec 64) : x.sshiftRight 63 = if x.toInt < 0 then BitVec.allOnes 64 else 0#64 := by
  apply BitVec.eq_of_toInt_eq
  rw [BitVec.toInt_sshiftRight]
  have h1 := BitVec.toInt_lt (x := x)
  have h2 := BitVec.le_toInt (x := x)
  rw [Int.shiftRight_eq_div_pow]
  split
  · have : BitVec.toInt (BitVec.allOnes 64) = -1 := by decide
    rw [this]; simp at *; omega
  · have : BitVec.toInt (0#64) = 0 := by decide
    rw [this]; simp at *; omega

theorem zigzag_toNat (i : Int64) : ((zigzag i).toNat : Int) = zigzagInt i.toInt := by
  have h1 : zigzag i = ⟨(i.toBitVec <<< 1) ^^^ (i.toBitVec.sshiftRight 63)⟩ := by
    unfold zigzag
    rw [← UInt64.toBitVec_inj]
    show (i <<< 1 ^^^ i >>> 63).toBitVec = _
    rw [Int64.toBitVec_xor, Int64.toBitVec_shiftLeft, Int64.toBitVec_shiftRight]
    have e1 : (BitVec.smod (1 : Int64).toBitVec 64#64) = 1#64 := by decide
    have e63 : (BitVec.smod (63 : Int64).toBitVec 64#64) = 63#64 := by decide
    rw [show ((1 : Int64).toBitVec.smod 64) = 1#64 from e1, show ((63 : Int64).toBitVec.smod 64) = 63#64 from e63]
    rfl
  rw [h1, bv_sshr63]
  have hb : i.toInt = i.toBitVec.toInt := rfl
  rw [hb]
  generalize i.toBitVec = x
  show (((x <<< 1 ^^^ _).toNat : Nat) : Int) = _
  have h2 := BitVec.toInt_lt (x := x)
  have h3 := BitVec.le_toInt (x := x)
  have h4 := BitVec.toInt_eq_toNat_cond x
  have h5 : x.toNat < 2 ^ 64 := x.isLt
  have h6 : (x <<< 1).toNat = x.toNat * 2 % 2 ^ 64 := by
    rw [BitVec.toNat_shiftLeft, Nat.shiftLeft_eq]
  unfold zigzagInt
  simp at h2 h3 h4
  split
  · rename_i hn
    rw [BitVec.xor_allOnes, BitVec.toNat_not, h6]
    rw [if_neg (by omega)]
    rw [h4]
    split <;> omega
  · rename_i hn
    rw [if_pos (by omega)]
    rw [show x <<< 1 ^^^ 0#64 = x <<< 1 by simp, h6, h4]
    split <;> omega

theorem and1 (u : UInt64) : (u &&& 1 ≠ 0) ↔ u.toNat % 2 = 1 := by
  rw [ne_eq, ← UInt64.toNat_inj, UInt64.toNat_and]
  have : u.toNat &&& (1 : UInt64).toNat = u.toNat % 2 := Nat.and_two_pow_sub_one_eq_mod u.toNat 1
  rw [this]; simp

theorem unzigzag_toInt (u : UInt64) :
    (unzigzag u).toInt = if u.toNat % 2 = 0 then (u.toNat : Int) / 2 else -((u.toNat : Int) / 2) - 1 := by
  unfold unzigzag
  simp only [and1]
  have hu := u.toNat_lt
  have h1 : (u >>> 1).toNat = u.toNat / 2 := by
    rw [UInt64.toNat_shiftRight, Nat.shiftRight_eq_div_pow]; rfl
  show (BitVec.toInt ((u >>> 1) ^^^ _).toBitVec) = _
  by_cases h : u.toNat % 2 = 1
  · rw [if_pos h, if_neg (by omega)]
    rw [UInt64.toBitVec_xor]
    have e : (~~~(0 : UInt64)).toBitVec = BitVec.allOnes 64 := by decide
    rw [e, BitVec.xor_allOnes, BitVec.toInt_eq_toNat_cond, BitVec.toNat_not]
    rw [show (u >>> 1).toBitVec.toNat = u.toNat / 2 from h1]
    split <;> omega
  · rw [if_neg h, if_pos (by omega)]
    rw [show u >>> 1 ^^^ (0 : UInt64) = u >>> 1 by simp]
    rw [BitVec.toInt_eq_toNat_cond, show (u >>> 1).toBitVec.toNat = u.toNat / 2 from h1]
    split <;> omega

theorem unzigzag_zigzag' (i : Int64) : unzigzag (zigzag i) = i := by
  apply Int64.toInt_inj.1
  rw [unzigzag_toInt]
  have h := zigzag_toNat i
  unfold zigzagInt at h
  split at h <;> split <;> omega

theorem zigzag_unzigzag' (u : UInt64) : zigzag (unzigzag u) = u := by
  apply UInt64.toNat_inj.1
  have h := zigzag_toNat (unzigzag u)
  rw [unzigzag_toInt] at h
  unfold zigzagInt at h
  split at h <;> split at h <;> omega

end Fourleaf
