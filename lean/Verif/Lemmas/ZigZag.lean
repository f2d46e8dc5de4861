import Verif.Model.Pb
import Verif.Spec.Pb

namespace Osm.Pb
open Osm Osm.Spec

theorem shr63_neg (x : Int64) (h : x.toInt < 0) : x >>> 63 = -1 := by
  apply Int64.toBitVec_inj.1
  apply BitVec.eq_of_toInt_eq
  simp [Int.shiftRight_eq_div_pow]
  have := x.le_toInt
  omega

theorem shr63_nonneg (x : Int64) (h : 0 ≤ x.toInt) : x >>> 63 = 0 := by
  apply Int64.toBitVec_inj.1
  apply BitVec.eq_of_toInt_eq
  simp [Int.shiftRight_eq_div_pow]
  have := x.toInt_lt
  omega

theorem shl1_toNat (x : Int64) : (x <<< 1).toUInt64.toNat = (2 * x.toUInt64.toNat) % 2 ^ 64 := by
  have : (x <<< 1).toUInt64 = x.toUInt64 <<< 1 := rfl
  rw [this, UInt64.toNat_shiftLeft, Nat.shiftLeft_eq]
  rw [show (1 : UInt64).toNat % 64 = 1 from rfl]
  omega

theorem toUInt64_toNat_nonneg (x : Int64) (h : 0 ≤ x.toInt) : (x.toUInt64.toNat : Int) = x.toInt := by
  have : x.toInt = x.toBitVec.toInt := rfl
  have e : x.toUInt64.toNat = x.toBitVec.toNat := rfl
  rw [e, this, BitVec.toInt_eq_toNat_cond]
  rw [this, BitVec.toInt_eq_toNat_cond] at h
  have := x.toBitVec.isLt
  split at h <;> split <;> omega

theorem toUInt64_toNat_neg (x : Int64) (h : x.toInt < 0) :
    (x.toUInt64.toNat : Int) = x.toInt + 2 ^ 64 := by
  have : x.toInt = x.toBitVec.toInt := rfl
  have e : x.toUInt64.toNat = x.toBitVec.toNat := rfl
  rw [e, this, BitVec.toInt_eq_toNat_cond]
  rw [this, BitVec.toInt_eq_toNat_cond] at h
  have := x.toBitVec.isLt
  split at h <;> split <;> omega

theorem encodeZigZag_toNat (x : Int64) : (EncodeZigZag x).toNat = zigzag x.toInt := by
  unfold EncodeZigZag zigzag
  have h1 := x.le_toInt
  have h2 := x.toInt_lt
  split
  · next h =>
    rw [shr63_nonneg x h]
    rw [show (0 : Int64).toUInt64 = 0 from rfl, UInt64.xor_zero, shl1_toNat]
    have := toUInt64_toNat_nonneg x h
    omega
  · next h =>
    rw [shr63_neg x (by omega)]
    rw [show (-1 : Int64).toUInt64 = -1 from rfl, UInt64.xor_neg_one, UInt64.toNat_not, shl1_toNat]
    have := toUInt64_toNat_neg x (by omega)
    rw [show UInt64.size = 2 ^ 64 from rfl]
    omega

theorem zigzag_inj (a b : Int) (h : zigzag a = zigzag b) : a = b := by
  unfold zigzag at h
  split at h <;> split at h <;> omega

theorem ofInt_toNat_small (n : Nat) (h : n < 2 ^ 63) : (UInt64.ofNat n).toInt64.toInt = n := by
  have e : (UInt64.ofNat n).toInt64.toInt = (BitVec.ofNat 64 n).toInt := rfl
  rw [e, BitVec.toInt_eq_toNat_cond]
  simp
  omega

theorem shl63_shr63 (x : Int64) : (x <<< 63) >>> 63 = if x.toUInt64.toNat % 2 = 0 then 0 else -1 := by
  have e : (x <<< 63).toUInt64.toNat = (x.toUInt64.toNat % 2) * 2 ^ 63 := by
    have : (x <<< 63).toUInt64 = x.toUInt64 <<< 63 := rfl
    rw [this, UInt64.toNat_shiftLeft, Nat.shiftLeft_eq]
    rw [show (63 : UInt64).toNat % 64 = 63 from rfl]
    omega
  split
  · next h =>
    rw [h] at e
    have : x <<< 63 = 0 := by
      have hu : (x <<< 63).toUInt64 = (0 : Int64).toUInt64 := by
        apply UInt64.toNat.inj
        rw [e]; rfl
      exact congrArg UInt64.toInt64 hu
    rw [this]; rfl
  · next h =>
    have h' : x.toUInt64.toNat % 2 = 1 := by omega
    rw [h'] at e
    apply shr63_neg
    rcases Int.lt_or_le (x <<< 63).toInt 0 with hh | hh
    · exact hh
    · have := toUInt64_toNat_nonneg _ hh
      have := (x <<< 63).toInt_lt
      omega

theorem decodeZigZag_toNat (u : UInt64) : zigzag (DecodeZigZag u).toInt = u.toNat := by
  unfold DecodeZigZag
  rw [shl63_shr63, show u.toInt64.toUInt64 = u from rfl]
  have hs : (u >>> 1).toNat = u.toNat / 2 := by
    rw [UInt64.toNat_shiftRight]
    rw [show (1 : UInt64).toNat % 64 = 1 from rfl, Nat.shiftRight_eq_div_pow]
  have hlt := u.toNat_lt
  have hi : ((u >>> 1).toInt64).toInt = (u.toNat / 2 : Nat) := by
    have := ofInt_toNat_small (u.toNat / 2) (by omega)
    rw [← this, ← hs, UInt64.ofNat_toNat]
  split
  · next h =>
    rw [Int64.xor_zero, hi]
    unfold zigzag
    rw [if_pos (by omega)]; omega
  · next h =>
    rw [Int64.xor_neg_one, Int64.toInt_not, hi]
    unfold zigzag
    rw [Int.bmod_eq_of_le (by omega) (by omega)]
    rw [if_neg (by omega)]; omega

theorem decodeZigZag_encodeZigZag (x : Int64) : DecodeZigZag (EncodeZigZag x) = x := by
  apply Int64.toInt.inj
  apply zigzag_inj
  rw [decodeZigZag_toNat, encodeZigZag_toNat]

theorem encodeZigZag_decodeZigZag (u : UInt64) : EncodeZigZag (DecodeZigZag u) = u := by
  apply UInt64.toNat.inj
  rw [encodeZigZag_toNat, decodeZigZag_toNat]

theorem encodeZigZag_eq_zero (x : Int64) : EncodeZigZag x = 0 ↔ x = 0 := by
  constructor
  · intro h
    have := decodeZigZag_encodeZigZag x
    rw [h] at this
    rw [← this]; decide
  · rintro rfl; decide

end Osm.Pb
