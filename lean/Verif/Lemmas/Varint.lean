import Verif.Model.Pb
import Verif.Spec.Pb

namespace Osm.Pb
open Osm Osm.Spec

/-! ## Encoding -/

theorem contByte_toNat (v : UInt64) : (contByte v).toNat = v.toNat % 128 + 128 := by
  unfold contByte
  rw [UInt64.toNat_toUInt8, UInt64.toNat_or, UInt64.toNat_and]
  have h1 : v.toNat &&& (0x7f : UInt64).toNat = v.toNat % 128 := Nat.and_two_pow_sub_one_eq_mod _ 7
  rw [h1]
  have h2 : v.toNat % 128 ||| (0x80 : UInt64).toNat = v.toNat % 128 + 128 := by
    have := Nat.two_pow_add_eq_or_of_lt (i := 7) (b := v.toNat % 128) (by omega) 1
    rw [Nat.or_comm]
    simp at this ⊢
    omega
  rw [h2]; omega

theorem contByte_eq (v : UInt64) (m : Nat) (h : v.toNat % 128 = m % 128) :
    contByte v = UInt8.ofNat (m % 128 + 128) := by
  apply UInt8.toNat.inj
  rw [contByte_toNat]; simp; omega

theorem shr_toNat (v : UInt64) (k : Nat) (hk : k < 64) :
    (v >>> (UInt64.ofNat k)).toNat = v.toNat / 2 ^ k := by
  rw [UInt64.toNat_shiftRight, Nat.shiftRight_eq_div_pow]
  congr 2
  simp; omega

theorem lastByte_eq (v : UInt64) (m : Nat) (h : v.toNat = m) (hm : m < 128) :
    v.toUInt8 = UInt8.ofNat m := by
  apply UInt8.toNat.inj
  simp; omega

theorem leb128_lt {n : Nat} (h : n < 128) : leb128 n = [UInt8.ofNat n] := by
  rw [leb128]; simp [h]

theorem leb128_ge {n : Nat} (h : ¬ n < 128) :
    leb128 n = UInt8.ofNat (n % 128 + 128) :: leb128 (n / 128) := by
  rw [leb128]; simp [h]

set_option maxHeartbeats 2000000 in
theorem encodeVarInt_eq (b : List UInt8) (v : UInt64) :
    EncodeVarInt b v = b ++ leb128 v.toNat := by
  have hv := v.toNat_lt
  have s0 : (v >>> 0).toNat = v.toNat := by simpa using shr_toNat v 0 (by omega)
  have s7 := shr_toNat v 7 (by omega)
  have s14 := shr_toNat v 14 (by omega)
  have s21 := shr_toNat v 21 (by omega)
  have s28 := shr_toNat v 28 (by omega)
  have s35 := shr_toNat v 35 (by omega)
  have s42 := shr_toNat v 42 (by omega)
  have s49 := shr_toNat v 49 (by omega)
  have s56 := shr_toNat v 56 (by omega)
  simp only [UInt64.reduceOfNat, Nat.reducePow] at s7 s14 s21 s28 s35 s42 s49 s56
  unfold EncodeVarInt
  have t7 : ((1 : UInt64) <<< 7).toNat = 128 := rfl
  have t14 : ((1 : UInt64) <<< 14).toNat = 16384 := rfl
  have t21 : ((1 : UInt64) <<< 21).toNat = 2097152 := rfl
  have t28 : ((1 : UInt64) <<< 28).toNat = 268435456 := rfl
  have t35 : ((1 : UInt64) <<< 35).toNat = 34359738368 := rfl
  have t42 : ((1 : UInt64) <<< 42).toNat = 4398046511104 := rfl
  have t49 : ((1 : UInt64) <<< 49).toNat = 562949953421312 := rfl
  have t56 : ((1 : UInt64) <<< 56).toNat = 72057594037927936 := rfl
  have t63 : ((1 : UInt64) <<< 63).toNat = 9223372036854775808 := rfl
  simp only [UInt64.lt_iff_toNat_lt, t7, t14, t21, t28, t35, t42, t49, t56, t63]
  split
  · rw [leb128_lt (by omega), lastByte_eq v v.toNat rfl (by omega)]
  split
  · rw [leb128_ge (by omega), leb128_lt (by omega), contByte_eq _ v.toNat (by omega),
      lastByte_eq _ _ s7 (by omega)]
  split
  · rw [leb128_ge (by omega), leb128_ge (by omega), leb128_lt (by omega),
      contByte_eq (v >>> 0) v.toNat (by omega), contByte_eq (v >>> 7) (v.toNat / 128) (by omega),
      lastByte_eq (v >>> 14) (v.toNat / 128 / 128) (by omega) (by omega)]
  split
  · rw [leb128_ge (by omega), leb128_ge (by omega), leb128_ge (by omega), leb128_lt (by omega),
      contByte_eq (v >>> 0) v.toNat (by omega), contByte_eq (v >>> 7) (v.toNat / 128) (by omega),
      contByte_eq (v >>> 14) (v.toNat / 128 / 128) (by omega),
      lastByte_eq (v >>> 21) (v.toNat / 128 / 128 / 128) (by omega) (by omega)]
  split
  · rw [leb128_ge (by omega), leb128_ge (by omega), leb128_ge (by omega), leb128_ge (by omega),
      leb128_lt (by omega),
      contByte_eq (v >>> 0) v.toNat (by omega), contByte_eq (v >>> 7) (v.toNat / 128) (by omega),
      contByte_eq (v >>> 14) (v.toNat / 128 / 128) (by omega),
      contByte_eq (v >>> 21) (v.toNat / 128 / 128 / 128) (by omega),
      lastByte_eq (v >>> 28) (v.toNat / 128 / 128 / 128 / 128) (by omega) (by omega)]
  split
  · rw [leb128_ge (by omega), leb128_ge (by omega), leb128_ge (by omega), leb128_ge (by omega),
      leb128_ge (by omega), leb128_lt (by omega),
      contByte_eq (v >>> 0) v.toNat (by omega), contByte_eq (v >>> 7) (v.toNat / 128) (by omega),
      contByte_eq (v >>> 14) (v.toNat / 128 / 128) (by omega),
      contByte_eq (v >>> 21) (v.toNat / 128 / 128 / 128) (by omega),
      contByte_eq (v >>> 28) (v.toNat / 128 / 128 / 128 / 128) (by omega),
      lastByte_eq (v >>> 35) (v.toNat / 128 / 128 / 128 / 128 / 128) (by omega) (by omega)]
  split
  · rw [leb128_ge (by omega), leb128_ge (by omega), leb128_ge (by omega), leb128_ge (by omega),
      leb128_ge (by omega), leb128_ge (by omega), leb128_lt (by omega),
      contByte_eq (v >>> 0) v.toNat (by omega), contByte_eq (v >>> 7) (v.toNat / 128) (by omega),
      contByte_eq (v >>> 14) (v.toNat / 128 / 128) (by omega),
      contByte_eq (v >>> 21) (v.toNat / 128 / 128 / 128) (by omega),
      contByte_eq (v >>> 28) (v.toNat / 128 / 128 / 128 / 128) (by omega),
      contByte_eq (v >>> 35) (v.toNat / 128 / 128 / 128 / 128 / 128) (by omega),
      lastByte_eq (v >>> 42) (v.toNat / 128 / 128 / 128 / 128 / 128 / 128) (by omega) (by omega)]
  split
  · rw [leb128_ge (by omega), leb128_ge (by omega), leb128_ge (by omega), leb128_ge (by omega),
      leb128_ge (by omega), leb128_ge (by omega), leb128_ge (by omega), leb128_lt (by omega),
      contByte_eq (v >>> 0) v.toNat (by omega), contByte_eq (v >>> 7) (v.toNat / 128) (by omega),
      contByte_eq (v >>> 14) (v.toNat / 128 / 128) (by omega),
      contByte_eq (v >>> 21) (v.toNat / 128 / 128 / 128) (by omega),
      contByte_eq (v >>> 28) (v.toNat / 128 / 128 / 128 / 128) (by omega),
      contByte_eq (v >>> 35) (v.toNat / 128 / 128 / 128 / 128 / 128) (by omega),
      contByte_eq (v >>> 42) (v.toNat / 128 / 128 / 128 / 128 / 128 / 128) (by omega),
      lastByte_eq (v >>> 49) (v.toNat / 128 / 128 / 128 / 128 / 128 / 128 / 128)
        (by omega) (by omega)]
  split
  · rw [leb128_ge (by omega), leb128_ge (by omega), leb128_ge (by omega), leb128_ge (by omega),
      leb128_ge (by omega), leb128_ge (by omega), leb128_ge (by omega), leb128_ge (by omega),
      leb128_lt (by omega),
      contByte_eq (v >>> 0) v.toNat (by omega), contByte_eq (v >>> 7) (v.toNat / 128) (by omega),
      contByte_eq (v >>> 14) (v.toNat / 128 / 128) (by omega),
      contByte_eq (v >>> 21) (v.toNat / 128 / 128 / 128) (by omega),
      contByte_eq (v >>> 28) (v.toNat / 128 / 128 / 128 / 128) (by omega),
      contByte_eq (v >>> 35) (v.toNat / 128 / 128 / 128 / 128 / 128) (by omega),
      contByte_eq (v >>> 42) (v.toNat / 128 / 128 / 128 / 128 / 128 / 128) (by omega),
      contByte_eq (v >>> 49) (v.toNat / 128 / 128 / 128 / 128 / 128 / 128 / 128) (by omega),
      lastByte_eq (v >>> 56) (v.toNat / 128 / 128 / 128 / 128 / 128 / 128 / 128 / 128)
        (by omega) (by omega)]
  · have h1 : v.toNat / 128 / 128 / 128 / 128 / 128 / 128 / 128 / 128 / 128 = 1 := by omega
    rw [leb128_ge (by omega), leb128_ge (by omega), leb128_ge (by omega), leb128_ge (by omega),
      leb128_ge (by omega), leb128_ge (by omega), leb128_ge (by omega), leb128_ge (by omega),
      leb128_ge (by omega), h1, leb128_lt (by omega),
      contByte_eq (v >>> 0) v.toNat (by omega), contByte_eq (v >>> 7) (v.toNat / 128) (by omega),
      contByte_eq (v >>> 14) (v.toNat / 128 / 128) (by omega),
      contByte_eq (v >>> 21) (v.toNat / 128 / 128 / 128) (by omega),
      contByte_eq (v >>> 28) (v.toNat / 128 / 128 / 128 / 128) (by omega),
      contByte_eq (v >>> 35) (v.toNat / 128 / 128 / 128 / 128 / 128) (by omega),
      contByte_eq (v >>> 42) (v.toNat / 128 / 128 / 128 / 128 / 128 / 128) (by omega),
      contByte_eq (v >>> 49) (v.toNat / 128 / 128 / 128 / 128 / 128 / 128 / 128) (by omega),
      contByte_eq (v >>> 56) (v.toNat / 128 / 128 / 128 / 128 / 128 / 128 / 128 / 128) (by omega)]
    rfl

theorem leb128_ne_nil (n : Nat) : leb128 n ≠ [] := by
  by_cases h : n < 128
  · simp [leb128_lt h]
  · simp [leb128_ge h]

theorem leb128_length_pos (n : Nat) : 1 ≤ (leb128 n).length := by
  have := leb128_ne_nil n
  cases h : leb128 n with
  | nil => exact absurd h this
  | cons => simp

theorem isVarint_leb128 (n : Nat) : IsVarint (leb128 n) n := by
  induction n using Nat.strongRecOn with
  | _ n ih =>
    by_cases h : n < 128
    · rw [leb128_lt h]
      have e : (UInt8.ofNat n).toNat = n := by simp; omega
      have := IsVarint.last (UInt8.ofNat n) (by omega)
      rwa [e] at this
    · rw [leb128_ge h]
      have e : (UInt8.ofNat (n % 128 + 128)).toNat = n % 128 + 128 := by simp; omega
      have := IsVarint.more (UInt8.ofNat (n % 128 + 128)) _ _ (by omega) (ih (n / 128) (by omega))
      rw [e] at this
      have e2 : n % 128 + 128 - 128 + 128 * (n / 128) = n := by omega
      rwa [e2] at this

theorem leb128_length_le (k n : Nat) (hn : n < 128 ^ k) (hk : 1 ≤ k) : (leb128 n).length ≤ k := by
  induction k generalizing n with
  | zero => omega
  | succ k ih =>
    by_cases h : n < 128
    · simp [leb128_lt h]
    · rw [leb128_ge h]
      simp only [List.length_cons]
      have : n / 128 < 128 ^ k := by
        rw [Nat.div_lt_iff_lt_mul (by omega)]
        rwa [Nat.pow_succ] at hn
      rcases Nat.eq_zero_or_pos k with hk0 | hk0
      · subst hk0; simp at hn; omega
      · have := ih _ this hk0
        omega

theorem isVarint_length_pos {bs : List UInt8} {n : Nat} (h : IsVarint bs n) : 1 ≤ bs.length := by
  cases h <;> simp

/-- A group of `k` bytes has a value below `128^k`. -/
theorem isVarint_lt {bs : List UInt8} {n : Nat} (h : IsVarint bs n) : n < 128 ^ bs.length := by
  induction h with
  | last b hb => simpa using hb
  | more b bs n hb _ ih =>
    have := b.toNat_lt
    simp only [List.length_cons, Nat.pow_succ]
    omega

/-- The value and the extent of a group are determined by the bytes. -/
theorem isVarint_unique {bs1 bs2 r1 r2 : List UInt8} {n1 n2 : Nat}
    (h1 : IsVarint bs1 n1) (h2 : IsVarint bs2 n2) (h : bs1 ++ r1 = bs2 ++ r2) :
    bs1 = bs2 ∧ n1 = n2 ∧ r1 = r2 := by
  induction h1 generalizing bs2 n2 with
  | last b hb =>
    cases h2 with
    | last b' hb' => simp at h; simp [h]
    | more b' bs n hb' _ => simp at h; rw [h.1] at hb; omega
  | more b bs n hb _ ih =>
    cases h2 with
    | last b' hb' => simp at h; rw [h.1] at hb; omega
    | more b' bs' n' hb' hv =>
      simp only [List.cons_append, List.cons.injEq] at h
      obtain ⟨rfl, h⟩ := h
      obtain ⟨rfl, rfl, rfl⟩ := ih hv h
      simp

theorem leb128_length_isVarint_le {bs : List UInt8} {n : Nat} (h : IsVarint bs n) :
    (leb128 n).length ≤ bs.length :=
  leb128_length_le _ _ (isVarint_lt h) (isVarint_length_pos h)

/-! ## Decoding -/

/-- Recursive form of the decoder: `r` more continuation bytes may follow, `k` bytes were read. -/
def decGo (b : Slice) (start : Int) : Nat → Nat → UInt64 → Res (UInt64 × Int)
  | 0, k, v => do
    let y := (← b.index (start + k)).toUInt64
    let v := v + (y <<< UInt64.ofNat (7 * k))
    if y < 2 then .ok (v, start + (k + 1 : Nat)) else .panic
  | r + 1, k, v => do
    let y := (← b.index (start + k)).toUInt64
    let v := v + (y <<< UInt64.ofNat (7 * k))
    if y < 0x80 then .ok (v, start + (k + 1 : Nat)) else
    decGo b start r (k + 1) (v - ((0x80 : UInt64) <<< UInt64.ofNat (7 * k)))

theorem decodeVarInt_eq_decGo (b : Slice) (start : Int) :
    DecodeVarInt b start = decGo b start 9 0 0 := by
  unfold DecodeVarInt
  simp only [decGo]
  simp

theorem index_drop (b : Slice) (n k : Nat) :
    b.index ((n : Int) + k) = Res.ofOption ((b.bytes.drop n)[k]?) := by
  unfold Slice.index
  rw [if_pos (by omega)]
  have : ((n : Int) + k).toNat = n + k := by omega
  rw [this, List.getElem?_drop]

theorem ofNat7_toNat (k : Nat) (hk : k ≤ 9) : (UInt64.ofNat (7 * k)).toNat = 7 * k := by
  simp; omega

theorem shl_toNat (y : UInt64) (k : Nat) (hk : k ≤ 9) (h : y.toNat * 2 ^ (7 * k) < 2 ^ 64) :
    (y <<< UInt64.ofNat (7 * k)).toNat = y.toNat * 2 ^ (7 * k) := by
  rw [UInt64.toNat_shiftLeft, ofNat7_toNat k hk, Nat.shiftLeft_eq,
    Nat.mod_eq_of_lt (a := 7 * k) (by omega)]
  exact Nat.mod_eq_of_lt h

theorem pow7_split (k : Nat) : 2 ^ (7 * (k + 1)) = 128 * 2 ^ (7 * k) := by
  rw [Nat.mul_add, Nat.pow_add]; omega

theorem two_pow_7_le (k : Nat) (hk : k ≤ 8) : 2 ^ (7 * k) ≤ 2 ^ 56 :=
  Nat.pow_le_pow_right (by omega) (by omega)

/-- Forward direction: a terminated group at the cursor is decoded. -/
theorem decGo_of_isVarint (b : Slice) (n : Nat) (r : Nat) : ∀ (k : Nat) (acc : UInt64)
    (enc rest : List UInt8) (m : Nat), r + k = 9 → acc.toNat < 2 ^ (7 * k) →
    b.bytes.drop (n + k) = enc ++ rest → IsVarint enc m → enc.length ≤ r + 1 →
    acc.toNat + m * 2 ^ (7 * k) < 2 ^ 64 →
    decGo b n r k acc =
      .ok (UInt64.ofNat (acc.toNat + m * 2 ^ (7 * k)), (n : Int) + (k + enc.length : Nat)) := by
  induction r with
  | zero =>
    intro k acc enc rest m hk hacc hd hv hl hlt
    have hk9 : k = 9 := by omega
    subst hk9
    cases hv with
    | more x bs m' hx hv =>
      have := isVarint_length_pos hv
      simp only [List.length_cons] at hl; omega
    | last x hx =>
      have hget : (b.bytes.drop n)[9]? = some x := by
        have : (b.bytes.drop (n + 9))[0]? = some x := by rw [hd]; rfl
        simpa using this
      have hx2 : x.toNat < 2 := by simp at hlt; omega
      have hy : x.toUInt64.toNat = x.toNat := by simp
      unfold decGo
      rw [index_drop, hget]
      simp only [Res.ofOption_some, Res.ok_bind]
      rw [if_pos (by rw [UInt64.lt_iff_toNat_lt, hy]; exact hx2)]
      simp only [List.length_singleton, Res.ok.injEq, Prod.mk.injEq, and_true]
      apply UInt64.toNat.inj
      rw [UInt64.toNat_add, shl_toNat _ 9 (by omega) (by rw [hy]; omega), hy]
      simp
  | succ r ih =>
    intro k acc enc rest m hk hacc hd hv hl hlt
    have hp := two_pow_7_le k (by omega)
    generalize hP : 2 ^ (7 * k) = P at *
    have hPpos : 0 < P := by rw [← hP]; exact Nat.two_pow_pos _
    unfold decGo
    cases hv with
    | last x hx =>
      have hget : (b.bytes.drop n)[k]? = some x := by
        have : (b.bytes.drop (n + k))[0]? = some x := by rw [hd]; rfl
        simpa using this
      have hy : x.toUInt64.toNat = x.toNat := by simp
      rw [index_drop, hget]
      simp only [Res.ofOption_some, Res.ok_bind]
      rw [if_pos (by rw [UInt64.lt_iff_toNat_lt, hy]; exact hx)]
      simp only [List.length_singleton, Res.ok.injEq, Prod.mk.injEq, and_true]
      apply UInt64.toNat.inj
      have hb : x.toNat * P < 2 ^ 64 := by omega
      rw [UInt64.toNat_add, shl_toNat _ k (by omega) (by rw [hy, hP]; exact hb), hy, hP]
      simp
    | more x bs m' hx hv =>
      have hget : (b.bytes.drop n)[k]? = some x := by
        have : (b.bytes.drop (n + k))[0]? = some x := by rw [hd]; rfl
        simpa using this
      have hy : x.toUInt64.toNat = x.toNat := by simp
      have hx256 := x.toNat_lt
      rw [index_drop, hget]
      simp only [Res.ofOption_some, Res.ok_bind]
      rw [if_neg (by rw [UInt64.lt_iff_toNat_lt, hy]; simp; omega)]
      have hd' : b.bytes.drop (n + (k + 1)) = bs ++ rest := by
        rw [← Nat.add_assoc, ← List.drop_drop, hd]; rfl
      have e1 : x.toNat * P = 128 * P + (x.toNat - 128) * P := by
        rw [← Nat.add_mul, show 128 + (x.toNat - 128) = x.toNat by omega]
      have hb1 : (x.toNat - 128) * P ≤ 127 * P := Nat.mul_le_mul_right _ (by omega)
      have hb : x.toNat * P < 2 ^ 64 := by omega
      have h80 : ((0x80 : UInt64) <<< UInt64.ofNat (7 * k)).toNat = 128 * P := by
        rw [shl_toNat _ k (by omega) (by rw [hP]; simp; omega), hP]; rfl
      have hacc' : (acc + x.toUInt64 <<< UInt64.ofNat (7 * k)
          - (0x80 : UInt64) <<< UInt64.ofNat (7 * k)).toNat = acc.toNat + (x.toNat - 128) * P := by
        rw [UInt64.toNat_sub, UInt64.toNat_add, h80,
          shl_toNat _ k (by omega) (by rw [hy, hP]; exact hb), hy, hP]
        rw [Nat.mod_eq_of_lt (a := acc.toNat + x.toNat * P) (by omega)]
        rw [show 2 ^ 64 - 128 * P + (acc.toNat + x.toNat * P)
          = acc.toNat + (x.toNat - 128) * P + 2 ^ 64 by omega]
        rw [Nat.add_mod_right, Nat.mod_eq_of_lt (by omega)]
      have e2 : ((x.toNat - 128) + 128 * m') * P
          = (x.toNat - 128) * P + m' * (128 * P) := by
        rw [Nat.add_mul, Nat.mul_comm 128 m', Nat.mul_assoc]
      rw [e2] at hlt ⊢
      have := ih (k + 1) _ bs rest m' (by omega) (by rw [hacc', pow7_split, hP]; omega) hd' hv
        (by simp at hl; omega) (by rw [hacc', pow7_split, hP]; omega)
      rw [this, hacc', pow7_split, hP]
      simp only [List.length_cons, Res.ok.injEq, Prod.mk.injEq]
      refine ⟨by congr 1; omega, by omega⟩

/-- Backward direction: whatever the decoder returns was a terminated group at the cursor. -/
theorem isVarint_of_decGo (b : Slice) (n : Nat) (r : Nat) : ∀ (k : Nat) (acc v : UInt64) (j : Int),
    r + k = 9 → acc.toNat < 2 ^ (7 * k) → decGo b n r k acc = .ok (v, j) →
    ∃ enc rest m, b.bytes.drop (n + k) = enc ++ rest ∧ IsVarint enc m ∧ enc.length ≤ r + 1 ∧
      v.toNat = acc.toNat + m * 2 ^ (7 * k) ∧ j = (n : Int) + (k + enc.length : Nat) := by
  induction r with
  | zero =>
    intro k acc v j hk hacc h
    have hk9 : k = 9 := by omega
    subst hk9
    unfold decGo at h
    rw [index_drop] at h
    simp only [Res.bind_eq_ok, Res.ofOption_eq_ok] at h
    obtain ⟨x, hx, h⟩ := h
    have hy : x.toUInt64.toNat = x.toNat := by simp
    split at h
    · next h2 =>
      rw [UInt64.lt_iff_toNat_lt, hy] at h2
      simp at h2
      simp only [Res.ok.injEq, Prod.mk.injEq] at h
      obtain ⟨rfl, rfl⟩ := h
      have hx' : (b.bytes.drop (n + 9))[0]? = some x := by simpa using hx
      obtain ⟨rest, hrest⟩ : ∃ rest, b.bytes.drop (n + 9) = x :: rest := by
        cases hd : b.bytes.drop (n + 9) with
        | nil => rw [hd] at hx'; simp at hx'
        | cons a l => rw [hd] at hx'; simp at hx'; exact ⟨l, by rw [hx']⟩
      refine ⟨[x], rest, x.toNat, by simp [hrest], IsVarint.last x (by omega), by simp, ?_, by simp⟩
      rw [UInt64.toNat_add, shl_toNat _ 9 (by omega) (by rw [hy]; omega), hy,
        Nat.mod_eq_of_lt (by omega)]
    · simp at h
  | succ r ih =>
    intro k acc v j hk hacc h
    have hp := two_pow_7_le k (by omega)
    have hPpos : 0 < 2 ^ (7 * k) := Nat.two_pow_pos _
    unfold decGo at h
    rw [index_drop] at h
    simp only [Res.bind_eq_ok, Res.ofOption_eq_ok] at h
    obtain ⟨x, hx, h⟩ := h
    have hy : x.toUInt64.toNat = x.toNat := by simp
    have hx256 := x.toNat_lt
    have hx' : (b.bytes.drop (n + k))[0]? = some x := by simpa using hx
    obtain ⟨rest, hrest⟩ : ∃ rest, b.bytes.drop (n + k) = x :: rest := by
      cases hd : b.bytes.drop (n + k) with
      | nil => rw [hd] at hx'; simp at hx'
      | cons a l => rw [hd] at hx'; simp at hx'; exact ⟨l, by rw [hx']⟩
    have hb : x.toNat * 2 ^ (7 * k) ≤ 255 * 2 ^ (7 * k) := Nat.mul_le_mul_right _ (by omega)
    generalize hP : 2 ^ (7 * k) = P at *
    split at h
    · next h2 =>
      rw [UInt64.lt_iff_toNat_lt, hy] at h2
      simp at h2
      simp only [Res.ok.injEq, Prod.mk.injEq] at h
      obtain ⟨rfl, rfl⟩ := h
      refine ⟨[x], rest, x.toNat, by simp [hrest], IsVarint.last x (by omega), by simp, ?_, by simp⟩
      rw [UInt64.toNat_add, shl_toNat _ k (by omega) (by rw [hy, hP]; omega), hy, hP,
        Nat.mod_eq_of_lt (by omega)]
    · next h2 =>
      rw [UInt64.lt_iff_toNat_lt, hy] at h2
      simp at h2
      have e1 : x.toNat * P = 128 * P + (x.toNat - 128) * P := by
        rw [← Nat.add_mul, show 128 + (x.toNat - 128) = x.toNat by omega]
      have hb1 : (x.toNat - 128) * P ≤ 127 * P := Nat.mul_le_mul_right _ (by omega)
      have h80 : ((0x80 : UInt64) <<< UInt64.ofNat (7 * k)).toNat = 128 * P := by
        rw [shl_toNat _ k (by omega) (by rw [hP]; simp; omega), hP]; rfl
      have hacc' : (acc + x.toUInt64 <<< UInt64.ofNat (7 * k)
          - (0x80 : UInt64) <<< UInt64.ofNat (7 * k)).toNat = acc.toNat + (x.toNat - 128) * P := by
        rw [UInt64.toNat_sub, UInt64.toNat_add, h80,
          shl_toNat _ k (by omega) (by rw [hy, hP]; omega), hy, hP]
        rw [Nat.mod_eq_of_lt (a := acc.toNat + x.toNat * P) (by omega)]
        rw [show 2 ^ 64 - 128 * P + (acc.toNat + x.toNat * P)
          = acc.toNat + (x.toNat - 128) * P + 2 ^ 64 by omega]
        rw [Nat.add_mod_right, Nat.mod_eq_of_lt (by omega)]
      obtain ⟨enc, rest', m, hd, hv, hl, hval, hj⟩ :=
        ih (k + 1) _ v j (by omega) (by rw [hacc', pow7_split, hP]; omega) h
      have hd2 : rest = enc ++ rest' := by
        rw [← hd, ← Nat.add_assoc, ← List.drop_drop, hrest]; rfl
      refine ⟨x :: enc, rest', _, by rw [hrest, hd2]; rfl, IsVarint.more x enc m (by omega) hv,
        by simp; omega, ?_, ?_⟩
      · rw [hval, hacc', pow7_split, hP]
        have e2 : ((x.toNat - 128) + 128 * m) * P = (x.toNat - 128) * P + m * (128 * P) := by
          rw [Nat.add_mul, Nat.mul_comm 128 m, Nat.mul_assoc]
        rw [e2]; omega
      · rw [hj]; simp only [List.length_cons]; omega

theorem decGo_ne_hang (b : Slice) (start : Int) (r k : Nat) (acc : UInt64) :
    decGo b start r k acc ≠ .hang := by
  induction r generalizing k acc with
  | zero =>
    unfold decGo Slice.index
    split
    · cases b.bytes[(start + (k : Int)).toNat]? with
      | none => simp
      | some x => simp only [Res.ofOption_some, Res.ok_bind]; split <;> simp
    · simp
  | succ r ih =>
    unfold decGo Slice.index
    split
    · cases b.bytes[(start + (k : Int)).toNat]? with
      | none => simp
      | some x =>
        simp only [Res.ofOption_some, Res.ok_bind]
        split
        · simp
        · exact ih _ _
    · simp

theorem decode_of_isVarint (b : Slice) (n : Nat) (enc rest : List UInt8) (m : Nat)
    (hd : b.bytes.drop n = enc ++ rest) (hv : IsVarint enc m) (hl : enc.length ≤ 10)
    (hm : m < 2 ^ 64) :
    DecodeVarInt b n = .ok (UInt64.ofNat m, (n + enc.length : Nat)) := by
  rw [decodeVarInt_eq_decGo]
  have := decGo_of_isVarint b n 9 0 0 enc rest m (by omega) (by simp) (by simpa using hd) hv
    (by omega) (by simpa using hm)
  rw [this]
  simp

theorem isVarint_of_decode (b : Slice) (n : Nat) (v : UInt64) (j : Int)
    (h : DecodeVarInt b n = .ok (v, j)) :
    ∃ enc rest, b.bytes.drop n = enc ++ rest ∧ IsVarint enc v.toNat ∧ enc.length ≤ 10 ∧
      j = (n + enc.length : Nat) := by
  rw [decodeVarInt_eq_decGo] at h
  obtain ⟨enc, rest, m, hd, hv, hl, hval, hj⟩ :=
    isVarint_of_decGo b n 9 0 0 v j (by omega) (by simp) h
  simp at hval
  subst hval
  exact ⟨enc, rest, by simpa using hd, hv, by omega, by rw [hj]; simp⟩

theorem decode_ne_hang (b : Slice) (i : Int) : DecodeVarInt b i ≠ .hang := by
  rw [decodeVarInt_eq_decGo]; exact decGo_ne_hang _ _ _ _ _

theorem decode_neg (b : Slice) (i : Int) (hi : i < 0) : DecodeVarInt b i = .panic := by
  unfold DecodeVarInt Slice.index
  rw [if_neg (by omega)]
  rfl

/-- Cursor lemma used by every round trip. -/
theorem decode_leb128 (b : Slice) (n : Nat) (v : UInt64) (rest : List UInt8)
    (hd : b.bytes.drop n = leb128 v.toNat ++ rest) :
    DecodeVarInt b n = .ok (v, (n + (leb128 v.toNat).length : Nat)) := by
  have hv := v.toNat_lt
  have := decode_of_isVarint b n _ rest _ hd (isVarint_leb128 v.toNat)
    (leb128_length_le 10 _ (by omega) (by omega)) hv
  rw [this]
  simp

end Osm.Pb
