import Verif.Model.Morton

namespace Osm.Morton
open Osm

theorem entry_bits : ∀ i < 256, ∀ k < 64, (entry (UInt64.ofNat i)).toNat.testBit k
    = (decide (k % 2 = 0) && i.testBit (k / 2)) := by
  decide +kernel

theorem entry_testBit (i : Nat) (hi : i < 256) (k : Nat) :
    (entry (UInt64.ofNat i)).toNat.testBit k = (decide (k % 2 = 0) && i.testBit (k / 2)) := by
  rcases Nat.lt_or_ge k 64 with h | h
  · exact entry_bits i hi k h
  · rw [Nat.testBit_lt_two_pow (Nat.lt_of_lt_of_le (UInt64.toNat_lt _) (Nat.pow_le_pow_right (by omega) h)),
      Nat.testBit_lt_two_pow (Nat.lt_of_lt_of_le hi (Nat.pow_le_pow_right (n := 2) (i := 8) (by omega) (by omega)))]
    simp

theorem tableAt_eq (i : Int32) (n : Nat) (hn : n < 256) (h : i.toUInt32.toNat = n) :
    tableAt i = .ok (entry (UInt64.ofNat n)) := by
  have hi : i.toInt = n := by
    have : i.toInt = (i.toUInt32.toNat : Int).bmod (2 ^ 32) := by
      rw [show i.toInt = i.toBitVec.toInt from rfl, BitVec.toInt_eq_toNat_bmod]
      rfl
    rw [this, h, Int.bmod_def]
    omega
  unfold tableAt
  rw [hi, if_pos (by omega)]
  simp [table256, hn]

theorem testBit_high {x j : Nat} (n : Nat) (hx : x < 2 ^ n) (h : n ≤ j) : x.testBit j = false :=
  Nat.testBit_lt_two_pow (Nat.lt_of_lt_of_le hx (Nat.pow_le_pow_right (by omega) h))

theorem bits16 (x y k : Nat) (hx : x < 65536) (hy : y < 65536) :
    (decide (k < 64) && (decide (k ≥ 1) && (decide ((k - 1) % 2 = 0) && (y % 256).testBit ((k - 1) / 2))) ||
        (decide (k % 2 = 0) && (x % 256).testBit (k / 2)) ||
      decide (k < 64) &&
        (decide (k ≥ 16) &&
          (decide (k - 16 < 64) &&
              (decide (k - 16 ≥ 1) && (decide ((k - 16 - 1) % 2 = 0) && (y / 256).testBit ((k - 16 - 1) / 2))) ||
            (decide ((k - 16) % 2 = 0) && (x / 256).testBit ((k - 16) / 2))))) =
    if k % 2 = 0 then x.testBit (k / 2) else y.testBit (k / 2) := by
  have e : (256 : Nat) = 2 ^ 8 := rfl
  rw [e]
  simp only [Nat.testBit_mod_two_pow, Nat.testBit_div_two_pow]
  by_cases h : k % 2 = 0
  · obtain ⟨j, rfl⟩ : ∃ j, k = 2 * j := ⟨k / 2, by omega⟩
    have a1 : 2 * j / 2 = j := by omega
    have a2 : ¬ (1 ≤ 2 * j ∧ (2 * j - 1) % 2 = 0) := by omega
    have a3 : ¬ (1 ≤ 2 * j - 16 ∧ (2 * j - 16 - 1) % 2 = 0) := by omega
    rw [if_pos h, a1]
    rcases Nat.lt_or_ge j 16 with hj | hj
    · rcases Nat.lt_or_ge j 8 with hj8 | hj8
      · have : ¬ (16 ≤ 2 * j) := by omega
        have : (2 * j) % 2 = 0 := by omega
        grind
      · have : (2 * j - 16) / 2 + 8 = j := by omega
        have : (2 * j - 16) % 2 = 0 := by omega
        grind
    · have := testBit_high (x := x) (j := j) 16 hx hj
      have : (2 * j - 16) / 2 + 8 = j := by omega
      grind
  · obtain ⟨j, rfl⟩ : ∃ j, k = 2 * j + 1 := ⟨k / 2, by omega⟩
    have a1 : (2 * j + 1) / 2 = j := by omega
    have a2 : (2 * j + 1 - 1) / 2 = j := by omega
    have a3 : ¬ (2 * j + 1) % 2 = 0 := by omega
    have a4 : 2 * j + 1 ≥ 16 → ¬ (2 * j + 1 - 16) % 2 = 0 := by omega
    rw [if_neg h, a1, a2]
    rcases Nat.lt_or_ge j 16 with hj | hj
    · rcases Nat.lt_or_ge j 8 with hj8 | hj8
      · have : ¬ (16 ≤ 2 * j + 1) := by omega
        have : (2 * j + 1 - 1) % 2 = 0 := by omega
        grind
      · have : (2 * j + 1 - 16 - 1) / 2 + 8 = j := by omega
        have : (2 * j + 1 - 16 - 1) % 2 = 0 := by omega
        have : 2 * j + 1 ≥ 16 := by omega
        have : 2 * j + 1 - 16 ≥ 1 := by omega
        grind
    · have := testBit_high (x := y) (j := j) 16 hy hj
      have : (2 * j + 1 - 16 - 1) / 2 + 8 = j := by omega
      grind

/-- Bits of a 16-bit interleaving. -/
theorem interleave_eq (x y : Int32) (hx : x.toUInt32.toNat < 65536) (hy : y.toUInt32.toNat < 65536) :
    ∃ c, interleaveMorton16 x y = .ok c ∧ ∀ k, c.toNat.testBit k =
      if k % 2 = 0 then x.toUInt32.toNat.testBit (k / 2) else y.toUInt32.toNat.testBit (k / 2) := by
  have hlo : ∀ z : Int32, (z &&& 0xff).toUInt32.toNat = z.toUInt32.toNat % 256 := by
    intro z
    show (z &&& 0xff).toBitVec.toNat = _
    rw [Int32.toBitVec_and, BitVec.toNat_and]
    exact Nat.and_two_pow_sub_one_eq_mod _ 8
  have hhi : ∀ z : Int32, z.toUInt32.toNat < 65536 → (z >>> 8).toUInt32.toNat = z.toUInt32.toNat / 256 := by
    intro z hz
    have e : (z >>> 8).toBitVec = z.toBitVec.sshiftRight 8 := rfl
    show (z >>> 8).toBitVec.toNat = _
    rw [e, BitVec.sshiftRight_eq_of_msb_false, BitVec.toNat_ushiftRight, Nat.shiftRight_eq_div_pow]
    · rfl
    · rw [BitVec.msb_eq_decide]
      simp only [decide_eq_false_iff_not, ge_iff_le, Nat.not_le]
      exact Nat.lt_of_lt_of_le hz (by decide)
  unfold interleaveMorton16
  have h1 := Nat.mod_lt x.toUInt32.toNat (show 256 > 0 by omega)
  have h2 := Nat.mod_lt y.toUInt32.toNat (show 256 > 0 by omega)
  rw [tableAt_eq _ _ h2 (hlo y), tableAt_eq _ _ h1 (hlo x),
    tableAt_eq _ (y.toUInt32.toNat / 256) (by omega) (hhi y hy),
    tableAt_eq _ (x.toUInt32.toNat / 256) (by omega) (hhi x hx)]
  refine ⟨_, rfl, fun k => ?_⟩
  simp only [UInt64.toNat_or, UInt64.toNat_shiftLeft, Nat.testBit_or, Nat.testBit_mod_two_pow,
    Nat.testBit_shiftLeft]
  rw [show (1 : UInt64).toNat = 1 from rfl, show (16 : UInt64).toNat = 16 from rfl]
  simp only [Nat.reduceMod, UInt64.toNat_or, UInt64.toNat_shiftLeft, Nat.testBit_or,
    Nat.testBit_shiftLeft, Nat.testBit_mod_two_pow]
  rw [entry_testBit _ h1, entry_testBit _ h2, entry_testBit _ (by omega : x.toUInt32.toNat / 256 < 256),
    entry_testBit _ (by omega : y.toUInt32.toNat / 256 < 256)]
  exact bits16 _ _ k hx hy

theorem mask16 (z : Int32) : (z &&& 0xffff).toUInt32.toNat = z.toUInt32.toNat % 65536 := by
  show (z &&& 0xffff).toBitVec.toNat = _
  rw [Int32.toBitVec_and, BitVec.toNat_and]
  exact Nat.and_two_pow_sub_one_eq_mod _ 16

theorem high16 (z : Int32) : ((z >>> 16) &&& 0xffff).toUInt32.toNat = z.toUInt32.toNat / 65536 := by
  show ((z >>> 16) &&& 0xffff).toBitVec.toNat = z.toBitVec.toNat / 65536
  have e : (z >>> 16).toBitVec = z.toBitVec.sshiftRight 16 := rfl
  rw [Int32.toBitVec_and, e]
  have : z.toBitVec.sshiftRight 16 &&& Int32.toBitVec 65535 = z.toBitVec >>> 16 := by
    apply BitVec.eq_of_getLsbD_eq
    intro i hi
    rw [BitVec.getLsbD_and, BitVec.getLsbD_sshiftRight, BitVec.getLsbD_ushiftRight]
    have h : (Int32.toBitVec 65535).getLsbD i = decide (i < 16) := by
      have : ∀ i < 32, (Int32.toBitVec 65535).getLsbD i = decide (i < 16) := by decide
      exact this i hi
    rw [h]
    by_cases h16 : i < 16
    · have : ¬ 32 ≤ i := by omega
      have : 16 + i < 32 := by omega
      simp [*]
    · have : z.toBitVec.getLsbD (16 + i) = false := BitVec.getLsbD_of_ge _ _ (by omega)
      simp [*]
  rw [this, BitVec.toNat_ushiftRight, Nat.shiftRight_eq_div_pow]

/-- Bits of a code. -/
theorem encode_bits (e o : Int32) : ∃ c, Encode e o = .ok c ∧ ∀ k, c.toNat.testBit k =
      if k % 2 = 0 then e.toUInt32.toNat.testBit (k / 2) else o.toUInt32.toNat.testBit (k / 2) := by
  have he := e.toUInt32.toNat_lt
  have ho := o.toUInt32.toNat_lt
  obtain ⟨lo, h1, b1⟩ := interleave_eq (e &&& 0xffff) (o &&& 0xffff)
    (by rw [mask16]; omega) (by rw [mask16]; omega)
  obtain ⟨hi, h2, b2⟩ := interleave_eq ((e >>> 16) &&& 0xffff) ((o >>> 16) &&& 0xffff)
    (by rw [high16]; omega) (by rw [high16]; omega)
  unfold Encode
  rw [h1, h2]
  refine ⟨_, rfl, fun k => ?_⟩
  simp only [UInt64.toNat_or, UInt64.toNat_shiftLeft, Nat.testBit_or, Nat.testBit_mod_two_pow,
    Nat.testBit_shiftLeft]
  rw [show (32 : UInt64).toNat = 32 from rfl]
  simp only [Nat.reduceMod, Nat.testBit_shiftLeft]
  rw [b1, b2, high16, high16, mask16, mask16]
  rw [show (65536 : Nat) = 2 ^ 16 from rfl]
  simp only [Nat.testBit_mod_two_pow, Nat.testBit_div_two_pow]
  have hp : (k - 32) % 2 = k % 2 ∨ k < 32 := by omega
  rcases Nat.lt_or_ge k 32 with hk | hk
  · have : k / 2 < 16 := by omega
    have : ¬ 32 ≤ k := by omega
    simp [*]
  · have h3 : (k - 32) % 2 = k % 2 := by omega
    have h4 : (k - 32) / 2 + 16 = k / 2 := by omega
    have h5 : ¬ k / 2 < 16 := by omega
    rw [h3, h4]
    rcases Nat.lt_or_ge k 64 with hk2 | hk2
    · simp [*]
    · have := testBit_high (x := e.toUInt32.toNat) (j := k / 2) 32 he (by omega)
      have := testBit_high (x := o.toUInt32.toNat) (j := k / 2) 32 ho (by omega)
      simp [*]

/-! ### Decoding -/

theorem and_one_ne (x : UInt64) : (x &&& 1 ≠ 0) ↔ x.toNat.testBit 0 = true := by
  rw [ne_eq, ← UInt64.toNat_inj, UInt64.toNat_and, Nat.testBit_zero]
  rw [show (1 : UInt64).toNat = 1 from rfl, show (0 : UInt64).toNat = 0 from rfl, Nat.and_one_is_mod]
  simp

theorem and_two_ne (x : UInt64) : (x &&& 2 ≠ 0) ↔ x.toNat.testBit 1 = true := by
  rw [ne_eq, ← UInt64.toNat_inj, UInt64.toNat_and]
  rw [show (2 : UInt64).toNat = 2 ^ 1 from rfl, show (0 : UInt64).toNat = 0 from rfl]
  have : (x.toNat &&& 2 ^ 1 = 0) ↔ x.toNat.testBit 1 = false := by
    constructor
    · intro h
      have := congrArg (fun n => n.testBit 1) h
      simp only [Nat.testBit_and, Nat.testBit_two_pow, Nat.zero_testBit] at this
      simpa using this
    · intro h
      apply Nat.eq_of_testBit_eq
      intro i
      rw [Nat.testBit_and, Nat.testBit_two_pow, Nat.zero_testBit]
      by_cases hi : 1 = i
      · subst hi; simp [h]
      · simp [hi]
  rw [this]
  simp

theorem shift_in (e : UInt32) (b : Bool) (P : Prop) [Decidable P] (hP : P ↔ b = true) (j : Nat)
    (hj : j < 32) :
    (if P then (e >>> 1) ||| 0x80000000 else e >>> 1).toNat.testBit j
      = if j < 31 then e.toNat.testBit (j + 1) else b := by
  have he := e.toNat_lt
  have hs : (e >>> 1).toNat.testBit j = e.toNat.testBit (j + 1) := by
    rw [UInt32.toNat_shiftRight, show (1 : UInt32).toNat = 1 from rfl]
    simp only [Nat.reduceMod, Nat.testBit_shiftRight]
    rw [Nat.add_comm]
  have h31 : j = 31 → e.toNat.testBit (j + 1) = false := fun h =>
    testBit_high 32 he (by omega)
  by_cases hp : P
  · rw [if_pos hp, UInt32.toNat_or, Nat.testBit_or, hs,
      show (0x80000000 : UInt32).toNat = 2 ^ 31 from rfl, Nat.testBit_two_pow]
    have := hP.1 hp
    grind
  · rw [if_neg hp, hs]
    have : b = false := by simpa using mt hP.2 hp
    grind

theorem decodeLoop_bits (n : Nat) : ∀ (e o : UInt32) (x : UInt64), n ≤ 32 → ∀ j < 32,
    ((decodeLoop n e o x).1.toNat.testBit j
      = if j < 32 - n then e.toNat.testBit (j + n) else x.toNat.testBit (2 * (j - (32 - n)))) ∧
    ((decodeLoop n e o x).2.toNat.testBit j
      = if j < 32 - n then o.toNat.testBit (j + n) else x.toNat.testBit (2 * (j - (32 - n)) + 1)) := by
  induction n with
  | zero => intro e o x _ j hj; simp [decodeLoop, hj]
  | succ n ih =>
    intro e o x hn j hj
    unfold decodeLoop
    obtain ⟨h1, h2⟩ := ih
      (if x &&& 1 ≠ 0 then (e >>> 1) ||| 0x80000000 else e >>> 1)
      (if x &&& 2 ≠ 0 then (o >>> 1) ||| 0x80000000 else o >>> 1) (x >>> 2) (by omega) j hj
    have hx : ∀ i, (x >>> 2).toNat.testBit i = x.toNat.testBit (i + 2) := by
      intro i
      rw [UInt64.toNat_shiftRight, show (2 : UInt64).toNat = 2 from rfl]
      simp only [Nat.reduceMod, Nat.testBit_shiftRight]
      rw [Nat.add_comm]
    rw [h1, h2]
    rcases Nat.lt_or_ge j (32 - n) with hlt | hge
    · rw [if_pos hlt, if_pos hlt, shift_in e _ _ (and_one_ne x) (j + n) (by omega),
        shift_in o _ _ (and_two_ne x) (j + n) (by omega)]
      have a1 : j + n < 31 ↔ j < 32 - (n + 1) := by omega
      simp only [a1]
      split
      · exact ⟨rfl, rfl⟩
      · have : j - (32 - (n + 1)) = 0 := by omega
        rw [this]
        exact ⟨rfl, rfl⟩
    · rw [if_neg (by omega), if_neg (by omega), if_neg (by omega), if_neg (by omega), hx, hx]
      have : 2 * (j - (32 - n)) + 2 = 2 * (j - (32 - (n + 1))) := by omega
      have : 2 * (j - (32 - n)) + 1 + 2 = 2 * (j - (32 - (n + 1))) + 1 := by omega
      simp [*]

theorem decode_bits (x : UInt64) (j : Nat) (hj : j < 32) :
    (Decode x).1.toNat.testBit j = x.toNat.testBit (2 * j) ∧
    (Decode x).2.toNat.testBit j = x.toNat.testBit (2 * j + 1) := by
  have := decodeLoop_bits 32 0 0 x (by omega) j hj
  rw [if_neg (by omega), if_neg (by omega)] at this
  exact this

theorem uint32_ext {a b : UInt32} (h : ∀ j < 32, a.toNat.testBit j = b.toNat.testBit j) : a = b := by
  rw [← UInt32.toNat_inj]
  apply Nat.eq_of_testBit_eq
  intro j
  rcases Nat.lt_or_ge j 32 with hj | hj
  · exact h j hj
  · rw [testBit_high 32 a.toNat_lt hj, testBit_high 32 b.toNat_lt hj]

theorem uint64_ext {a b : UInt64} (h : ∀ j < 64, a.toNat.testBit j = b.toNat.testBit j) : a = b := by
  rw [← UInt64.toNat_inj]
  apply Nat.eq_of_testBit_eq
  intro j
  rcases Nat.lt_or_ge j 64 with hj | hj
  · exact h j hj
  · rw [testBit_high 64 a.toNat_lt hj, testBit_high 64 b.toNat_lt hj]

theorem decode_encode (e o : Int32) (c : UInt64) (h : Encode e o = .ok c) :
    Decode c = (e.toUInt32, o.toUInt32) := by
  obtain ⟨c', h', hb⟩ := encode_bits e o
  rw [h] at h'
  simp only [Res.ok.injEq] at h'
  subst h'
  refine Prod.ext (uint32_ext fun j hj => ?_) (uint32_ext fun j hj => ?_)
  · rw [(decode_bits c j hj).1, hb, if_pos (by omega)]
    congr 1; omega
  · rw [(decode_bits c j hj).2, hb, if_neg (by omega)]
    congr 1; omega

theorem encode_decode (x : UInt64) : Encode (Decode x).1.toInt32 (Decode x).2.toInt32 = .ok x := by
  obtain ⟨c, h, hb⟩ := encode_bits (Decode x).1.toInt32 (Decode x).2.toInt32
  rw [h]
  congr 1
  apply uint64_ext
  intro k hk
  rw [hb, UInt32.toUInt32_toInt32, UInt32.toUInt32_toInt32]
  split
  · rw [(decode_bits x (k / 2) (by omega)).1]; congr 1; omega
  · rw [(decode_bits x (k / 2) (by omega)).2]; congr 1; omega

/-! ### Locations -/

/-- Shifting the flag out and back in: the top two bits become equal to bit 30. -/
theorem latitude_back (lat : Int32) (h1 : -(2 ^ 30) ≤ lat.toInt) (h2 : lat.toInt < 2 ^ 30) :
    ((lat ||| Int32.minValue) <<< 1) >>> 1 = lat := by
  apply Int32.toBitVec.inj
  have e1 : (((lat ||| Int32.minValue) <<< 1) >>> 1).toBitVec
      = ((lat.toBitVec ||| BitVec.intMin 32) <<< 1).sshiftRight 1 := rfl
  rw [e1]
  have h30 : lat.toBitVec.getLsbD 31 = lat.toBitVec.getLsbD 30 := by
    have hv : lat.toInt = lat.toBitVec.toInt := rfl
    rw [hv, BitVec.toInt_eq_toNat_cond] at h1 h2
    have hb := lat.toBitVec.isLt
    unfold BitVec.getLsbD
    rw [Nat.testBit_eq_decide_div_mod_eq, Nat.testBit_eq_decide_div_mod_eq]
    congr 1
    simp only [eq_iff_iff]
    split at h1 <;> omega
  apply BitVec.eq_of_getLsbD_eq
  intro i hi
  rw [BitVec.getLsbD_sshiftRight, BitVec.msb_eq_getLsbD_last]
  simp only [BitVec.getLsbD_shiftLeft, BitVec.getLsbD_or, BitVec.getLsbD_intMin]
  rcases Nat.lt_or_ge i 30 with h | h
  · have : 1 + i < 32 := by omega
    have : ¬ 1 + i < 1 := by omega
    have : i ≠ 31 := by omega
    have : 1 + i - 1 = i := by omega
    simp [*]
  · rcases (by omega : i = 30 ∨ i = 31) with rfl | rfl
    · simp
    · rw [h30]; simp

theorem location_neg (lon lat : Int32) : ∃ l, location lon lat = .ok l ∧ l.toInt < 0 ∧
    DecodeLocation l.toUInt64 = (lon, ((lat ||| Int32.minValue) <<< 1) >>> 1) := by
  obtain ⟨c, h, hb⟩ := encode_bits lon (lat ||| Int32.minValue)
  have hd := decode_encode _ _ _ h
  unfold location
  rw [h]
  refine ⟨_, rfl, ?_, ?_⟩
  · have h63 := hb 63
    rw [if_neg (by decide)] at h63
    have : (lat ||| Int32.minValue).toUInt32.toNat.testBit (63 / 2) = true := by
      show (lat.toBitVec ||| BitVec.intMin 32).toNat.testBit 31 = true
      rw [BitVec.toNat_or, Nat.testBit_or]
      have : (BitVec.intMin 32).toNat.testBit 31 = true := by decide
      rw [this, Bool.or_true]
    rw [this, Nat.testBit_eq_decide_div_mod_eq] at h63
    have hc := c.toNat_lt
    have e : c.toInt64.toInt = (c.toNat : Int).bmod (2 ^ 64) := by
      rw [show c.toInt64.toInt = c.toBitVec.toInt from rfl, BitVec.toInt_eq_toNat_bmod]
      rfl
    rw [e, Int.bmod_def]
    simp only [decide_eq_true_eq] at h63
    omega
  · unfold DecodeLocation
    rw [UInt64.toUInt64_toInt64, hd]
    simp

end Osm.Morton
