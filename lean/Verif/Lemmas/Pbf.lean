import Verif.Spec.Pbf
import Verif.Lemmas.Blob

namespace Osm.Pbf
open Osm Osm.Spec Osm.Pb Osm.T

/-! ### Big-endian words -/

theorem byte_bit32 (x s : UInt32) (hs : s.toNat ≤ 24) (i : Nat) :
    (((x >>> s).toUInt8.toUInt32) <<< s).toNat.testBit i =
      (decide (s.toNat ≤ i ∧ i < s.toNat + 8) && x.toNat.testBit i) := by
  rw [UInt32.toNat_shiftLeft, UInt8.toNat_toUInt32, UInt32.toNat_toUInt8, UInt32.toNat_shiftRight,
    Nat.mod_eq_of_lt (show s.toNat < 32 by omega), Nat.testBit_mod_two_pow, Nat.testBit_shiftLeft,
    Nat.testBit_mod_two_pow, Nat.testBit_shiftRight]
  by_cases h : s.toNat ≤ i
  · rw [show s.toNat + (i - s.toNat) = i by omega]
    by_cases h2 : i < s.toNat + 8
    · simp [h, h2, show i < 32 by omega, show i - s.toNat < 8 by omega]
    · simp [h2, show ¬ (i - s.toNat < 8) by omega]
  · simp [h]

theorem beWord_be32 (x : UInt32) :
    beWord (x >>> 24).toUInt8 (x >>> 16).toUInt8 (x >>> 8).toUInt8 x.toUInt8 = x := by
  unfold beWord
  apply UInt32.toNat_inj.1
  apply Nat.eq_of_testBit_eq
  intro i
  have h0 := byte_bit32 x 0 (by decide) i
  rw [show x >>> 0 = x by apply UInt32.toNat_inj.1; rw [UInt32.toNat_shiftRight]; simp] at h0
  rw [show x.toUInt8.toUInt32 <<< 0 = x.toUInt8.toUInt32 by
    apply UInt32.toNat_inj.1; rw [UInt32.toNat_shiftLeft]; simp; omega] at h0
  simp only [UInt32.toNat_or, Nat.testBit_or, h0, byte_bit32 x 8 (by decide) i,
    byte_bit32 x 16 (by decide) i, byte_bit32 x 24 (by decide) i]
  have hx : x.toNat.testBit i = true → i < 32 := by
    intro h
    rcases Nat.lt_or_ge i 32 with h' | h'
    · exact h'
    · rw [Nat.testBit_lt_two_pow (Nat.lt_of_lt_of_le x.toNat_lt (Nat.pow_le_pow_right (by omega) h'))] at h
      cases h
  cases hb : x.toNat.testBit i
  · simp
  · have := hx hb
    simp only [Bool.and_true, Bool.or_eq_true, decide_eq_true_eq]
    simp only [UInt32.reduceToNat]
    omega

theorem be32_beWord (a b c d : UInt8) : be32 (beWord a b c d) = [a, b, c, d] := by
  have key : ∀ (s : Nat) (y : UInt8), s ≤ 24 → (∀ i, i < 8 → (beWord a b c d).toNat.testBit (s + i) = y.toNat.testBit i) →
      (beWord a b c d >>> UInt32.ofNat s).toUInt8 = y := by
    intro s y hs h
    apply UInt8.toNat_inj.1
    apply Nat.eq_of_testBit_eq
    intro i
    rw [UInt32.toNat_toUInt8, UInt32.toNat_shiftRight, Nat.testBit_mod_two_pow, Nat.testBit_shiftRight]
    rw [UInt32.toNat_ofNat', Nat.mod_eq_of_lt (show s < 2 ^ 32 by omega), Nat.mod_eq_of_lt (show s < 32 by omega)]
    by_cases hi : i < 8
    · simp [hi, h i hi]
    · simp only [hi, decide_false, Bool.false_and]
      symm
      exact Nat.testBit_lt_two_pow (Nat.lt_of_lt_of_le y.toNat_lt (Nat.pow_le_pow_right (by omega) (by omega)))
  have bit : ∀ i, (beWord a b c d).toNat.testBit i =
      (d.toNat.testBit i || (decide (8 ≤ i ∧ i < 32) && c.toNat.testBit (i - 8)) ||
        (decide (16 ≤ i ∧ i < 32) && b.toNat.testBit (i - 16)) ||
        (decide (24 ≤ i ∧ i < 32) && a.toNat.testBit (i - 24))) := by
    intro i
    unfold beWord
    simp only [UInt32.toNat_or, Nat.testBit_or, UInt32.toNat_shiftLeft, Nat.testBit_mod_two_pow,
      Nat.testBit_shiftLeft, UInt8.toNat_toUInt32, UInt32.reduceToNat]
    simp only [Bool.decide_and]
    by_cases h : i < 32 <;> simp [h]
  have small : ∀ (y : UInt8) i, 8 ≤ i → y.toNat.testBit i = false := by
    intro y i hi
    exact Nat.testBit_lt_two_pow (Nat.lt_of_lt_of_le y.toNat_lt (Nat.pow_le_pow_right (by omega) hi))
  unfold be32
  have k24 := key 24 a (by omega) (by
    intro i hi
    rw [bit, small d _ (by omega), small c _ (by omega), small b _ (by omega)]
    simp [show 24 + i - 24 = i by omega, show 24 + i < 32 by omega])
  have k16 := key 16 b (by omega) (by
    intro i hi
    rw [bit, small d _ (by omega), small c _ (by omega)]
    simp [show 16 + i - 16 = i by omega, show 16 + i < 32 by omega, show ¬ 24 ≤ 16 + i by omega])
  have k8 := key 8 c (by omega) (by
    intro i hi
    rw [bit, small d _ (by omega)]
    simp [show 8 + i - 8 = i by omega, show 8 + i < 32 by omega, show ¬ 24 ≤ 8 + i by omega,
      show ¬ 16 ≤ 8 + i by omega])
  have k0 := key 0 d (by omega) (by
    intro i hi
    rw [bit]
    simp [show ¬ 24 ≤ i by omega, show ¬ 16 ≤ i by omega, show ¬ 8 ≤ i by omega])
  rw [show beWord a b c d >>> UInt32.ofNat 0 = beWord a b c d by
    apply UInt32.toNat_inj.1; rw [UInt32.toNat_shiftRight]; simp] at k0
  simp only [show (24 : UInt32) = UInt32.ofNat 24 from rfl, show (16 : UInt32) = UInt32.ofNat 16 from rfl,
    show (8 : UInt32) = UInt32.ofNat 8 from rfl]
  rw [k24, k16, k8, k0]

theorem be32_length (x : UInt32) : (be32 x).length = 4 := rfl

theorem be32_inj {x y : UInt32} (h : be32 x = be32 y) : x = y := by
  unfold be32 at h
  simp only [List.cons.injEq, and_true] at h
  obtain ⟨h1, h2, h3, h4⟩ := h
  rw [← beWord_be32 x, ← beWord_be32 y, h1, h2, h3, h4]

/-! ### One block -/

theorem headerSize_ok {file : List UInt8} {pos size : Nat} :
    headerSize file pos = .ok size ↔
      ∃ rest, file.drop pos = be32 (UInt32.ofNat size) ++ rest ∧ size < 2 ^ 32 := by
  unfold headerSize
  constructor
  · intro h
    split at h
    · next a b c d rest hd =>
      cases h
      refine ⟨rest, ?_, UInt32.toNat_lt _⟩
      rw [hd, UInt32.ofNat_toNat, be32_beWord]
      rfl
    · cases h
  · rintro ⟨rest, hd, hs⟩
    rw [hd]
    simp only [be32, List.cons_append, List.nil_append, beWord_be32]
    rw [UInt32.toNat_ofNat', Nat.mod_eq_of_lt hs]

theorem headerSize_ne_hang (file : List UInt8) (pos : Nat) : headerSize file pos ≠ .hang := by
  unfold headerSize
  split <;> simp

theorem sub_full_ok {file : List UInt8} {lo hi : Nat} {b : Slice} :
    (Slice.full file).sub lo hi = .ok b ↔
      lo ≤ hi ∧ hi ≤ file.length ∧ b = ⟨(file.drop lo).take (hi - lo), file.drop hi⟩ := by
  unfold Slice.sub Slice.full
  dsimp only
  split
  · next h =>
    simp only [List.length_nil, Nat.add_zero] at h
    simp only [List.append_nil, Int.toNat_natCast, Res.ok.injEq]
    constructor
    · intro e; exact ⟨by omega, by omega, e.symm⟩
    · intro e; exact e.2.2.symm
  · next h =>
    simp only [List.length_nil, Nat.add_zero] at h
    constructor
    · intro e; cases e
    · intro e; exact absurd ⟨by omega, by omega, by omega⟩ h

theorem sub_ne_hang (s : Slice) (i j : Int) : s.sub i j ≠ .hang := by
  unfold Slice.sub
  split <;> simp

theorem dataSize_nonneg (bh : BlobHeader) (h : 0 ≤ bh.DataSize.toInt) :
    (dataSize bh : Int) = bh.DataSize.toInt := by
  unfold dataSize
  have h1 := int32_ext_toNat bh.DataSize
  have h2 := bh.DataSize.toInt_lt
  omega

theorem dataSize_neg (bh : BlobHeader) (h : bh.DataSize.toInt < 0) :
    (dataSize bh : Int) = bh.DataSize.toInt + 2 ^ 64 := by
  unfold dataSize
  have h1 := int32_ext_toNat bh.DataSize
  have h2 := bh.DataSize.le_toInt
  omega

theorem readHeader_ok {file : List UInt8} {pos size : Nat} {bh : BlobHeader}
    (hp : pos ≤ file.length) (hl : file.length < 2 ^ 63) (hs : size < 2 ^ 32) :
    readHeader file pos size = .ok bh ↔
      ∃ header rest, file.drop pos = header ++ rest ∧ header.length = size ∧
        ReadBlobHeader ⟨header, rest⟩ = .ok bh ∧ (bh.Kind = osmHeader ∨ bh.Kind = osmData) := by
  unfold readHeader
  rw [Nat.mod_eq_of_lt (by omega)]
  constructor
  · intro h
    obtain ⟨b, hb, h'⟩ := Res.bind_eq_ok.1 h
    obtain ⟨bh', hr, h''⟩ := Res.bind_eq_ok.1 h'
    clear h h'
    obtain ⟨h1, h2, rfl⟩ := sub_full_ok.1 hb
    split at h''
    · cases h''
    · next hk =>
      cases h''
      refine ⟨(file.drop pos).take size, file.drop (pos + size), ?_, ?_, ?_, ?_⟩
      · rw [← List.drop_drop, List.take_append_drop]
      · simp; omega
      · rw [show pos + size - pos = size by omega] at hr; exact hr
      · simp only [ne_eq, not_and, Classical.not_not] at hk
        by_cases h' : bh.Kind = osmHeader
        · exact Or.inl h'
        · exact Or.inr (hk h')
  · rintro ⟨header, rest, hd, rfl, hr, hk⟩
    have hlen := congrArg List.length hd
    simp only [List.length_drop, List.length_append] at hlen
    have hsub : (Slice.full file).sub (pos : Nat) ((pos + header.length : Nat) : Int)
        = .ok ⟨header, rest⟩ := by
      refine sub_full_ok.2 ⟨by omega, by omega, ?_⟩
      rw [show pos + header.length - pos = header.length by omega, ← List.drop_drop, hd,
        List.take_left, List.drop_left]
    rw [hsub]
    simp only [Res.ok_bind]
    rw [hr]
    simp only [Res.ok_bind]
    rw [if_neg (by rintro ⟨h1, h2⟩; exact hk.elim h1 h2)]

theorem readHeader_ne_hang {file : List UInt8} {pos size : Nat} (hl : file.length < 2 ^ 63) :
    readHeader file pos size ≠ .hang := by
  unfold readHeader
  cases h : (Slice.full file).sub pos ((pos + size) % 2 ^ 64 : Nat) with
  | hang => exact absurd h (sub_ne_hang _ _ _)
  | panic => simp
  | ok b =>
    simp only [Res.ok_bind]
    have hf : b.Fits := by
      have h' : (Slice.full file).sub (pos : Nat) (((pos + size) % 2 ^ 64 : Nat) : Int) = .ok b := h
      obtain ⟨h1, h2, rfl⟩ := sub_full_ok.1 h'
      unfold Slice.Fits
      simp only [List.length_take, List.length_drop]
      omega
    cases hr : ReadBlobHeader b with
    | hang => exact absurd hr (readBlobHeader_ne_hang _ hf)
    | panic => simp
    | ok bh =>
      simp only [Res.ok_bind]
      split <;> simp

theorem readData_ok {file : List UInt8} {pos i : Nat} {bh : BlobHeader} {b : Block}
    (hp : pos ≤ file.length) (hl : file.length < 2 ^ 63) :
    readData file pos i bh = .ok b ↔
      ∃ data rest, file.drop pos = data ++ rest ∧ bh.DataSize.toInt = data.length ∧
        b = ⟨i, ⟨data, rest⟩, bh.Kind⟩ := by
  have b1 := bh.DataSize.toInt_lt
  have b2 := bh.DataSize.le_toInt
  unfold readData
  constructor
  · intro h
    obtain ⟨s, hs, h⟩ := Res.bind_eq_ok.1 h
    cases h
    have hs' : (Slice.full file).sub (pos : Nat) (((pos + dataSize bh) % 2 ^ 64 : Nat) : Int) = .ok s := hs
    obtain ⟨h1, h2, rfl⟩ := sub_full_ok.1 hs'
    by_cases hneg : bh.DataSize.toInt < 0
    · have := dataSize_neg bh hneg
      exfalso
      omega
    · have := dataSize_nonneg bh (by omega)
      rw [Nat.mod_eq_of_lt (by omega)] at h1 h2 ⊢
      refine ⟨(file.drop pos).take (dataSize bh), file.drop (pos + dataSize bh), ?_, ?_, ?_⟩
      · rw [← List.drop_drop, List.take_append_drop]
      · simp; omega
      · rw [show pos + dataSize bh - pos = dataSize bh by omega]
  · rintro ⟨data, rest, hd, hsz, rfl⟩
    have hlen := congrArg List.length hd
    simp only [List.length_drop, List.length_append] at hlen
    have := dataSize_nonneg bh (by omega)
    have e : dataSize bh = data.length := by omega
    rw [e, Nat.mod_eq_of_lt (by omega)]
    have hsub : (Slice.full file).sub (pos : Nat) ((pos + data.length : Nat) : Int)
        = .ok ⟨data, rest⟩ := by
      refine sub_full_ok.2 ⟨by omega, by omega, ?_⟩
      rw [show pos + data.length - pos = data.length by omega, ← List.drop_drop, hd,
        List.take_left, List.drop_left]
    rw [hsub]
    rfl

theorem readData_ne_hang (file : List UInt8) (pos i : Nat) (bh : BlobHeader) :
    readData file pos i bh ≠ .hang := by
  unfold readData
  cases h : (Slice.full file).sub pos ((pos + dataSize bh) % 2 ^ 64 : Nat) with
  | hang => exact absurd h (sub_ne_hang _ _ _)
  | panic => simp
  | ok b => simp

theorem readData_size {file : List UInt8} {pos i : Nat} {bh : BlobHeader} {b : Block}
    (hp : pos ≤ file.length) (hl : file.length < 2 ^ 63) (h : readData file pos i bh = .ok b) :
    dataSize bh = b.Data.bytes.length ∧ pos + dataSize bh ≤ file.length ∧ b.Index = i := by
  obtain ⟨data, rest, hd, hsz, rfl⟩ := (readData_ok hp hl).1 h
  have hlen := congrArg List.length hd
  simp only [List.length_drop, List.length_append] at hlen
  have := dataSize_nonneg bh (by omega)
  refine ⟨?_, by omega, rfl⟩
  dsimp only
  omega

theorem nextBlock_ok {file : List UInt8} {pos i : Nat} {b : Block} {pos' : Nat}
    (hp : pos ≤ file.length) (hl : file.length < 2 ^ 63) :
    nextBlock file pos i = .ok (b, pos') ↔
      ∃ (header data rest : List UInt8) (kind : GoStr) (size : Int32),
        file.drop pos = be32 (UInt32.ofNat header.length) ++ header ++ data ++ rest ∧
        header.length < 2 ^ 32 ∧
        ReadBlobHeader ⟨header, data ++ rest⟩ = .ok ⟨kind, size⟩ ∧
        (kind = osmHeader ∨ kind = osmData) ∧ size.toInt = data.length ∧
        b = ⟨i, ⟨data, rest⟩, kind⟩ ∧ pos' = pos + 4 + header.length + data.length := by
  unfold nextBlock
  constructor
  · intro h
    obtain ⟨size, h1, h⟩ := Res.bind_eq_ok.1 h
    obtain ⟨bh, h2, h⟩ := Res.bind_eq_ok.1 h
    obtain ⟨b', h3, h⟩ := Res.bind_eq_ok.1 h
    simp only [Res.ok.injEq, Prod.mk.injEq] at h
    obtain ⟨rfl, rfl⟩ := h
    obtain ⟨r1, hd1, hs⟩ := headerSize_ok.1 h1
    have hlen := congrArg List.length hd1
    simp only [List.length_drop, List.length_append, be32_length] at hlen
    obtain ⟨header, r2, hd2, rfl, hrd, hk⟩ := (readHeader_ok (by omega) hl hs).1 h2
    rw [← List.drop_drop, hd1, List.drop_left' (be32_length _)] at hd2
    subst hd2
    simp only [List.length_append] at hlen
    obtain ⟨hz, hz', _⟩ := readData_size (by omega) hl h3
    obtain ⟨data, r3, hd3, hsz, rfl⟩ := (readData_ok (by omega) hl).1 h3
    have e : file.drop (pos + 4 + header.length) = r2 := by
      rw [← List.drop_drop, ← List.drop_drop, hd1, List.drop_left' (be32_length _), List.drop_left]
    rw [e] at hd3
    subst hd3
    refine ⟨header, data, r3, bh.Kind, bh.DataSize, ?_, hs, hrd, hk, hsz, rfl, ?_⟩
    · rw [hd1]; simp
    · dsimp only at hz; omega
  · rintro ⟨header, data, rest, kind, size, hd, hh, hr, hk, hsz, rfl, rfl⟩
    have hlen := congrArg List.length hd
    simp only [List.length_drop, List.length_append, be32_length] at hlen
    have h1 : headerSize file pos = .ok header.length :=
      headerSize_ok.2 ⟨header ++ data ++ rest, by rw [hd]; simp, hh⟩
    have e1 : file.drop (pos + 4) = header ++ (data ++ rest) := by
      rw [← List.drop_drop, hd, List.append_assoc, List.append_assoc, List.drop_left' (be32_length _)]
    have h2 : readHeader file (pos + 4) header.length = .ok ⟨kind, size⟩ :=
      (readHeader_ok (by omega) hl hh).2 ⟨header, data ++ rest, e1, rfl, hr, hk⟩
    have e2 : file.drop (pos + 4 + header.length) = data ++ rest := by
      rw [← List.drop_drop, e1, List.drop_left]
    have h3 : readData file (pos + 4 + header.length) i ⟨kind, size⟩ = .ok ⟨i, ⟨data, rest⟩, kind⟩ :=
      (readData_ok (by omega) hl).2 ⟨data, rest, e2, hsz, rfl⟩
    have hz := (readData_size (by omega) hl h3).1
    rw [h1]
    simp only [Res.ok_bind]
    rw [h2]
    simp only [Res.ok_bind]
    rw [h3]
    simp only [Res.ok_bind]
    rw [hz]

theorem nextBlock_ne_hang (file : List UInt8) (pos i : Nat) (hl : file.length < 2 ^ 63) :
    nextBlock file pos i ≠ .hang := by
  unfold nextBlock
  cases h1 : headerSize file pos with
  | hang => exact absurd h1 (headerSize_ne_hang _ _)
  | panic => simp
  | ok size =>
    simp only [Res.ok_bind]
    cases h2 : readHeader file (pos + 4) size with
    | hang => exact absurd h2 (readHeader_ne_hang hl)
    | panic => simp
    | ok bh =>
      simp only [Res.ok_bind]
      cases h3 : readData file (pos + 4 + size) i bh with
      | hang => exact absurd h3 (readData_ne_hang _ _ _ _)
      | panic => simp
      | ok b => simp

theorem nextBlock_progress {file : List UInt8} {pos i : Nat} {r : Block × Nat}
    (hp : pos ≤ file.length) (hl : file.length < 2 ^ 63) (h : nextBlock file pos i = .ok r) :
    pos + 4 ≤ r.2 ∧ r.2 ≤ file.length := by
  obtain ⟨b, pos'⟩ := r
  obtain ⟨header, data, rest, kind, size, hd, _, _, _, _, _, rfl⟩ := (nextBlock_ok hp hl).1 h
  have hlen := congrArg List.length hd
  simp only [List.length_drop, List.length_append, be32_length] at hlen
  dsimp only
  omega

/-! ### All blocks -/

theorem blockFile_nil_iff {i : Nat} {bs : List Block} : BlockFile i [] bs ↔ bs = [] := by
  constructor
  · intro h
    generalize hf : ([] : List UInt8) = f at h
    cases h with
    | nil => rfl
    | cons _ header data rest kind size bs _ _ _ _ _ =>
      have := congrArg List.length hf
      simp [be32_length] at this
      omega
  · rintro rfl; exact .nil i

theorem splitLoop_iff (file : List UInt8) (hl : file.length < 2 ^ 63) : ∀ (fuel pos i : Nat) (bs : List Block),
    pos ≤ file.length → file.length - pos < fuel →
    (splitLoop file fuel pos i = .ok bs ↔ BlockFile i (file.drop pos) bs) := by
  intro fuel
  induction fuel with
  | zero => intro pos i bs _ h; omega
  | succ fuel ih =>
    intro pos i bs hp hf
    unfold splitLoop
    by_cases hlt : pos < file.length
    · rw [if_pos hlt]
      constructor
      · intro h
        obtain ⟨r, h1, h⟩ := Res.bind_eq_ok.1 h
        obtain ⟨bs', h2, h⟩ := Res.bind_eq_ok.1 h
        cases h
        obtain ⟨b, pos'⟩ := r
        have hpr := nextBlock_progress hp hl h1
        obtain ⟨header, data, rest, kind, size, hd, hh, hr, hk, hsz, rfl, rfl⟩ := (nextBlock_ok hp hl).1 h1
        dsimp only at hpr h2
        rw [ih _ _ _ (by omega) (by omega)] at h2
        rw [hd]
        refine .cons i header data rest kind size bs' hh hr hk hsz ?_
        have e : file.drop (pos + 4 + header.length + data.length) = rest := by
          rw [Nat.add_assoc, Nat.add_assoc, ← List.drop_drop, hd]
          rw [show be32 (UInt32.ofNat header.length) ++ header ++ data ++ rest
            = (be32 (UInt32.ofNat header.length) ++ (header ++ data)) ++ rest by simp]
          rw [List.drop_left' (by simp [be32_length])]
        rw [e] at h2
        exact h2
      · intro h
        generalize hf' : file.drop pos = f at h
        cases h with
        | nil =>
          have := congrArg List.length hf'
          simp only [List.length_drop, List.length_nil] at this
          omega
        | cons _ header data rest kind size bs' hh hr hk hsz hrest =>
          have h1 : nextBlock file pos i
              = .ok (⟨i, ⟨data, rest⟩, kind⟩, pos + 4 + header.length + data.length) :=
            (nextBlock_ok hp hl).2 ⟨header, data, rest, kind, size, hf', hh, hr, hk, hsz, rfl, rfl⟩
          have hpr := nextBlock_progress hp hl h1
          rw [h1]
          simp only [Res.ok_bind]
          dsimp only at hpr
          have e : file.drop (pos + 4 + header.length + data.length) = rest := by
            rw [Nat.add_assoc, Nat.add_assoc, ← List.drop_drop, hf']
            rw [show be32 (UInt32.ofNat header.length) ++ header ++ data ++ rest
              = (be32 (UInt32.ofNat header.length) ++ (header ++ data)) ++ rest by simp]
            rw [List.drop_left' (by simp [be32_length])]
          rw [← e] at hrest
          rw [(ih _ _ _ (by omega) (by omega)).2 hrest]
          simp only [Res.ok_bind]
    · rw [if_neg hlt]
      rw [List.drop_eq_nil_of_le (by omega), blockFile_nil_iff]
      simp [eq_comm]

theorem splitLoop_ne_hang (file : List UInt8) (hl : file.length < 2 ^ 63) : ∀ (fuel pos i : Nat),
    pos ≤ file.length → file.length - pos < fuel → splitLoop file fuel pos i ≠ .hang := by
  intro fuel
  induction fuel with
  | zero => intro pos i _ h; omega
  | succ fuel ih =>
    intro pos i hp hf
    unfold splitLoop
    split
    · cases h1 : nextBlock file pos i with
      | hang => exact absurd h1 (nextBlock_ne_hang _ _ _ hl)
      | panic => simp
      | ok r =>
        simp only [Res.ok_bind]
        have hpr := nextBlock_progress hp hl h1
        cases h2 : splitLoop file fuel r.2 (i + 1) with
        | hang => exact absurd h2 (ih _ _ (by omega) (by omega))
        | panic => simp
        | ok bs => simp
    · simp

theorem split_iff (file : List UInt8) (hl : file.length < 2 ^ 63) (bs : List Block) :
    split file = .ok bs ↔ file ≠ [] ∧ BlockFile 0 file bs := by
  unfold split
  split
  · next h => simp [h]
  · next h =>
    rw [splitLoop_iff file hl _ _ _ _ (by omega) (by omega)]
    simp [h]

theorem split_ne_hang (file : List UInt8) (hl : file.length < 2 ^ 63) : split file ≠ .hang := by
  unfold split
  split
  · simp
  · exact splitLoop_ne_hang file hl _ _ _ (by omega) (by omega)

/-! ### Written blocks -/

/-- The header of a written block. -/
def headerOf (kind : GoStr) (data : List UInt8) : List UInt8 :=
  blobHeaderBytes ⟨kind, (UInt32.ofNat data.length).toInt32⟩

theorem leb128_length_le10 (v : UInt64) : (leb128 v.toNat).length ≤ 10 :=
  leb128_length_le 10 _ (Nat.lt_trans v.toNat_lt (by decide)) (by omega)

theorem headerOf_length {kind : GoStr} {data : List UInt8} (hk : kind = osmHeader ∨ kind = osmData) :
    (headerOf kind data).length < 64 := by
  have hv : ∀ v : UInt64, (varField 3 v).length ≤ 20 := by
    intro v
    unfold varField tagBytes
    have h1 := leb128_length_le10 v
    have h2 := leb128_length_le10 (MakeIdType 3 PbVarInt)
    simp only [List.length_append]
    omega
  have hb : (bufField 1 kind).length ≤ 40 := by
    rcases hk with rfl | rfl <;> decide +kernel
  unfold headerOf blobHeaderBytes
  simp only [List.length_append]
  have := hv ((UInt32.ofNat data.length).toInt32).toInt64.toUInt64
  split <;> split <;> (try simp only [List.length_nil]) <;> omega

theorem frame_eq (kind : GoStr) (data : List UInt8) :
    frame kind data = be32 (UInt32.ofNat (headerOf kind data).length) ++ headerOf kind data ++ data := by
  unfold frame
  simp only [blobHeader_write_eq]
  simp [headerOf]

theorem size_toInt {n : Nat} (h : n < 2 ^ 31) : (UInt32.ofNat n).toInt32.toInt = n := by
  show ((UInt32.ofNat n).toInt32.toBitVec).toInt = n
  show (BitVec.ofNat 32 n).toInt = n
  rw [BitVec.toInt_ofNat', Int.bmod_def]
  omega

theorem headerOf_read (kind : GoStr) (data sp : List UInt8) (hf : (headerOf kind data).length + sp.length < 2 ^ 63) :
    ReadBlobHeader ⟨headerOf kind data, sp⟩ = .ok ⟨kind, (UInt32.ofNat data.length).toInt32⟩ :=
  blobHeader_read _ sp hf

/-- The blocks found in a file of written blocks. -/
def blocksFrom : Nat → List (GoStr × List UInt8) → List Block
  | _, [] => []
  | i, x :: xs => ⟨i, ⟨x.2, fileOf xs⟩, x.1⟩ :: blocksFrom (i + 1) xs

theorem blocksFrom_seen (xs : List (GoStr × List UInt8)) (i : Nat) : (blocksFrom i xs).map Seen = xs := by
  induction xs generalizing i with
  | nil => rfl
  | cons x xs ih => simp [blocksFrom, Seen, ih]

theorem blocksFrom_index (xs : List (GoStr × List UInt8)) (i : Nat) :
    (blocksFrom i xs).map (·.Index) = List.range' i xs.length := by
  induction xs generalizing i with
  | nil => rfl
  | cons x xs ih => simp [blocksFrom, ih, List.range'_succ]

theorem blockFile_fileOf (xs : List (GoStr × List UInt8)) (hw : ∀ x ∈ xs, Writable x)
    (hl : (fileOf xs).length < 2 ^ 63) (i : Nat) : BlockFile i (fileOf xs) (blocksFrom i xs) := by
  induction xs generalizing i with
  | nil => exact .nil i
  | cons x xs ih =>
    obtain ⟨kind, data⟩ := x
    have hk := hw _ (List.mem_cons_self ..)
    have e : fileOf ((kind, data) :: xs)
        = be32 (UInt32.ofNat (headerOf kind data).length) ++ headerOf kind data ++ data ++ fileOf xs := by
      rw [← frame_eq]; rfl
    rw [e] at hl ⊢
    simp only [List.length_append, be32_length] at hl
    have hh := headerOf_length (data := data) hk.1
    dsimp only at hh
    refine .cons i _ data _ kind _ _ (by omega) (headerOf_read kind data _ ?_) hk.1 (size_toInt hk.2)
      (ih (fun x hx => hw x (by simp [hx])) (by omega) (i + 1))
    simp only [List.length_append]; omega

theorem append_split {a b c d : List UInt8} (h : a ++ b = c ++ d) (hl : a.length = c.length) :
    a = c ∧ b = d := List.append_inj h hl

/-- A cut block is no block. -/
theorem blockFile_cut {i : Nat} {kind : GoStr} {data cut missing : List UInt8} {bs : List Block}
    (hw : Writable (kind, data)) (hl : cut.length < 2 ^ 62)
    (hc : cut ++ missing = frame kind data) (h1 : cut ≠ []) (h2 : missing ≠ []) :
    ¬ BlockFile i cut bs := by
  intro h
  have hm : 0 < missing.length := List.length_pos_iff.2 h2
  cases h with
  | nil => exact h1 rfl
  | cons _ header data' rest kind' size bs hh hr hk hsz hrest =>
    rw [frame_eq] at hc
    simp only [List.append_assoc] at hc
    obtain ⟨he, hc⟩ := append_split hc (by simp [be32_length])
    have he := be32_inj he
    have hlt := headerOf_length (data := data) hw.1
    dsimp only at hlt
    have hln : header.length = (headerOf kind data).length := by
      have := congrArg UInt32.toNat he
      rw [UInt32.toNat_ofNat', UInt32.toNat_ofNat', Nat.mod_eq_of_lt hh, Nat.mod_eq_of_lt (by omega)] at this
      exact this
    obtain ⟨rfl, hc⟩ := append_split hc hln
    simp only [List.length_append, be32_length] at hl
    rw [headerOf_read kind data _ (by simp only [List.length_append]; omega)] at hr
    cases hr
    have hs := size_toInt hw.2
    dsimp only at hs
    rw [hs] at hsz
    have := congrArg List.length hc
    simp only [List.length_append] at this
    omega

theorem blockFile_append {xs : List (GoStr × List UInt8)} (hw : ∀ x ∈ xs, Writable x) {tail : List UInt8}
    (hl : (fileOf xs ++ tail).length < 2 ^ 62) {i : Nat} {bs : List Block}
    (h : BlockFile i (fileOf xs ++ tail) bs) : ∃ bs', BlockFile (i + xs.length) tail bs' := by
  induction xs generalizing i bs with
  | nil => exact ⟨bs, h⟩
  | cons x xs ih =>
    obtain ⟨kind, data⟩ := x
    have hk := hw _ (List.mem_cons_self ..)
    have e : fileOf ((kind, data) :: xs) ++ tail
        = be32 (UInt32.ofNat (headerOf kind data).length) ++ (headerOf kind data ++ (data ++ (fileOf xs ++ tail))) := by
      rw [show fileOf ((kind, data) :: xs) = frame kind data ++ fileOf xs from rfl, frame_eq]
      simp
    rw [e] at h hl
    simp only [List.length_append, be32_length] at hl
    generalize hf : be32 (UInt32.ofNat (headerOf kind data).length) ++
      (headerOf kind data ++ (data ++ (fileOf xs ++ tail))) = f at h
    cases h with
    | nil =>
      have := congrArg List.length hf
      simp [be32_length] at this
    | cons _ header data' rest kind' size bs hh hr hk' hsz hrest =>
      simp only [List.append_assoc] at hf
      obtain ⟨he, hf1⟩ := append_split hf (by simp [be32_length])
      have he := be32_inj he
      have hlt := headerOf_length (data := data) hk.1
      dsimp only at hlt
      have hln : (headerOf kind data).length = header.length := by
        have := congrArg UInt32.toNat he
        rw [UInt32.toNat_ofNat', UInt32.toNat_ofNat', Nat.mod_eq_of_lt (by omega), Nat.mod_eq_of_lt hh] at this
        exact this
      obtain ⟨hhd, hf2⟩ := append_split hf1 hln
      subst hhd
      rw [headerOf_read kind data _ (by rw [← hf2]; simp only [List.length_append]; omega)] at hr
      cases hr
      have hs := size_toInt hk.2
      dsimp only at hs
      rw [hs] at hsz
      obtain ⟨rfl, rfl⟩ := append_split hf2 (by omega)
      obtain ⟨bs', h'⟩ := ih (fun x hx => hw x (by simp [hx])) (by simp only [List.length_append]; omega) hrest
      exact ⟨bs', by rw [List.length_cons, Nat.add_comm xs.length, ← Nat.add_assoc]; exact h'⟩

end Osm.Pbf
