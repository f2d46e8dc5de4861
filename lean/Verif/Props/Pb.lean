import Verif.Lemmas.Packed

/-!
# C01–C08: the protobuf wire primitives

`Slice.Fits` in the hypotheses is Go's own invariant (a slice's capacity is an `int`); no slice
violates it.
-/

namespace Osm.Props
open Osm Osm.Spec Osm.Pb

/-! ## C01 -/

/-- C01: encode any value after anything, followed by anything; decoding there returns the value
and the cursor just behind it. -/
theorem C01_varint_round_trip (pre suffix spare : List UInt8) (v : UInt64) :
    DecodeVarInt ⟨EncodeVarInt pre v ++ suffix, spare⟩ pre.length
      = .ok (v, ((EncodeVarInt pre v).length : Nat)) := by
  rw [encodeVarInt_eq]
  rw [decode_leb128 _ pre.length v suffix (by simp)]
  simp

/-- C01: encoding only appends, and what it appends does not depend on the buffer. -/
theorem C01_varint_appends (pre : List UInt8) (v : UInt64) :
    EncodeVarInt pre v = pre ++ EncodeVarInt [] v := by
  simp [encodeVarInt_eq]

/-- C01: the encoding is one terminated group of 1 to 10 bytes with the value, and no
terminated group with that value is shorter. -/
theorem C01_varint_shortest (v : UInt64) :
    IsVarint (EncodeVarInt [] v) v.toNat ∧
    1 ≤ (EncodeVarInt [] v).length ∧ (EncodeVarInt [] v).length ≤ 10 ∧
    ∀ bs, IsVarint bs v.toNat → (EncodeVarInt [] v).length ≤ bs.length := by
  have hv := v.toNat_lt
  simp only [encodeVarInt_eq, List.nil_append]
  exact ⟨isVarint_leb128 _, leb128_length_pos _, leb128_length_le10 hv,
    fun bs h => leb128_length_isVarint_le h⟩

example : EncodeVarInt [7] 300 = [7, 0xAC, 0x02] := by decide
example : (EncodeVarInt [] 0xFFFFFFFFFFFFFFFF).length = 10 := by decide
example : EncodeVarInt [] 0x8000000000000000 = [0x80, 0x80, 0x80, 0x80, 0x80, 0x80, 0x80, 0x80, 0x80, 1] := by
  decide

/-! ## C02 -/

/-- C02: decoding at a position returns `(v, j)` exactly if a terminated group of at most ten
bytes with value `v` stands there and `j` is its end. (`v : UInt64`, so the value fits.) -/
theorem C02_varint_decode_iff (b : Slice) (n : Nat) (v : UInt64) (j : Int) :
    DecodeVarInt b n = .ok (v, j) ↔
      ∃ enc rest, b.bytes.drop n = enc ++ rest ∧ IsVarint enc v.toNat ∧ enc.length ≤ 10 ∧
        j = (n + enc.length : Nat) := by
  constructor
  · exact isVarint_of_decode b n v j
  · rintro ⟨enc, rest, hd, hv, hl, rfl⟩
    rw [decode_of_isVarint b n enc rest v.toNat hd hv hl v.toNat_lt]
    simp

/-- C02: otherwise (no group there, an over-long group, a value of 2^64 or more, a cursor outside
the slice) it panics. -/
theorem C02_varint_decode_panics (b : Slice) (i : Int)
    (h : i < 0 ∨ ¬ ∃ enc rest m, b.bytes.drop i.toNat = enc ++ rest ∧ IsVarint enc m ∧
      enc.length ≤ 10 ∧ m < 2 ^ 64) :
    DecodeVarInt b i = .panic := by
  by_cases hi : i < 0
  · exact decode_neg b i hi
  · have h' := h.resolve_left hi
    obtain ⟨n, rfl⟩ : ∃ n : Nat, i = n := ⟨i.toNat, by omega⟩
    cases hr : DecodeVarInt b n with
    | ok r =>
      obtain ⟨v, j⟩ := r
      obtain ⟨enc, rest, hd, hv, hl, _⟩ := isVarint_of_decode b n v j hr
      exact absurd ⟨enc, rest, v.toNat, by simpa using hd, hv, hl, v.toNat_lt⟩ h'
    | panic => rfl
    | hang => exact absurd hr (decode_ne_hang _ _)

/-- C02: the outcome depends on the visible bytes from the cursor on only, and if it succeeds only
on those before the new cursor; the new cursor is inside the slice. -/
theorem C02_varint_reads_inside (b : Slice) (n : Nat) (v : UInt64) (j : Int)
    (h : DecodeVarInt b n = .ok (v, j)) :
    (n : Int) < j ∧ j ≤ b.len ∧
    ∀ b' : Slice, (b'.bytes.take j.toNat = b.bytes.take j.toNat) → DecodeVarInt b' n = .ok (v, j) := by
  obtain ⟨enc, rest, hd, hv, hl, rfl⟩ := isVarint_of_decode b n v j h
  have hlen := drop_len hd
  have hpos := isVarint_length_pos hv
  simp only [List.length_append] at hlen
  refine ⟨by omega, by unfold Slice.len; omega, ?_⟩
  intro b' hb'
  rw [C02_varint_decode_iff]
  simp only [Int.toNat_natCast] at hb'
  have e : (b'.bytes.take (n + enc.length)).drop n = enc := by
    rw [hb', List.drop_take, hd]; simp
  have hl2 : n ≤ (b'.bytes.take (n + enc.length)).length := by
    rw [hb']; simp; omega
  refine ⟨enc, b'.bytes.drop (n + enc.length), ?_, hv, hl, rfl⟩
  conv => lhs; rw [← List.take_append_drop (n + enc.length) b'.bytes]
  rw [List.drop_append_of_le_length hl2, e]

example : DecodeVarInt ⟨[9, 0x80, 0x81, 0x00, 5], [1]⟩ 1 = .ok (128, 4) := by decide
example : DecodeVarInt ⟨[0x80, 0x80], [1]⟩ 0 = .panic := by decide
example : DecodeVarInt ⟨[255, 255, 255, 255, 255, 255, 255, 255, 255, 2], []⟩ 0 = .panic := by decide

/-! ## C03 -/

/-- C03: the encoder computes the mathematical zigzag map, and each direction inverts the other
(for all 2^64 values, the minimum included). -/
theorem C03_zigzag_bijection :
    (∀ x : Int64, (EncodeZigZag x).toNat =
      if 0 ≤ x.toInt then (2 * x.toInt).toNat else (-2 * x.toInt - 1).toNat) ∧
    (∀ x : Int64, DecodeZigZag (EncodeZigZag x) = x) ∧
    (∀ u : UInt64, EncodeZigZag (DecodeZigZag u) = u) :=
  ⟨fun x => encodeZigZag_toNat x, decodeZigZag_encodeZigZag, encodeZigZag_decodeZigZag⟩

example : EncodeZigZag Int64.minValue = 0xFFFFFFFFFFFFFFFF := by decide
example : DecodeZigZag 3 = -2 := by decide

/-- C03: single numbers of every type survive: signed ones by zigzag, the others as they are (negative int32 sign-extended). -/
theorem C03_numbers (pre suffix spare : List UInt8) :
    (∀ v : Int64, DecodeS64 ⟨EncodeVarInt pre (EncodeZigZag v) ++ suffix, spare⟩ pre.length
      = .ok (v, ((EncodeVarInt pre (EncodeZigZag v)).length : Nat))) ∧
    (∀ v : Int64, DecodeI64 ⟨EncodeVarInt pre v.toUInt64 ++ suffix, spare⟩ pre.length
      = .ok (v, ((EncodeVarInt pre v.toUInt64).length : Nat))) ∧
    (∀ v : UInt64, DecodeU64 ⟨EncodeVarInt pre v ++ suffix, spare⟩ pre.length
      = .ok (v, ((EncodeVarInt pre v).length : Nat))) ∧
    (∀ v : Int32, DecodeS32 ⟨EncodeVarInt pre (EncodeZigZag v.toInt64) ++ suffix, spare⟩ pre.length
      = .ok (v, ((EncodeVarInt pre (EncodeZigZag v.toInt64)).length : Nat))) ∧
    (∀ v : Int32, DecodeI32 ⟨EncodeVarInt pre v.toInt64.toUInt64 ++ suffix, spare⟩ pre.length
      = .ok (v, ((EncodeVarInt pre v.toInt64.toUInt64).length : Nat))) ∧
    (∀ v : UInt32, DecodeU32 ⟨EncodeVarInt pre v.toUInt64 ++ suffix, spare⟩ pre.length
      = .ok (v, ((EncodeVarInt pre v.toUInt64).length : Nat))) := by
  refine ⟨fun v => ?_, fun v => ?_, fun v => ?_, fun v => ?_, fun v => ?_, fun v => ?_⟩
  · unfold DecodeS64
    rw [C01_varint_round_trip]
    simp [decodeZigZag_encodeZigZag]
  · unfold DecodeI64
    rw [C01_varint_round_trip]
    simp
  · unfold DecodeU64
    rw [C01_varint_round_trip]
  · unfold DecodeS32
    rw [C01_varint_round_trip]
    simp [decodeZigZag_encodeZigZag]
  · unfold DecodeI32
    rw [C01_varint_round_trip]
    simp
  · unfold DecodeU32
    rw [C01_varint_round_trip]
    simp

example : DecodeS32 ⟨EncodeVarInt [1] (EncodeZigZag (Int32.minValue).toInt64) ++ [9], []⟩ 1 = .ok (Int32.minValue, 6) := by decide
example : DecodeU32 ⟨EncodeVarInt [] (0xffffffff : UInt32).toUInt64, []⟩ 0 = .ok (0xffffffff, 5) := by decide

/-! ## C04 -/

/-- C04, signed 64-bit delta lists; the differences may wrap around. -/
theorem C04_s64_delta_round_trip (pre suffix spare : List UInt8) (vs : List Int64)
    (hf : (Slice.mk (EncodeS64PackedDelta pre vs ++ suffix) spare).Fits) :
    DecodeS64PackedDelta ⟨EncodeS64PackedDelta pre vs ++ suffix, spare⟩ pre.length
      = .ok (vs, ((EncodeS64PackedDelta pre vs).length : Nat)) := by
  unfold EncodeS64PackedDelta at *
  obtain ⟨hs, hl⟩ := Section.ofEncodeBuffer _ _ _ _ hf
  rw [decodeS64PackedDelta_at vs (by rw [encodeDeltas_eq]; rfl) hs, hl]

/-- C04, signed 64-bit delta lists built with the embeddable writer. -/
theorem C04_s64_delta_func_round_trip (pre suffix spare : List UInt8) (vs : List Int64)
    (hf : (Slice.mk (EncodeBuffer pre (EncodeS64PackedDeltaFunc vs []) ++ suffix) spare).Fits) :
    DecodeS64PackedDelta ⟨EncodeBuffer pre (EncodeS64PackedDeltaFunc vs []) ++ suffix, spare⟩
      pre.length = .ok (vs, ((EncodeBuffer pre (EncodeS64PackedDeltaFunc vs [])).length : Nat)) := by
  obtain ⟨hs, hl⟩ := Section.ofEncodeBuffer _ _ _ _ hf
  rw [decodeS64PackedDelta_at vs (by unfold EncodeS64PackedDeltaFunc; rw [encodeDeltas_eq]; rfl) hs,
    hl]

/-- C04, int32 lists. -/
theorem C04_i32_round_trip (pre suffix spare : List UInt8) (vs : List Int32)
    (hf : (Slice.mk (EncodeI32Packed pre vs ++ suffix) spare).Fits) :
    DecodeI32Packed ⟨EncodeI32Packed pre vs ++ suffix, spare⟩ pre.length
      = .ok (vs, ((EncodeI32Packed pre vs).length : Nat)) := by
  unfold EncodeI32Packed at *
  obtain ⟨hs, hl⟩ := Section.ofEncodeBuffer _ _ _ _ hf
  rw [decodeI32Packed_at vs (by rw [encodeEach_eq]; rfl) hs, hl]

/-- C04, int32 lists built with the embeddable writer. -/
theorem C04_i32_func_round_trip (pre suffix spare : List UInt8) (vs : List Int32)
    (hf : (Slice.mk (EncodeBuffer pre (EncodeI32PackedFunc vs []) ++ suffix) spare).Fits) :
    DecodeI32Packed ⟨EncodeBuffer pre (EncodeI32PackedFunc vs []) ++ suffix, spare⟩ pre.length
      = .ok (vs, ((EncodeBuffer pre (EncodeI32PackedFunc vs [])).length : Nat)) := by
  obtain ⟨hs, hl⟩ := Section.ofEncodeBuffer _ _ _ _ hf
  rw [decodeI32Packed_at vs (by unfold EncodeI32PackedFunc; rw [encodeEach_eq]; rfl) hs, hl]

/-- C04, uint32 lists. -/
theorem C04_u32_func_round_trip (pre suffix spare : List UInt8) (vs : List UInt32)
    (hf : (Slice.mk (EncodeBuffer pre (EncodeU32PackedFunc vs []) ++ suffix) spare).Fits) :
    DecodeU32Packed ⟨EncodeBuffer pre (EncodeU32PackedFunc vs []) ++ suffix, spare⟩ pre.length
      = .ok (vs, ((EncodeBuffer pre (EncodeU32PackedFunc vs [])).length : Nat)) := by
  obtain ⟨hs, hl⟩ := Section.ofEncodeBuffer _ _ _ _ hf
  rw [decodeU32Packed_at vs (by unfold EncodeU32PackedFunc; rw [encodeEach_eq]; rfl) hs, hl]

/-- C04, sint32 lists. -/
theorem C04_s32_round_trip (pre suffix spare : List UInt8) (vs : List Int32)
    (hf : (Slice.mk (EncodeS32Packed pre vs ++ suffix) spare).Fits) :
    DecodeS32Packed ⟨EncodeS32Packed pre vs ++ suffix, spare⟩ pre.length
      = .ok (vs, ((EncodeS32Packed pre vs).length : Nat)) := by
  unfold EncodeS32Packed at *
  obtain ⟨hs, hl⟩ := Section.ofEncodeBuffer _ _ _ _ hf
  rw [decodeS32Packed_at vs (by rw [encodeEach_eq]; rfl) hs, hl]

/-- C04, sint64 lists, for which there is no writer: a length-prefixed list of the zigzag numbers in base 128 is read as the list. -/
theorem C04_s64_read (pre suffix spare : List UInt8) (vs : List Int64)
    (hf : (Slice.mk (EncodeBuffer pre (vs.flatMap fun v => leb128 (zigzag v.toInt)) ++ suffix) spare).Fits) :
    DecodeS64Packed ⟨EncodeBuffer pre (vs.flatMap fun v => leb128 (zigzag v.toInt)) ++ suffix, spare⟩ pre.length
      = .ok (vs, ((EncodeBuffer pre (vs.flatMap fun v => leb128 (zigzag v.toInt))).length : Nat)) := by
  obtain ⟨hs, hl⟩ := Section.ofEncodeBuffer _ _ _ _ hf
  rw [decodeS64Packed_at vs (by congr 1; funext v; rw [C03_zigzag_bijection.1 v]; rfl) hs, hl]

theorem s64_deltas (vs : List Int64) : ∀ (inner : List UInt8) (last : Int64), ∃ ds : List Int64,
    encodeDeltas inner last vs = inner ++ (ds.flatMap fun v => leb128 (zigzag v.toInt)) ∧ ds.length = vs.length ∧
    ∀ k, k < vs.length → vs[k]? = some ((ds.take (k + 1)).foldl (· + ·) last) := by
  induction vs with
  | nil => exact fun inner last => ⟨[], by simp [encodeDeltas], rfl, fun k h => absurd h (Nat.not_lt_zero k)⟩
  | cons v vs ih =>
    intro inner last
    obtain ⟨ds, h1, h2, h3⟩ := ih (EncodeVarInt inner (EncodeZigZag (v - last))) v
    refine ⟨(v - last) :: ds, ?_, by simp [h2], fun k hk => ?_⟩
    · rw [encodeDeltas, h1, encodeVarInt_eq, C03_zigzag_bijection.1]
      rw [List.flatMap_cons, List.append_assoc]
      rfl
    · have e : last + (v - last) = v := by rw [Int64.add_comm, Int64.sub_add_cancel]
      cases k with
      | zero => simp [e]
      | succ k =>
        simp only [List.getElem?_cons_succ, List.take_succ_cons, List.foldl_cons, e]
        exact h3 k (by simpa using hk)

/-- C04: what is written as a list of signed 64-bit deltas can also be read as a list of sint64: the differences, whose running
sums are the values; they may wrap around. -/
theorem C04_s64_delta_read (pre suffix spare : List UInt8) (vs : List Int64)
    (hf : (Slice.mk (EncodeS64PackedDelta pre vs ++ suffix) spare).Fits) :
    ∃ ds : List Int64, DecodeS64Packed ⟨EncodeS64PackedDelta pre vs ++ suffix, spare⟩ pre.length
      = .ok (ds, ((EncodeS64PackedDelta pre vs).length : Nat)) ∧ ds.length = vs.length ∧
      ∀ k, k < vs.length → vs[k]? = some ((ds.take (k + 1)).foldl (· + ·) 0) := by
  obtain ⟨ds, h1, h2, h3⟩ := s64_deltas vs [] 0
  have e : EncodeS64PackedDelta pre vs = EncodeBuffer pre (ds.flatMap fun v => leb128 (zigzag v.toInt)) := by
    unfold EncodeS64PackedDelta
    rw [h1, List.nil_append]
  rw [e] at hf ⊢
  exact ⟨ds, C04_s64_read pre suffix spare ds hf, h2, h3⟩

example : DecodeS64Packed ⟨EncodeS64PackedDelta [1] [5, Int64.minValue, 7] ++ [9], [7]⟩ 1
    = .ok ([5, 9223372036854775803, -9223372036854775801], 23) := by decide

/-- C04, uint64 lists. -/
theorem C04_u64_round_trip (pre suffix spare : List UInt8) (vs : List UInt64)
    (hf : (Slice.mk (EncodeBuffer pre (EncodeU64Packed vs []) ++ suffix) spare).Fits) :
    DecodeU64Packed ⟨EncodeBuffer pre (EncodeU64Packed vs []) ++ suffix, spare⟩ pre.length
      = .ok (vs, ((EncodeBuffer pre (EncodeU64Packed vs [])).length : Nat)) := by
  obtain ⟨hs, hl⟩ := Section.ofEncodeBuffer _ _ _ _ hf
  rw [decodeU64Packed_at vs (by unfold EncodeU64Packed; rw [encodeEach_eq]; rfl) hs, hl]

theorem s32_deltas (vs : List Int32) : ∀ (inner : List UInt8) (last : Int32), ∃ ds : List Int32,
    EncodeS32PackedDelta.go inner last vs = encodeEach (fun v : Int32 => EncodeZigZag v.toInt64) inner ds ∧ ds.length = vs.length ∧
    ∀ k, k < vs.length → vs[k]? = some ((ds.take (k + 1)).foldl (· + ·) last) := by
  induction vs with
  | nil => exact fun inner last => ⟨[], rfl, rfl, fun k h => absurd h (Nat.not_lt_zero k)⟩
  | cons v vs ih =>
    intro inner last
    obtain ⟨ds, h1, h2, h3⟩ := ih (EncodeVarInt inner (EncodeZigZag (v - last).toInt64)) v
    refine ⟨(v - last) :: ds, h1, by simp [h2], fun k hk => ?_⟩
    have e : last + (v - last) = v := by rw [Int32.add_comm, Int32.sub_add_cancel]
    cases k with
    | zero => simp [e]
    | succ k =>
      simp only [List.getElem?_cons_succ, List.take_succ_cons, List.foldl_cons, e]
      exact h3 k (by simpa using hk)

/-- C04, signed 32-bit delta lists, for which there is no reader: what is written is a list of sint32 of the same length, and each
value is the sum of the entries up to its own; it may wrap around. -/
theorem C04_s32_delta (pre suffix spare : List UInt8) (vs : List Int32)
    (hf : (Slice.mk (EncodeS32PackedDelta pre vs ++ suffix) spare).Fits) :
    ∃ ds : List Int32, DecodeS32Packed ⟨EncodeS32PackedDelta pre vs ++ suffix, spare⟩ pre.length
      = .ok (ds, ((EncodeS32PackedDelta pre vs).length : Nat)) ∧ ds.length = vs.length ∧
      ∀ k, k < vs.length → vs[k]? = some ((ds.take (k + 1)).foldl (· + ·) 0) := by
  obtain ⟨ds, h1, h2, h3⟩ := s32_deltas vs [] 0
  have e : ∀ pre, EncodeS32PackedDelta pre vs = EncodeS32Packed pre ds := by
    intro pre
    unfold EncodeS32PackedDelta EncodeS32Packed
    rw [h1]
  rw [e] at hf ⊢
  exact ⟨ds, C04_s32_round_trip pre suffix spare ds hf, h2, h3⟩

example : DecodeS32Packed ⟨EncodeS32PackedDelta [1] [5, Int32.minValue, 7] ++ [9], [7]⟩ 1
    = .ok ([5, 2147483643, -2147483641], 13) := by decide

example : (Slice.mk (EncodeS64PackedDelta [1] [5, Int64.minValue, Int64.maxValue, 5, 5] ++ [9])
    [7]).Fits := by unfold Slice.Fits; decide
example : DecodeS64PackedDelta
    ⟨EncodeS64PackedDelta [1] [5, Int64.minValue, Int64.maxValue, 5, 5] ++ [9], [7]⟩ 1
    = .ok ([5, Int64.minValue, Int64.maxValue, 5, 5], 25) := by decide
example : DecodeI32Packed ⟨EncodeI32Packed [] [-1, 5, Int32.minValue], []⟩ 0
    = .ok ([-1, 5, Int32.minValue], 22) := by decide

/-! ## C05 -/

/-- C05: decoding a zero-terminated delta list followed by anything returns the values up to the
first one equal to its predecessor (the first is compared with 0). -/
theorem C05_delta_zero_decode (suffix spare : List UInt8) (vs : List Int64) :
    DecodeS64PackedDeltaZero ⟨EncodeS64PackedDeltaZero [] vs ++ suffix, spare⟩
      = .ok (upToRepeat 0 vs) := by
  unfold DecodeS64PackedDeltaZero EncodeS64PackedDeltaZero
  rw [encodeDeltas_eq]
  have := deltaZeroLoop_enc ⟨deltaVarints 0 vs ++ [0] ++ suffix, spare⟩ vs suffix 0 [] 0
    ((deltaVarints 0 vs ++ [0] ++ suffix).length + 1) (by simp) (by simp)
  simpa using this

/-- C05: hence the whole list comes back iff no value equals its predecessor. -/
theorem C05_delta_zero_exact_iff (suffix spare : List UInt8) (vs : List Int64) :
    DecodeS64PackedDeltaZero ⟨EncodeS64PackedDeltaZero [] vs ++ suffix, spare⟩ = .ok vs ↔
      NoRepeat 0 vs := by
  rw [C05_delta_zero_decode, ← upToRepeat_eq_self, Res.ok.injEq]

/-- C05: `upToRepeat` is the longest prefix without a repeat. -/
theorem C05_upToRepeat_longest (last : Int64) (vs : List Int64) :
    upToRepeat last vs <+: vs ∧ NoRepeat last (upToRepeat last vs) ∧
    ∀ p, p <+: vs → NoRepeat last p → p <+: upToRepeat last vs := by
  induction vs generalizing last with
  | nil => simp [upToRepeat, NoRepeat]
  | cons v vs ih =>
    unfold upToRepeat
    obtain ⟨h1, h2, h3⟩ := ih v
    by_cases hv : v = last
    · subst hv
      simp only [if_true]
      refine ⟨List.nil_prefix, trivial, ?_⟩
      intro p hp hn
      cases p with
      | nil => simp
      | cons x xs =>
        rw [List.cons_prefix_cons] at hp
        exact absurd hp.1 hn.1
    · simp only [if_neg hv]
      refine ⟨by simpa using h1, ⟨hv, h2⟩, ?_⟩
      intro p hp hn
      cases p with
      | nil => simp
      | cons x xs =>
        rw [List.cons_prefix_cons] at hp
        obtain ⟨rfl, hp⟩ := hp
        rw [List.cons_prefix_cons]
        exact ⟨rfl, h3 xs hp hn.2⟩

/-- C05: a list cut anywhere before the end of its terminator is rejected. -/
theorem C05_delta_zero_cut (cut missing spare : List UInt8) (vs : List Int64) (hr : NoRepeat 0 vs)
    (h : cut ++ missing = EncodeS64PackedDeltaZero [] vs) (hm : missing ≠ []) :
    DecodeS64PackedDeltaZero ⟨cut, spare⟩ = .panic := by
  unfold DecodeS64PackedDeltaZero
  unfold EncodeS64PackedDeltaZero at h
  rw [encodeDeltas_eq] at h
  exact deltaZeroLoop_cut ⟨cut, spare⟩ vs 0 [] 0 _ missing (by simpa using h) hm hr (by simp) (by simp)

example : DecodeS64PackedDeltaZero ⟨[6, 19, 20], [0]⟩ = .panic ∧
    [6, 19, 20] ++ [0] = EncodeS64PackedDeltaZero [] [3, -7, 3] := by decide
example : NoRepeat (0 : Int64) [3, -7, 3] := by simp [NoRepeat]
example : DecodeS64PackedDeltaZero ⟨EncodeS64PackedDeltaZero [] [3, -7, 3, 3, 8] ++ [1], []⟩
    = .ok [3, -7, 3] := by decide

/-! ## C06 -/

/-- What C06 demands of an embedding function `emb` reserving `width` length bytes, for a writer
`e` which appends the payload `p`: below the limit the bytes appended are the field tag
(`8·id+2`), `width` bytes of length, then the payload, so that the ordinary reader, started after
the tag, returns exactly the payload and stops right behind it, whatever follows; from the limit
on it panics. -/
def EmbedCorrect (emb : UInt64 → Embedder → List UInt8 → Res (List UInt8)) (width limit : Nat) :
    Prop :=
  ∀ (id : UInt64) (e : Embedder) (p buf : List UInt8), id.toNat < 2 ^ 61 →
    (∀ b, e b = .ok (b ++ p)) →
    (p.length < limit → ∃ len, len.length = width ∧ IsVarint len p.length ∧
      emb id e buf = .ok (buf ++ leb128 (8 * id.toNat + 2) ++ len ++ p) ∧
      ∀ suffix spare, (Slice.mk (buf ++ leb128 (8 * id.toNat + 2) ++ len ++ p ++ suffix) spare).Fits →
        ∃ sp, ReadBytes ⟨buf ++ leb128 (8 * id.toNat + 2) ++ len ++ p ++ suffix, spare⟩
          (buf ++ leb128 (8 * id.toNat + 2)).length
          = .ok (⟨p, sp⟩, ((buf ++ leb128 (8 * id.toNat + 2) ++ len ++ p).length : Nat))) ∧
    (limit ≤ p.length → emb id e buf = .panic)

theorem embedCorrect_of {emb : UInt64 → Embedder → List UInt8 → Res (List UInt8)} {width limit : Nat}
    {fix : Nat → List UInt8} (hw : width ≤ 10) (hfix : ∀ n, (fix n).length = width)
    (hvar : ∀ n, n < limit → IsVarint (fix n) n)
    (h : ∀ {e : Embedder} {p : List UInt8}, Appends e p → ∀ (id : UInt64) (buf : List UInt8),
      emb id e buf = if p.length < limit then
        .ok (buf ++ (tagBytes id PbFixedBytes ++ fix p.length ++ p)) else .panic) :
    EmbedCorrect emb width limit := by
  intro id e p buf hid he
  have ht : tagBytes id PbFixedBytes = leb128 (8 * id.toNat + 2) := by
    unfold tagBytes; rw [makeIdType_toNat id _ hid (by decide)]; rfl
  rw [h he, ht]
  refine ⟨fun hp => ⟨fix p.length, hfix _, hvar _ hp, by rw [if_pos hp]; simp, ?_⟩,
    fun hp => by rw [if_neg (by omega)]⟩
  intro suffix spare hf
  have hs : Section ⟨buf ++ leb128 (8 * id.toNat + 2) ++ fix p.length ++ p ++ suffix, spare⟩
      (buf ++ leb128 (8 * id.toNat + 2)).length (fix p.length) p suffix :=
    ⟨hf, hvar _ hp, by rw [hfix]; exact hw, by
      rw [show buf ++ leb128 (8 * id.toNat + 2) ++ fix p.length ++ p ++ suffix
        = (buf ++ leb128 (8 * id.toNat + 2)) ++ (fix p.length ++ p ++ suffix) by simp]
      exact List.drop_left⟩
  refine ⟨suffix ++ spare, by rw [hs.read]; simp [Nat.add_assoc]⟩

/-- C06 for all four reservation sizes. -/
theorem C06_embed_correct :
    EmbedCorrect Embed128 1 128 ∧ EmbedCorrect Embed16384 2 16384 ∧
    EmbedCorrect Embed2097152 3 2097152 ∧ EmbedCorrect Embed268435456 4 268435456 :=
  ⟨embedCorrect_of (by omega) (fun _ => rfl) (fun _ => isVarint_fix1) embed128_eq,
   embedCorrect_of (by omega) (fun _ => rfl) (fun _ => isVarint_fix2) embed16384_eq,
   embedCorrect_of (by omega) (fun _ => rfl) (fun _ => isVarint_fix3) embed2097152_eq,
   embedCorrect_of (by omega) (fun _ => rfl) (fun _ => isVarint_fix4) embed268435456_eq⟩

example : Embed16384 2 (total (· ++ [5, 6])) [1] = .ok [1, 18, 0x82, 0, 5, 6] := by decide

/-! ## C07 -/

/-- C07: bytes written with their length are read back exactly and the cursor ends behind them. -/
theorem C07_buffer_round_trip (pre p suffix spare : List UInt8)
    (hf : (Slice.mk (EncodeBuffer pre p ++ suffix) spare).Fits) :
    ∃ sp, DecodeBytes ⟨EncodeBuffer pre p ++ suffix, spare⟩ pre.length
      = .ok (⟨p, sp⟩, ((EncodeBuffer pre p).length : Nat)) := by
  obtain ⟨hs, hl⟩ := Section.ofEncodeBuffer _ _ _ _ hf
  exact ⟨_, by unfold DecodeBytes; rw [hs.read, hl]⟩

/-- C07 for strings. -/
theorem C07_string_round_trip (pre suffix spare : List UInt8) (s : GoStr)
    (hf : (Slice.mk (EncodeString pre s ++ suffix) spare).Fits) :
    DecodeString ⟨EncodeString pre s ++ suffix, spare⟩ pre.length
      = .ok (s, ((EncodeString pre s).length : Nat)) := by
  unfold EncodeString at *
  obtain ⟨sp, h⟩ := C07_buffer_round_trip pre s suffix spare hf
  unfold DecodeString
  rw [h]; rfl

/-- C07 with a field id: the id is read first, then the bytes. -/
theorem C07_id_buffer_round_trip (pre p suffix spare : List UInt8) (id : UInt64)
    (hid : id.toNat < 2 ^ 61)
    (hf : (Slice.mk (EncodeIdBuffer pre id p ++ suffix) spare).Fits) :
    ∃ j sp, DecodeVarInt ⟨EncodeIdBuffer pre id p ++ suffix, spare⟩ pre.length
        = .ok (UInt64.ofNat (8 * id.toNat + 2), j) ∧
      DecodeBytes ⟨EncodeIdBuffer pre id p ++ suffix, spare⟩ j
        = .ok (⟨p, sp⟩, ((EncodeIdBuffer pre id p).length : Nat)) := by
  unfold EncodeIdBuffer at *
  obtain ⟨sp, h⟩ := C07_buffer_round_trip _ p suffix spare hf
  refine ⟨((EncodeVarInt pre (MakeIdType id PbFixedBytes)).length : Nat), sp, ?_, h⟩
  have h2 := C01_varint_round_trip pre (EncodeVarInt [] (UInt64.ofNat p.length) ++ p ++ suffix) spare
    (MakeIdType id PbFixedBytes)
  have e : EncodeBuffer (EncodeVarInt pre (MakeIdType id PbFixedBytes)) p ++ suffix
      = EncodeVarInt pre (MakeIdType id PbFixedBytes)
        ++ (EncodeVarInt [] (UInt64.ofNat p.length) ++ p ++ suffix) := by
    unfold EncodeBuffer; rw [C01_varint_appends]; simp
  rw [e, h2]
  congr 2
  apply UInt64.toNat.inj
  rw [makeIdType_toNat id _ hid (by decide)]
  rw [show PbFixedBytes.toNat = 2 from rfl]
  simp; omega

/-- C07 for integer fields: id, then value. -/
theorem C07_id_varint_round_trip (pre suffix spare : List UInt8) (id v : UInt64)
    (hid : id.toNat < 2 ^ 61) :
    ∃ j, DecodeVarInt ⟨EncodeIdVarInt pre id v ++ suffix, spare⟩ pre.length
        = .ok (UInt64.ofNat (8 * id.toNat), j) ∧
      DecodeVarInt ⟨EncodeIdVarInt pre id v ++ suffix, spare⟩ j
        = .ok (v, ((EncodeIdVarInt pre id v).length : Nat)) := by
  unfold EncodeIdVarInt
  refine ⟨((EncodeVarInt pre (MakeIdType id PbVarInt)).length : Nat), ?_,
    C01_varint_round_trip _ suffix spare v⟩
  rw [C01_varint_appends (EncodeVarInt pre _) v, List.append_assoc, C01_varint_round_trip]
  congr 2
  apply UInt64.toNat.inj
  rw [makeIdType_toNat id _ hid (by decide)]
  rw [show PbVarInt.toNat = 0 from rfl]
  simp; omega

example : (Slice.mk (EncodeIdBuffer [0] 3 [1, 2, 3] ++ [4]) [5]).Fits := by
  unfold Slice.Fits; decide
example : DecodeBytes ⟨EncodeBuffer [0] [1, 2, 3] ++ [4], [5]⟩ 1 = .ok (⟨[1, 2, 3], [4, 5]⟩, 5) := by
  decide

/-! ## C08 -/

/-- C08, the part that holds: in a slice without spare capacity (such as a whole file), a length
that promises more bytes than are left makes the reader panic.

Missing from C08: nested messages are slices of their parent and do have spare capacity; see
`C08_overrun_reads_foreign_bytes`. -/
theorem C08_overrun_rejected_partial (bs : List UInt8) (n : Nat) (enc rest : List UInt8) (m : Nat)
    (hf : (Slice.full bs).Fits) (hd : bs.drop n = enc ++ rest) (hv : IsVarint enc m)
    (hm : rest.length < m) : ReadBytes (Slice.full bs) n = .panic := by
  unfold ReadBytes
  cases hr : DecodeVarInt (Slice.full bs) n with
  | panic => rfl
  | hang => exact absurd hr (decode_ne_hang _ _)
  | ok r =>
    obtain ⟨v, j⟩ := r
    obtain ⟨enc', rest', hd', hv', hl', rfl⟩ := isVarint_of_decode _ n v j hr
    have hd'' : bs.drop n = enc' ++ rest' := hd'
    obtain ⟨rfl, hmv, rfl⟩ := isVarint_unique hv hv' (hd ▸ hd'')
    simp only [Res.ok_bind]
    have hlen := drop_len (b := Slice.full bs) hd'
    have hpos := isVarint_length_pos hv
    simp only [List.length_append] at hlen
    unfold Slice.Fits at hf
    unfold Slice.sub
    rw [if_neg]
    · rfl
    · simp only [Slice.full, List.length_nil, Nat.add_zero] at *
      by_cases hsmall : m < 2 ^ 63
      · have e : v.toInt64.toInt = m := by
          have := ofInt_toNat_small m hsmall
          rw [hmv] at this
          rw [UInt64.ofNat_toNat] at this
          rw [this, hmv]
        rw [e]
        intro ⟨h1, h2, h3⟩
        by_cases hw : ((n + enc.length : Nat) : Int) + (m : Int) < 2 ^ 63
        · rw [goInt_small _ (by omega) hw] at h3; omega
        · unfold goInt at h2
          rw [Int.bmod_def] at h2
          split at h2 <;> omega
      · have e : v.toInt64.toInt < 0 := by
          rcases Int.lt_or_le v.toInt64.toInt 0 with h | h
          · exact h
          · have h1 := toUInt64_toNat_nonneg _ h
            have h2 := v.toInt64.toInt_lt
            rw [show v.toInt64.toUInt64 = v from rfl] at h1
            omega
        have e2 := v.toInt64.le_toInt
        intro ⟨h1, h2, h3⟩
        unfold goInt at h2
        rw [Int.bmod_eq_of_le (by omega) (by omega)] at h2
        omega

/-- C08, exactly: what reading a section does, for every slice, every position and every promised
length `m`. The bytes after the length are `rest`, then the rest of the array behind the slice,
`spare`. The reader takes `m` bytes of the two together, and panics exactly when even both
together have fewer. So a section that overruns its message is rejected iff it also overruns the
array the message is a slice of. -/
theorem C08_exact (bs spare : List UInt8) (n : Nat) (enc rest : List UInt8) (m : Nat)
    (hf : (Slice.mk bs spare).Fits) (hd : bs.drop n = enc ++ rest) (hv : IsVarint enc m)
    (hl : enc.length ≤ 10) :
    ReadBytes ⟨bs, spare⟩ n =
      if m ≤ rest.length + spare.length then
        .ok (⟨(rest ++ spare).take m, (rest ++ spare).drop m⟩, ((n + enc.length + m : Nat) : Int))
      else .panic := by
  have hlen := drop_len (b := ⟨bs, spare⟩) hd
  have hpos := isVarint_length_pos hv
  simp only [List.length_append] at hlen
  unfold Slice.Fits at hf
  simp only at hf hlen
  have hdrop : (bs ++ spare).drop (n + enc.length) = rest ++ spare := by
    rw [← List.drop_drop, List.drop_append_of_le_length (by omega), hd]; simp
  unfold ReadBytes
  cases hr : DecodeVarInt ⟨bs, spare⟩ n with
  | hang => exact absurd hr (decode_ne_hang _ _)
  | panic =>
    by_cases hm : m < 2 ^ 64
    · rw [decode_of_isVarint _ n enc rest m hd hv hl hm] at hr; cases hr
    · rw [if_neg (by omega)]; rfl
  | ok r =>
    obtain ⟨v, j⟩ := r
    obtain ⟨enc', rest', hd', hv', _, rfl⟩ := isVarint_of_decode _ n v j hr
    have hd'' : bs.drop n = enc' ++ rest' := hd'
    obtain ⟨rfl, hmv, rfl⟩ := isVarint_unique hv hv' (hd ▸ hd'')
    replace hmv := hmv.symm
    simp only [Res.ok_bind]
    by_cases hsmall : m < 2 ^ 63
    · have e : v.toInt64.toInt = m := by
        have := ofInt_toNat_small m hsmall
        rwa [← hmv, UInt64.ofNat_toNat, hmv] at this
      rw [e]
      by_cases hin : m ≤ rest.length + spare.length
      · rw [if_pos hin, goInt_small _ (by omega) (by omega)]
        unfold Slice.sub
        rw [if_pos (by simp only; omega)]
        simp only [Res.ok_bind]
        rw [show ((n + enc.length : Nat) : Int).toNat = n + enc.length by omega,
          show (((n + enc.length : Nat) : Int) + (m : Int)).toNat = n + enc.length + m by omega,
          hdrop, ← List.drop_drop, hdrop, show n + enc.length + m - (n + enc.length) = m by omega]
        congr 2
      · rw [if_neg hin]
        unfold Slice.sub
        rw [if_neg]
        · rfl
        · intro ⟨h1, h2, h3⟩
          simp only at h3
          by_cases hw : ((n + enc.length : Nat) : Int) + (m : Int) < 2 ^ 63
          · rw [goInt_small _ (by omega) hw] at h3; omega
          · unfold goInt at h2
            rw [Int.bmod_def] at h2
            split at h2 <;> omega
    · have e : v.toInt64.toInt < 0 := by
        rcases Int.lt_or_le v.toInt64.toInt 0 with h | h
        · exact h
        · have h1 := toUInt64_toNat_nonneg _ h
          have h2 := v.toInt64.toInt_lt
          rw [show v.toInt64.toUInt64 = v from rfl] at h1
          omega
      have e2 := v.toInt64.le_toInt
      rw [if_neg (by omega)]
      unfold Slice.sub
      rw [if_neg]
      · rfl
      · intro ⟨h1, h2, h3⟩
        unfold goInt at h2
        rw [Int.bmod_eq_of_le (by omega) (by omega)] at h2
        omega

/-- So: a section that promises more than its message holds is accepted iff the array behind the
message makes up the difference, and then it contains bytes that are not the message's. -/
theorem C08_overrun_iff (bs spare : List UInt8) (n : Nat) (enc rest : List UInt8) (m : Nat)
    (hf : (Slice.mk bs spare).Fits) (hd : bs.drop n = enc ++ rest) (hv : IsVarint enc m)
    (hl : enc.length ≤ 10) (hm : rest.length < m) :
    ReadBytes ⟨bs, spare⟩ n = .panic ↔ rest.length + spare.length < m := by
  rw [C08_exact bs spare n enc rest m hf hd hv hl]
  split
  · exact ⟨fun h => (nomatch h), fun h => by omega⟩
  · exact ⟨fun _ => by omega, fun _ => rfl⟩

example : (Slice.mk [5, 1, 2] [77, 78, 79, 80]).Fits ∧ IsVarint [5] 5 ∧
    ([5, 1, 2] : List UInt8).drop 0 = [5] ++ [1, 2] := by
  refine ⟨by unfold Slice.Fits; decide, IsVarint.last 5 (by decide), rfl⟩

/-- C08 is false of the code in general: a message occupying `[5, 1, 2]` of a larger array, whose
section claims five bytes, is read as containing three bytes of whatever follows. -/
theorem C08_overrun_reads_foreign_bytes :
    ReadBytes ⟨[5, 1, 2], [77, 78, 79, 80]⟩ 0 = .ok (⟨[1, 2, 77, 78, 79], [80]⟩, 6) := by decide

example : ReadBytes (Slice.full [5, 1, 2]) 0 = .panic := by decide

end Osm.Props
