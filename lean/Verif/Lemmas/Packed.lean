import Verif.Lemmas.Embed

namespace Osm.Pb
open Osm Osm.Spec

/-- `Section b n enc p rest`: at cursor `n` of `b` stand a length varint `enc`, the payload `p` it
announces, then `rest`. -/
structure Section (b : Slice) (n : Nat) (enc p rest : List UInt8) : Prop where
  fits : b.Fits
  varint : IsVarint enc p.length
  short : enc.length ≤ 10
  here : b.bytes.drop n = enc ++ p ++ rest

theorem Section.ofLenBytes {b : Slice} (hb : b.Fits) {n : Nat} {p rest : List UInt8}
    (hd : b.bytes.drop n = lenBytes p ++ rest) : Section b n (leb128 p.length) p rest where
  fits := hb
  varint := isVarint_leb128 _
  short := by
    have hlen := drop_len hd
    unfold Slice.Fits at hb
    simp only [lenBytes, List.length_append] at hlen
    exact leb128_length_le10 (by omega)
  here := by simpa [lenBytes] using hd

variable {b : Slice} {n : Nat} {enc p rest : List UInt8}

theorem Section.read (h : Section b n enc p rest) :
    ReadBytes b n = .ok (⟨p, rest ++ b.spare⟩, (n + (enc ++ p).length : Nat)) := by
  obtain ⟨sp, h1, rfl⟩ := readBytes_isVarint b h.fits n enc p rest h.varint h.short h.here
  exact h1

theorem Section.innerFits (h : Section b n enc p rest) : (Slice.mk p (rest ++ b.spare)).Fits :=
  sub_fits h.fits h.here

theorem int32_roundtrip (v : Int32) : v.toInt64.toUInt64.toInt64.toInt32 = v := by
  rw [show v.toInt64.toUInt64.toInt64 = v.toInt64 from rfl]
  simp

theorem decodeI32Packed_at (vs : List Int32) {p : List UInt8}
    (hp : p = vs.flatMap fun v => leb128 v.toInt64.toUInt64.toNat)
    (h : Section b n enc p rest) :
    DecodeI32Packed b n = .ok (vs, (n + (enc ++ p).length : Nat)) := by
  unfold DecodeI32Packed DecodeBytes
  rw [h.read]
  simp only [Res.ok_bind]
  have hf := h.innerFits
  subst hp
  rw [packedLoop_enc (fun v : Int32 => v.toInt64.toUInt64) _ vs _ hf]
  simp [int32_roundtrip]

theorem decodeU32Packed_at (vs : List UInt32) {p : List UInt8}
    (hp : p = vs.flatMap fun v => leb128 v.toUInt64.toNat)
    (h : Section b n enc p rest) :
    DecodeU32Packed b n = .ok (vs, (n + (enc ++ p).length : Nat)) := by
  unfold DecodeU32Packed DecodeBytes
  rw [h.read]
  simp only [Res.ok_bind]
  have hf := h.innerFits
  subst hp
  rw [packedLoop_enc (fun v : UInt32 => v.toUInt64) _ vs _ hf]
  simp

theorem decodeS32Packed_at (vs : List Int32) {p : List UInt8}
    (hp : p = vs.flatMap fun v => leb128 (EncodeZigZag v.toInt64).toNat)
    (h : Section b n enc p rest) :
    DecodeS32Packed b n = .ok (vs, (n + (enc ++ p).length : Nat)) := by
  unfold DecodeS32Packed DecodeBytes
  rw [h.read]
  simp only [Res.ok_bind]
  have hf := h.innerFits
  subst hp
  rw [packedLoop_enc (fun v : Int32 => EncodeZigZag v.toInt64) _ vs _ hf]
  simp [decodeZigZag_encodeZigZag]

theorem decodeS64Packed_at (vs : List Int64) {p : List UInt8}
    (hp : p = vs.flatMap fun v => leb128 (EncodeZigZag v).toNat)
    (h : Section b n enc p rest) :
    DecodeS64Packed b n = .ok (vs, (n + (enc ++ p).length : Nat)) := by
  unfold DecodeS64Packed DecodeBytes
  rw [h.read]
  simp only [Res.ok_bind]
  have hf := h.innerFits
  subst hp
  rw [packedLoop_enc (fun v : Int64 => EncodeZigZag v) _ vs _ hf]
  simp [decodeZigZag_encodeZigZag]

theorem decodeU64Packed_at (vs : List UInt64) {p : List UInt8}
    (hp : p = vs.flatMap fun v => leb128 v.toNat)
    (h : Section b n enc p rest) :
    DecodeU64Packed b n = .ok (vs, (n + (enc ++ p).length : Nat)) := by
  unfold DecodeU64Packed DecodeBytes
  rw [h.read]
  simp only [Res.ok_bind]
  have hf := h.innerFits
  subst hp
  rw [packedLoop_enc (fun v : UInt64 => v) _ vs _ hf]
  simp

theorem decodeS64PackedDelta_at (vs : List Int64) {p : List UInt8} (hp : p = deltaVarints 0 vs)
    (h : Section b n enc p rest) :
    DecodeS64PackedDelta b n = .ok (vs, (n + (enc ++ p).length : Nat)) := by
  unfold DecodeS64PackedDelta DecodeBytes
  rw [h.read]
  simp only [Res.ok_bind]
  have hf := h.innerFits
  subst hp
  rw [packedDeltaLoop_enc vs _ hf]
  simp

/-- Slice starting with `pre`, then a length-prefixed payload. -/
theorem Section.ofEncodeBuffer (pre p suffix spare : List UInt8)
    (hf : (Slice.mk (EncodeBuffer pre p ++ suffix) spare).Fits) :
    Section ⟨EncodeBuffer pre p ++ suffix, spare⟩ pre.length (leb128 p.length) p suffix ∧
      pre.length + (leb128 p.length ++ p).length = (EncodeBuffer pre p).length := by
  have hp : p.length < 2 ^ 64 := by
    unfold Slice.Fits EncodeBuffer at hf
    simp only [List.length_append] at hf
    omega
  rw [encodeBuffer_eq _ _ hp] at hf ⊢
  refine ⟨Section.ofLenBytes hf (by simp [lenBytes]), by simp [lenBytes]⟩

end Osm.Pb
