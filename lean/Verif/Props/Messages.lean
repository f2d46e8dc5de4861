import Verif.Lemmas.Blob

/-!
# Properties of the message readers and writers (C09 - C17)

"Written" means: appended by the writer to any buffer `pre`. "Read back" means: the reader applied
to the appended bytes, whatever follows them in the same array (`spare`).
-/

namespace Osm.Props
open Osm Osm.T Osm.Pb Osm.Spec

/-! ## C10 -/

/-- C10: any string table, written after anything, is read back as it was. -/
theorem C10_string_table_round_trip (st : StringTable) (pre : List UInt8) :
    ∃ msg, st.Write pre = .ok (pre ++ msg) ∧
      ∀ spare, (Slice.mk msg spare).Fits → ReadStringTable ⟨msg, spare⟩ = .ok st :=
  ⟨_, stringTable_embSpec st pre, fun spare hf => stringTable_read st spare hf⟩

example : StringTable.Write ⟨[[], [104, 105]]⟩ [7] = .ok [7, 10, 0, 10, 2, 104, 105] := by decide
example : ReadStringTable ⟨[10, 0, 10, 2, 104, 105], [9]⟩ = .ok ⟨[[], [104, 105]]⟩ := by decide

/-! ## C11 -/

/-- C11: a way that was written is read back as it was. -/
theorem C11_way_round_trip (w : Way) (pre out : List UInt8) (h : w.Write pre = .ok out) :
    ∃ msg, out = pre ++ msg ∧
      ∀ spare, (Slice.mk msg spare).Fits → ReadWay ⟨msg, spare⟩ = .ok w := by
  obtain ⟨p, hp, rfl⟩ := (way_embSpec w).ok h
  exact ⟨p, rfl, fun spare hf => way_read w p hp spare hf⟩

/-- C11: the write panics iff the keys, the values or the refs take 16384 bytes or more; otherwise
it returns. -/
theorem C11_way_write_panics_iff (w : Way) (pre : List UInt8) :
    (w.Write pre = .panic ↔
      16384 ≤ sizeU32 w.Keys ∨ 16384 ≤ sizeU32 w.Vals ∨ 16384 ≤ sizeDelta w.Refs) ∧
    (w.Write pre ≠ .panic → ∃ out, w.Write pre = .ok out) := by
  constructor
  · rw [(way_embSpec w).panic_iff]
    simp only [wayBytes, optApp_eq_none, optField_eq_none, u32Payload_size, delta_size]
    simp
  · intro h
    have := way_embSpec w pre
    cases hw : wayBytes w with
    | none => rw [hw] at this; exact absurd this h
    | some p => rw [hw] at this; exact ⟨_, this⟩

example : Way.Write ⟨-5, [1, 2], [3, 300], [10, 7, 7, -1]⟩ []
    = .ok [8, 251, 255, 255, 255, 255, 255, 255, 255, 255, 1, 18, 130, 0, 1, 2, 26, 131, 0, 3, 172, 2,
      66, 132, 0, 20, 5, 0, 15] := by decide
example : ReadWay ⟨[8, 251, 255, 255, 255, 255, 255, 255, 255, 255, 1, 18, 130, 0, 1, 2, 26, 131, 0, 3,
    172, 2, 66, 132, 0, 20, 5, 0, 15], []⟩ = .ok ⟨-5, [1, 2], [3, 300], [10, 7, 7, -1]⟩ := by decide

/-! ## C12 -/

/-- C12: a relation that was written is read back as it was. -/
theorem C12_relation_round_trip (r : Relation) (pre out : List UInt8) (h : r.Write pre = .ok out) :
    ∃ msg, out = pre ++ msg ∧
      ∀ spare, (Slice.mk msg spare).Fits → ReadRelation ⟨msg, spare⟩ = .ok r := by
  obtain ⟨p, hp, rfl⟩ := (relation_embSpec r).ok h
  exact ⟨p, rfl, fun spare hf => relation_read r p hp spare hf⟩

/-- C12: the write panics iff a section is oversized; otherwise it returns. -/
theorem C12_relation_write_panics_iff (r : Relation) (pre : List UInt8) :
    (r.Write pre = .panic ↔
      16384 ≤ sizeU32 r.Keys ∨ 16384 ≤ sizeU32 r.Vals ∨ 2097152 ≤ sizeI32 r.RolesSID ∨
      2097152 ≤ sizeDelta r.MemIDs ∨ 2097152 ≤ sizeU64 r.MemberType) ∧
    (r.Write pre ≠ .panic → ∃ out, r.Write pre = .ok out) := by
  constructor
  · rw [(relation_embSpec r).panic_iff]
    simp only [relationBytes, optApp_eq_none, optField_eq_none, u32Payload_size, delta_size,
      i32Payload_size, u64Payload_size]
    simp
  · intro h
    have := relation_embSpec r pre
    cases hw : relationBytes r with
    | none => rw [hw] at this; exact absurd this h
    | some p => rw [hw] at this; exact ⟨_, this⟩

example : Relation.Write ⟨9, [1], [2], [0, 5], [100, 90], [1, 0]⟩ []
    = .ok [8, 9, 18, 129, 0, 1, 26, 129, 0, 2, 66, 130, 128, 0, 0, 5, 74, 131, 128, 0, 200, 1, 19,
      82, 130, 128, 0, 1, 0] := by decide

/-! ## C13 -/

/-- C13: dense nodes that were written are read back as they were. -/
theorem C13_dense_round_trip (dn : DenseNodes) (pre out : List UInt8) (h : dn.Write pre = .ok out) :
    ∃ msg, out = pre ++ msg ∧
      ∀ spare, (Slice.mk msg spare).Fits → ReadDenseNodes ⟨msg, spare⟩ = .ok dn := by
  obtain ⟨p, hp, rfl⟩ := (dense_embSpec dn).ok h
  exact ⟨p, rfl, fun spare hf => dense_read dn p hp spare hf⟩

/-- C13: the write panics iff a section is oversized; otherwise it returns. -/
theorem C13_dense_write_panics_iff (dn : DenseNodes) (pre : List UInt8) :
    (dn.Write pre = .panic ↔
      2097152 ≤ sizeDelta dn.Id ∨ 2097152 ≤ sizeDelta dn.Lat ∨ 2097152 ≤ sizeDelta dn.Lon ∨
      268435456 ≤ sizeI32 dn.KeyVals) ∧
    (dn.Write pre ≠ .panic → ∃ out, dn.Write pre = .ok out) := by
  constructor
  · rw [(dense_embSpec dn).panic_iff]
    simp only [denseBytes, optApp_eq_none, optField_eq_none, delta_size]
    split
    · rw [optField_eq_none, i32Payload_size]
    · next h =>
      have : dn.KeyVals = [] := by
        cases hk : dn.KeyVals with
        | nil => rfl
        | cons a l => rw [hk] at h; simp at h
      rw [this]
      simp [sizeI32, varintsSize]
  · intro h
    have := dense_embSpec dn pre
    cases hw : denseBytes dn with
    | none => rw [hw] at this; exact absurd this h
    | some p => rw [hw] at this; exact ⟨_, this⟩

example : DenseNodes.Write ⟨[1, 2], [-5, 8], [0, 0], [3, 4, 0, 0]⟩ []
    = .ok [10, 130, 128, 0, 2, 2, 66, 130, 128, 0, 9, 26, 74, 130, 128, 0, 0, 0,
      82, 132, 128, 128, 0, 3, 4, 0, 0] := by decide

/-! ## C14 -/

/-- C14: a block parsed with any options, written after anything and read again with the same
options, has equal decoded sections, granularities and offsets, and byte-for-byte identical skipped
sections. -/
theorem C14_block_round_trip (o : PBReader) (src : Slice) (b : PrimitiveBlock)
    (hr : ReadPrimitiveBlock o src = .ok b) (pre out : List UInt8) (hw : b.Write pre = .ok out) :
    ∃ msg, out = pre ++ msg ∧ ∀ spare, (Slice.mk msg spare).Fits →
      ∃ b', ReadPrimitiveBlock o ⟨msg, spare⟩ = .ok b' ∧ SameContent b' b := by
  obtain ⟨p, hp, rfl⟩ := (block_embSpec b).ok hw
  refine ⟨p, rfl, fun spare hf => ?_⟩
  obtain ⟨b', h1, h2⟩ := block_read o b (readBlock_shape o src b hr) p hp spare hf
  exact ⟨b', h2, h1⟩

/-- C14 for blocks assembled in memory (every section decoded, nothing raw). -/
theorem C14_block_round_trip_assembled (b : PrimitiveBlock) (hb : BlockShape readAll b)
    (pre out : List UInt8) (hw : b.Write pre = .ok out) :
    ∃ msg, out = pre ++ msg ∧ ∀ spare, (Slice.mk msg spare).Fits →
      ReadPrimitiveBlock readAll ⟨msg, spare⟩ = .ok b := by
  obtain ⟨p, hp, rfl⟩ := (block_embSpec b).ok hw
  refine ⟨p, rfl, fun spare hf => ?_⟩
  obtain ⟨b', h1, h2⟩ := block_read readAll b hb p hp spare hf
  rw [h2]
  have hb' := readBlock_shape readAll _ _ h2
  have key : ∀ x : PrimitiveBlock, BlockShape readAll x → trimBlock x = x := by
    intro x hx
    obtain ⟨h1, h2⟩ := hx
    simp only [readAll, Bool.false_eq_true, if_false] at h1
    unfold trimBlock
    rw [h1]
    have : x.PrimitiveGroup.map trimGroup = x.PrimitiveGroup := by
      conv => rhs; rw [← List.map_id x.PrimitiveGroup]
      apply List.map_congr_left
      intro g hg
      obtain ⟨a, b, c⟩ := h2 g hg
      simp only [readAll, Bool.false_eq_true, if_false] at a b c
      unfold trimGroup
      rw [a, b, c]
      obtain ⟨_, _, _, _, _, _⟩ := g
      simp_all
    rw [this]
    obtain ⟨_, _, _, _, _, _, _⟩ := x
    simp_all
  rw [key _ hb, key _ hb'] at h1
  rw [h1]

/-- A block with a string table, a group with one way, granularity 7: parsed with ways skipped,
written, and parsed again. -/
example : ∃ b, ReadPrimitiveBlock ⟨false, false, true, false⟩
      ⟨[10, 3, 10, 1, 65, 18, 4, 26, 2, 8, 5, 136, 1, 7], [1, 2]⟩ = .ok b ∧
    b.Granularity = 7 ∧ b.StringTable = some ⟨[[65]]⟩ ∧
    b.Write [] = .ok [10, 131, 128, 128, 0, 10, 1, 65, 18, 132, 128, 128, 0, 26, 2, 8, 5, 136, 1, 7] :=
  ⟨_, rfl, by decide, by decide, by decide⟩

/-! ## C15 -/

/-- C15: any blob header is read back as it was. -/
theorem C15_blob_header_round_trip (bh : BlobHeader) (pre : List UInt8) :
    ∃ msg, bh.Write pre = pre ++ msg ∧
      ∀ spare, (Slice.mk msg spare).Fits → ReadBlobHeader ⟨msg, spare⟩ = .ok bh :=
  ⟨_, blobHeader_write_eq bh pre, fun spare hf => blobHeader_read bh spare hf⟩

/-- C15: any blob is read back as it was, except that an empty raw or compressed section is read
back as absent. Writing it never panics. -/
theorem C15_blob_round_trip (b : Blob) (pre : List UInt8) :
    ∃ msg, b.Write none pre = .ok (pre ++ msg) ∧
      ∀ spare, (Slice.mk msg spare).Fits → ∃ b', ReadBlob ⟨msg, spare⟩ = .ok b' ∧
        b'.Raw.map (·.bytes) = nonEmpty b.Raw ∧ b'.RawSize = b.RawSize ∧
        b'.ZLibData.map (·.bytes) = nonEmpty b.ZLibData := by
  refine ⟨(match nonEmpty b.Raw with
      | some p => bufField 1 p
      | none => []) ++ blobTailBytes b, ?_, fun spare hf => ?_⟩
  · unfold Blob.Write
    rw [blob_writeRaw_none]
    simp only [Res.ok_bind, blob_writeTail_eq, List.append_assoc]
    cases nonEmpty b.Raw <;> rfl
  · obtain ⟨b', h1, h2⟩ := blob_read_none b spare _ rfl hf
    simp only [blobObs, Prod.mk.injEq] at h2
    exact ⟨b', h1, h2⟩

/-- C15 for a blob whose raw section is produced by a callback appending `p` (possibly empty): `p`
is read back exactly, or the write panics because `p` has 268435456 bytes or more. -/
theorem C15_blob_func_round_trip (b : Blob) (f : Embedder) (p : List UInt8)
    (hf : ∀ buf, f buf = .ok (buf ++ p)) (pre : List UInt8) :
    (268435456 ≤ p.length → b.Write (some f) pre = .panic) ∧
    (p.length < 268435456 → ∃ msg, b.Write (some f) pre = .ok (pre ++ msg) ∧
      ∀ spare, (Slice.mk msg spare).Fits → ∃ b', ReadBlob ⟨msg, spare⟩ = .ok b' ∧
        b'.Raw.map (·.bytes) = some p ∧ b'.RawSize = b.RawSize ∧
        b'.ZLibData.map (·.bytes) = nonEmpty b.ZLibData) := by
  have he : EmbSpec f (some p) := hf
  have hw := embSpec_embed268435456 he 1
  constructor
  · intro hp
    unfold Blob.Write Blob.writeRaw
    dsimp only
    rw [(hw.panic_iff pre).2 (optField_eq_none.2 hp)]
    rfl
  · intro hp
    refine ⟨(tagBytes 1 PbFixedBytes ++ fix4 p.length ++ p) ++ blobTailBytes b, ?_,
      fun spare hfit => ?_⟩
    · unfold Blob.Write Blob.writeRaw
      dsimp only
      rw [hw pre]
      simp only [optField, if_pos hp, appendRes, Res.ok_bind, blob_writeTail_eq, List.append_assoc]
    · obtain ⟨b', h1, h2⟩ := blob_read_func b spare p _ hp rfl hfit
      simp only [blobObs, Prod.mk.injEq] at h2
      exact ⟨b', h1, h2⟩

example : Blob.Write ⟨some ⟨[1, 2], []⟩, some 2, some ⟨[], [5]⟩⟩ none [] = .ok [10, 2, 1, 2, 16, 2] := by
  decide
example : ReadBlob ⟨[10, 2, 1, 2, 16, 2], []⟩ = .ok ⟨some ⟨[1, 2], [16, 2]⟩, some 2, none⟩ := by decide

/-! ## C16 -/

/-- C16: if a block can be read in full then it can be read with any sections skipped, and the two
agree: unskipped sections are equal, and each skipped section is kept as raw bytes which parse to
what the full read produced (`BlockAgrees`). -/
theorem C16_skipping_only_skips (o : PBReader) (buf : Slice) (full : PrimitiveBlock)
    (h : ReadPrimitiveBlock readAll buf = .ok full) :
    ∃ part, ReadPrimitiveBlock o buf = .ok part ∧ BlockAgrees o part full :=
  readBlock_agrees o buf full h

example : (∃ full, ReadPrimitiveBlock readAll
      ⟨[10, 3, 10, 1, 65, 18, 4, 26, 2, 8, 5, 136, 1, 7], []⟩ = .ok full) :=
  ⟨_, rfl⟩

/-! ## C17 -/

section
variable (fields : List (List UInt8)) (tag rest spare : List UInt8) (k : Nat)

/-- C17: after any well-formed fields, a tag the reader does not know (known ones are listed as
`8·number + wireType`) prevents a result, for each of the message types. For groups, field 1
(non-dense nodes) is among the unknown ones. -/
theorem C17_unknown_fields_rejected (hf : ∀ f ∈ fields, WireField f) (ht : IsVarint tag k)
    (hfit : (Slice.mk (fields.flatten ++ (tag ++ rest)) spare).Fits) :
    let buf : Slice := ⟨fields.flatten ++ (tag ++ rest), spare⟩
    (k ∉ [8 * 1 + 2] → ∀ x, ReadStringTable buf ≠ .ok x) ∧
    (k ∉ [8 * 1 + 0, 8 * 2 + 2, 8 * 3 + 2, 8 * 4 + 2, 8 * 8 + 2] → ∀ x, ReadWay buf ≠ .ok x) ∧
    (k ∉ [8 * 1 + 0, 8 * 2 + 2, 8 * 3 + 2, 8 * 4 + 2, 8 * 8 + 2, 8 * 9 + 2, 8 * 10 + 2] →
      ∀ x, ReadRelation buf ≠ .ok x) ∧
    (k ∉ [8 * 1 + 2, 8 * 5 + 2, 8 * 8 + 2, 8 * 9 + 2, 8 * 10 + 2] → ∀ x, ReadDenseNodes buf ≠ .ok x) ∧
    (k ∉ [8 * 2 + 2, 8 * 3 + 2, 8 * 4 + 2, 8 * 5 + 2] → ∀ o x, ReadPrimitiveGroup o buf ≠ .ok x) ∧
    (k ∉ [8 * 1 + 2, 8 * 2 + 2, 8 * 17 + 0, 8 * 18 + 0, 8 * 19 + 0, 8 * 20 + 0] →
      ∀ o x, ReadPrimitiveBlock o buf ≠ .ok x) ∧
    (k ∉ [8 * 1 + 2, 8 * 3 + 0] → ∀ x, ReadBlobHeader buf ≠ .ok x) ∧
    (k ∉ [8 * 1 + 2, 8 * 2 + 0, 8 * 3 + 2] → ∀ x, ReadBlob buf ≠ .ok x) :=
  ⟨fun hk x => forNext_unknown stringTable_shape hfit hf rfl ht hk _ x,
   fun hk x => forNext_unknown way_shape hfit hf rfl ht hk _ x,
   fun hk x => forNext_unknown relation_shape hfit hf rfl ht hk _ x,
   fun hk x => forNext_unknown dense_shape hfit hf rfl ht hk _ x,
   fun hk o x => forNext_unknown (group_shape o) hfit hf rfl ht hk _ x,
   fun hk o x => forNext_unknown (block_shape o) hfit hf rfl ht hk _ x,
   fun hk x => forNext_unknown blobHeader_shape hfit hf rfl ht hk _ x,
   fun hk x => forNext_unknown blob_shape hfit hf rfl ht hk _ x⟩

end

/-- C17: the outcome is a panic (not an endless loop) for the message types that skip nothing, and
for the others whenever the data has no backward skip (see C09). -/
theorem C17_unknown_fields_panic (fields : List (List UInt8)) (tag rest spare : List UInt8) (k : Nat)
    (hf : ∀ f ∈ fields, WireField f) (ht : IsVarint tag k)
    (hfit : (Slice.mk (fields.flatten ++ (tag ++ rest)) spare).Fits) :
    let buf : Slice := ⟨fields.flatten ++ (tag ++ rest), spare⟩
    (k ∉ [8 * 1 + 2] → ReadStringTable buf = .panic) ∧
    (k ∉ [8 * 1 + 2, 8 * 3 + 0] → ReadBlobHeader buf = .panic) ∧
    (k ∉ [8 * 1 + 2, 8 * 2 + 0, 8 * 3 + 2] → ReadBlob buf = .panic) ∧
    (SkipsForward (buf.bytes ++ buf.spare) →
      (k ∉ [8 * 1 + 0, 8 * 2 + 2, 8 * 3 + 2, 8 * 4 + 2, 8 * 8 + 2] → ReadWay buf = .panic) ∧
      (k ∉ [8 * 1 + 0, 8 * 2 + 2, 8 * 3 + 2, 8 * 4 + 2, 8 * 8 + 2, 8 * 9 + 2, 8 * 10 + 2] →
        ReadRelation buf = .panic) ∧
      (k ∉ [8 * 1 + 2, 8 * 5 + 2, 8 * 8 + 2, 8 * 9 + 2, 8 * 10 + 2] → ReadDenseNodes buf = .panic) ∧
      (k ∉ [8 * 2 + 2, 8 * 3 + 2, 8 * 4 + 2, 8 * 5 + 2] → ∀ o, ReadPrimitiveGroup o buf = .panic) ∧
      (k ∉ [8 * 1 + 2, 8 * 2 + 2, 8 * 17 + 0, 8 * 18 + 0, 8 * 19 + 0, 8 * 20 + 0] →
        ∀ o, ReadPrimitiveBlock o buf = .panic)) := by
  obtain ⟨h1, h2, h3, h4, h5, h6, h7, h8⟩ :=
    C17_unknown_fields_rejected fields tag rest spare k hf ht hfit
  have key : ∀ {α : Type} {x : Res α}, (∀ a, x ≠ .ok a) → x ≠ .hang → x = .panic := by
    intro α x h1 h2
    cases x with
    | ok a => exact absurd rfl (h1 a)
    | panic => rfl
    | hang => exact absurd rfl h2
  exact ⟨fun hk => key (h1 hk) (readStringTable_ne_hang _ hfit),
    fun hk => key (h7 hk) (readBlobHeader_ne_hang _ hfit),
    fun hk => key (h8 hk) (readBlob_ne_hang _ hfit),
    fun hs => ⟨fun hk => key (h2 hk) (readWay_ne_hang _ hfit hs),
      fun hk => key (h3 hk) (readRelation_ne_hang _ hfit hs),
      fun hk => key (h4 hk) (readDense_ne_hang _ hfit hs),
      fun hk o => key (h5 hk o) (readGroup_ne_hang o _ hfit hs),
      fun hk o => key (h6 hk o) (readBlock_ne_hang o _ hfit hs)⟩⟩

/-- A way with id 5 and then a field 9: the hypotheses are met and the reader panics. -/
example : WireField [8, 5] ∧ IsVarint [74] 74 ∧ ReadWay ⟨[8, 5] ++ ([74] ++ [0]), []⟩ = .panic :=
  ⟨.varint [8] [5] 8 5 (.last 8 (by decide)) (by decide) (.last 5 (by decide)),
   .last 74 (by decide), by decide⟩
/-- A group with plain nodes. -/
example : ReadPrimitiveGroup readAll ⟨[10, 2, 8, 5], []⟩ = .panic := by decide

/-! ## C09 -/

/-- C09 for the message types and lists which skip nothing: parsing any bytes returns or panics
within one loop iteration per byte (`hang` is the outcome of a loop running longer than that). -/
theorem C09_terminates (buf : Slice) (hb : buf.Fits) :
    ReadStringTable buf ≠ .hang ∧ ReadBlobHeader buf ≠ .hang ∧ ReadBlob buf ≠ .hang ∧
    DecodeS64PackedDeltaZero buf ≠ .hang ∧
    ∀ n : Int, DecodeVarInt buf n ≠ .hang ∧ DecodeBytes buf n ≠ .hang ∧ DecodeS32Packed buf n ≠ .hang ∧
      DecodeI32Packed buf n ≠ .hang ∧ DecodeU32Packed buf n ≠ .hang ∧ DecodeS64Packed buf n ≠ .hang ∧
      DecodeU64Packed buf n ≠ .hang ∧ DecodeS64PackedDelta buf n ≠ .hang :=
  ⟨readStringTable_ne_hang _ hb, readBlobHeader_ne_hang _ hb, readBlob_ne_hang _ hb,
   deltaZeroLoop_ne_hang _ _ _ _ _ (by omega) (by omega), fun n =>
   ⟨decode_ne_hang _ _, readBytes_ne_hang _ _, s32p_ne_hang _ _, i32p_ne_hang _ _, u32p_ne_hang _ _,
    s64p_ne_hang _ _, u64p_ne_hang _ _, deltap_ne_hang _ _⟩⟩

/-- C09, the part that holds for the other message types: if no skipped section claims 2^63 bytes or
more, parsing returns or panics within one iteration per byte.

Missing from C09: data with such a length, on which parsing can go on forever
(`C09_endless_loop`). -/
theorem C09_terminates_partial (buf : Slice) (hb : buf.Fits)
    (h : SkipsForward (buf.bytes ++ buf.spare)) :
    ReadWay buf ≠ .hang ∧ ReadRelation buf ≠ .hang ∧ ReadDenseNodes buf ≠ .hang ∧
    (∀ o, ReadPrimitiveGroup o buf ≠ .hang) ∧ (∀ o, ReadPrimitiveBlock o buf ≠ .hang) :=
  ⟨readWay_ne_hang _ hb h, readRelation_ne_hang _ hb h, readDense_ne_hang _ hb h,
   fun o => readGroup_ne_hang o _ hb h, fun o => readBlock_ne_hang o _ hb h⟩

/-- Eleven bytes: an info field whose length is -11 as a 64-bit number. -/
def backward : Slice := ⟨[34, 245, 255, 255, 255, 255, 255, 255, 255, 255, 1], []⟩

/-- C09 is false of the code: the way reader (and likewise the readers of relations, dense nodes and
groups) skips a section of length -11 back to where it started, whatever the number of iterations
it is given. -/
theorem C09_endless_loop (fuel : Nat) : loopBytes backward (wayBody backward) fuel 0 Way.zero = .hang := by
  induction fuel with
  | zero => rfl
  | succ f ih =>
    unfold loopBytes
    have : wayBody backward 0 Way.zero = .ok (Way.zero, 0) := by decide
    rw [if_pos (by decide), this]
    exact ih

/-- The hypothesis of the partial theorem holds of a way with an (ignored) info section. -/
example : SkipsForward [8, 5, 34, 1, 99] := by
  intro i tag len rest k m hd ht hk hv
  have h1 := isVarint_length_pos ht
  have h2 := isVarint_length_pos hv
  have hl := congrArg List.length hd
  simp at hl
  have : m < 128 ^ len.length := isVarint_lt hv
  have : len.length ≤ 5 := by omega
  have : 128 ^ len.length ≤ 128 ^ 5 := Nat.pow_le_pow_right (by omega) this
  omega

end Osm.Props
