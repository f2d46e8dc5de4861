import Verif.Lemmas.Term

namespace Osm.T
open Osm Osm.Spec Osm.Pb

/-! ### Blob header -/

/-- The bytes of a blob header. -/
def blobHeaderBytes (bh : BlobHeader) : List UInt8 :=
  (if bh.Kind ≠ [] then bufField 1 bh.Kind else []) ++
  (if bh.DataSize ≠ 0 then varField 3 bh.DataSize.toInt64.toUInt64 else [])

theorem blobHeader_write_eq (bh : BlobHeader) (buf : List UInt8) :
    bh.Write buf = buf ++ blobHeaderBytes bh := by
  unfold BlobHeader.Write blobHeaderBytes
  simp only [encodeIdBuffer_eq, encodeIdVarInt_eq]
  split <;> split <;> simp

theorem blobHeader_takes_kind (t : BlobHeader) (k : List UInt8) :
    TakesSection blobHeaderBody 1 k t { t with Kind := k } := by
  intro buf n m enc rest hd hs
  unfold blobHeaderBody DecodeString DecodeBytes
  rw [hd]
  simp only [Res.ok_bind]
  rw [if_pos (by trivial), hs.read]; rfl

theorem blobHeader_runs_size (t : BlobHeader) (v : Int32) :
    Runs blobHeaderBody (varField 3 v.toInt64.toUInt64) t { t with DataSize := v } := by
  apply runs_varField
  intro buf n m rest hd hv
  unfold blobHeaderBody
  rw [hd]
  simp only [Res.ok_bind]
  rw [if_neg (by decide), if_pos (by trivial), decodeI32_at hv]; rfl

theorem blobHeader_read (bh : BlobHeader) (sp : List UInt8)
    (hf : (Slice.mk (blobHeaderBytes bh) sp).Fits) :
    ReadBlobHeader ⟨blobHeaderBytes bh, sp⟩ = .ok bh := by
  refine forNext_of_runs (body := blobHeaderBody) hf ?_
  unfold blobHeaderBytes
  refine runs_append (s2 := ⟨bh.Kind, 0⟩) ?_ ?_
  · split
    · exact runs_bufField (blobHeader_takes_kind _ _)
    · next h =>
      have h : bh.Kind = [] := by simpa using h
      rw [h]; exact runs_nil _ _
  · split
    · exact blobHeader_runs_size _ _
    · next h =>
      have h : bh.DataSize = 0 := by simpa using h
      obtain ⟨k, d⟩ := bh
      simp at h
      subst h; exact runs_nil _ _

/-! ### Blob -/

/-- The observable content of a blob. -/
def blobObs (b : Blob) : Option (List UInt8) × Option Int32 × Option (List UInt8) :=
  (b.Raw.map (·.bytes), b.RawSize, b.ZLibData.map (·.bytes))

/-- The bytes of the fields of a blob behind the raw section. -/
def blobTailBytes (b : Blob) : List UInt8 :=
  (match b.RawSize with
    | some n => varField 2 n.toInt64.toUInt64
    | none => []) ++
  (match nonEmpty b.ZLibData with
    | some p => bufField 3 p
    | none => [])

theorem optLen_nonEmpty (o : Option Slice) :
    (if optLen o > 0 then some (optBytes o) else none) = nonEmpty o := by
  cases o with
  | none => rfl
  | some s =>
    simp only [optLen, optBytes, nonEmpty]
    by_cases h : s.bytes = []
    · simp [h]
    · have : 0 < s.bytes.length := List.length_pos_iff.2 h
      simp [h, this]

theorem blob_writeTail_eq (b : Blob) (buf : List UInt8) :
    b.writeTail buf = buf ++ blobTailBytes b := by
  unfold Blob.writeTail blobTailBytes
  rw [← optLen_nonEmpty]
  simp only [encodeIdBuffer_eq, encodeIdVarInt_eq]
  cases b.RawSize <;> split <;> simp_all

theorem blob_writeRaw_none (b : Blob) (buf : List UInt8) :
    b.writeRaw none buf = .ok (buf ++ (match nonEmpty b.Raw with
      | some p => bufField 1 p
      | none => [])) := by
  unfold Blob.writeRaw
  rw [← optLen_nonEmpty]
  simp only [encodeIdBuffer_eq]
  split <;> simp_all

theorem blob_takes_raw (t : Option (List UInt8) × Option Int32 × Option (List UInt8)) (p : List UInt8) :
    TakesSectionQ blobObs blobBody 1 p t (some p, t.2) := by
  intro buf n m enc rest hd hs s hst
  subst hst
  refine ⟨{ s with Raw := some ⟨p, rest ++ buf.spare⟩ }, rfl, ?_⟩
  unfold blobBody DecodeBytes
  rw [hd]
  simp only [Res.ok_bind]
  rw [if_pos (by trivial), hs.read]; rfl

theorem blob_takes_zlib (t : Option (List UInt8) × Option Int32 × Option (List UInt8)) (p : List UInt8) :
    TakesSectionQ blobObs blobBody 3 p t (t.1, t.2.1, some p) := by
  intro buf n m enc rest hd hs s hst
  subst hst
  refine ⟨{ s with ZLibData := some ⟨p, rest ++ buf.spare⟩ }, rfl, ?_⟩
  unfold blobBody DecodeBytes
  rw [hd]
  simp only [Res.ok_bind]
  rw [if_neg (by decide), if_neg (by decide), if_pos (by trivial), hs.read]; rfl

theorem blob_runs_size (t : Option (List UInt8) × Option Int32 × Option (List UInt8)) (v : Int32) :
    RunsQ blobObs blobBody (varField 2 v.toInt64.toUInt64) t (t.1, some v, t.2.2) := by
  apply runsQ_varField
  intro buf n m rest hd hv s hst
  subst hst
  refine ⟨{ s with RawSize := some v }, rfl, ?_⟩
  unfold blobBody
  rw [hd]
  simp only [Res.ok_bind]
  rw [if_neg (by decide), if_pos (by trivial), decodeI32_at hv]; rfl

theorem blob_runs_tail (b : Blob) (r : Option (List UInt8)) :
    RunsQ blobObs blobBody (blobTailBytes b) (r, none, none) (r, b.RawSize, nonEmpty b.ZLibData) := by
  unfold blobTailBytes
  refine runsQ_append (s2 := (r, b.RawSize, none)) ?_ ?_
  · cases b.RawSize with
    | none => exact runsQ_nil _
    | some v => exact blob_runs_size _ _
  · cases nonEmpty b.ZLibData with
    | none => exact runsQ_nil _
    | some v => exact runsQ_bufField (blob_takes_zlib _ _)

theorem blob_read_none (b : Blob) (sp : List UInt8) (msg : List UInt8)
    (hm : msg = (match nonEmpty b.Raw with
      | some p => bufField 1 p
      | none => []) ++ blobTailBytes b)
    (hf : (Slice.mk msg sp).Fits) :
    ∃ b', ReadBlob ⟨msg, sp⟩ = .ok b' ∧
      blobObs b' = (nonEmpty b.Raw, b.RawSize, nonEmpty b.ZLibData) := by
  subst hm
  have : RunsQ blobObs blobBody (match nonEmpty b.Raw with
      | some p => bufField 1 p
      | none => []) (none, none, none) (nonEmpty b.Raw, none, none) := by
    cases nonEmpty b.Raw with
    | none => exact runsQ_nil _
    | some v => exact runsQ_bufField (blob_takes_raw _ _)
  obtain ⟨b', h1, h2⟩ := forNext_of_runsQ (s := Blob.zero) (buf := ⟨_, sp⟩) hf
    (runsQ_append this (blob_runs_tail b _))
  exact ⟨b', h2, h1⟩

theorem blob_read_func (b : Blob) (sp : List UInt8) (p msg : List UInt8) (hp : p.length < 268435456)
    (hm : msg = (tagBytes 1 PbFixedBytes ++ fix4 p.length ++ p) ++ blobTailBytes b)
    (hf : (Slice.mk msg sp).Fits) :
    ∃ b', ReadBlob ⟨msg, sp⟩ = .ok b' ∧ blobObs b' = (some p, b.RawSize, nonEmpty b.ZLibData) := by
  subst hm
  obtain ⟨b', h1, h2⟩ := forNext_of_runsQ (q := blobObs) (body := blobBody) (s := Blob.zero)
    (buf := ⟨_, sp⟩) hf
    (runsQ_append (runsQ_fix4 hp (blob_takes_raw (none, none, none) p)) (blob_runs_tail b _))
  exact ⟨b', h2, h1⟩

/-! ### Sizes -/

theorem u32Payload_size (vs : List UInt32) : (u32Payload vs).length = sizeU32 vs := by
  unfold u32Payload sizeU32 varintsSize
  induction vs with
  | nil => rfl
  | cons v vs ih => simp_all

theorem u64Payload_size (vs : List UInt64) : (u64Payload vs).length = sizeU64 vs := by
  unfold u64Payload sizeU64 varintsSize
  induction vs with
  | nil => rfl
  | cons v vs ih => simp_all

theorem int32_ext_toNat (v : Int32) : v.toInt64.toUInt64.toNat = (v.toInt % 2 ^ 64).toNat := by
  have h1 : v.toInt64.toInt = v.toInt := by simp
  have a := v.le_toInt
  have b := v.toInt_lt
  by_cases h : 0 ≤ v.toInt64.toInt
  · have := toUInt64_toNat_nonneg _ h
    omega
  · have := toUInt64_toNat_neg v.toInt64 (by omega)
    omega

theorem i32Payload_size (vs : List Int32) : (i32Payload vs).length = sizeI32 vs := by
  unfold i32Payload sizeI32 varintsSize
  induction vs with
  | nil => rfl
  | cons v vs ih =>
    rw [List.flatMap_cons, List.length_append, ih, int32_ext_toNat]; rfl

theorem delta_size (vs : List Int64) : (deltaVarints 0 vs).length = sizeDelta vs := by
  unfold sizeDelta varintsSize
  generalize (0 : Int64) = l
  induction vs generalizing l with
  | nil => rfl
  | cons v vs ih =>
    unfold deltaVarints differences
    rw [List.length_append, ih, encodeZigZag_toNat]; rfl

theorem optApp_eq_none {a b : Option (List UInt8)} : optApp a b = none ↔ a = none ∨ b = none := by
  cases a <;> cases b <;> simp [optApp]

theorem optField_eq_none {fix : Nat → List UInt8} {limit : Nat} {id : UInt64} {p : List UInt8} :
    optField fix limit id (some p) = none ↔ limit ≤ p.length := by
  simp only [optField]
  split <;> simp <;> omega

theorem _root_.Osm.Pb.EmbSpec.panic_iff {e : Embedder} {o : Option (List UInt8)} (h : EmbSpec e o) (b : List UInt8) :
    e b = .panic ↔ o = none := by
  rw [h b]; cases o <;> simp [appendRes]

end Osm.T
