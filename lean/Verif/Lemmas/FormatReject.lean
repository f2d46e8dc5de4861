import Verif.Lemmas.FormatBlock

/-! # Fields that the code does not know -/

namespace Osm.Format
open Osm Osm.Spec Osm.Spec.Proto Osm.Spec.OsmFormat Osm.Pb Osm.T

section
variable {σ τ : Type} {q : σ → τ} {body : Slice → Int → σ → Res (σ × Int)}

/-- The loop body panics at a field. -/
def Rejects (body : Slice → Int → σ → Res (σ × Int)) (f : List UInt8) : Prop :=
  f ≠ [] ∧ ∀ (buf : Slice) (n : Nat) (rest : List UInt8), buf.bytes.drop n = f ++ rest → ∀ s, body buf n s = .panic

theorem forNext_rejects {p f rest sp : List UInt8} {s : σ} {t' : τ} (hb : (Slice.mk (p ++ f ++ rest) sp).Fits)
    (h : RunsQ q body p (q s) t') (hf : Rejects body f) :
    forNext ⟨p ++ f ++ rest, sp⟩ (body ⟨p ++ f ++ rest, sp⟩) s = .panic := by
  obtain ⟨k, s', hk, _, e⟩ := h ⟨p ++ f ++ rest, sp⟩ 0 (f ++ rest) hb (by simp) ((p ++ f ++ rest).length + 1)
    (by simp) s rfl
  unfold forNext
  dsimp only at e ⊢
  rw [show ((0 : Int)) = ((0 : Nat) : Int) from rfl, e]
  have hl : 1 ≤ f.length := List.length_pos_iff.2 hf.1
  obtain ⟨k, rfl⟩ : ∃ j, k = j + 1 := ⟨k - 1, by omega⟩
  unfold loopBytes
  rw [if_pos (by unfold Slice.len; simp; omega), hf.2 _ _ rest (by simp)]
  rfl

theorem runsQ_of_runs {p : List UInt8} {s s' : σ} (h : Runs body p s s') : RunsQ id body p s s' := by
  rintro buf n rest hb hd fuel hf s rfl
  obtain ⟨f, h1, h2⟩ := h buf n rest hb hd fuel hf
  exact ⟨f, s', h1, rfl, h2⟩

/-- The tag of a field. -/
def tagOf : Field → Nat
  | (k, .num _) => 8 * k
  | (k, .bytes _) => 8 * k + 2

theorem field_tag {bs : List UInt8} {f : Field} (h : IsField bs f) : bs ≠ [] ∧ tagOf f < 2 ^ 64 ∧
    ∀ (buf : Slice) (n : Nat) (rest : List UInt8), buf.bytes.drop n = bs ++ rest →
      ∃ m, DecodeVarInt buf n = .ok (UInt64.ofNat (tagOf f), m) := by
  cases h with
  | num tag v k n ht hv =>
    refine ⟨by simp [varint_ne_nil ht], ht.2.2, fun buf n rest hd => ⟨_, decode_varint ht (by simpa using hd)⟩⟩
  | bytes tag len b k ht hl =>
    refine ⟨by simp [varint_ne_nil ht], ht.2.2, fun buf n rest hd => ⟨_, decode_varint ht (by simpa using hd)⟩⟩

theorem tag_ne {t : Nat} {id : UInt64} (h : t < 2 ^ 64) (hn : t ≠ id.toNat) : UInt64.ofNat t ≠ id := by
  rintro rfl
  rw [UInt64.toNat_ofNat_of_lt' (by simpa using h)] at hn
  exact hn rfl

/-- Not one of the fields of a message. -/
theorem not_only {ns bs : List Nat} {f : Field} (h : ¬ Only ns bs [f]) :
    (∀ k ∈ ns, tagOf f ≠ 8 * k) ∧ ∀ k ∈ bs, tagOf f ≠ 8 * k + 2 := by
  obtain ⟨j, v⟩ := f
  unfold Only at h
  simp only [List.mem_singleton, forall_eq] at h
  cases v <;> dsimp only [tagOf] at h ⊢ <;> refine ⟨fun k hk e => ?_, fun k hk e => ?_⟩
  · rw [show j = k by omega] at h; exact h hk
  · omega
  · omega
  · rw [show j = k by omega] at h; exact h hk

end

theorem way_rejects {q : List UInt8} {f : Field} (hf : IsField q f) (h : ¬ Only [1] [2, 3, 4, 8] [f]) : Rejects wayBody q := by
  obtain ⟨h1, h2, h3⟩ := field_tag hf
  obtain ⟨h4, h5⟩ := not_only h
  refine ⟨h1, fun buf n rest hd s => ?_⟩
  obtain ⟨m, e⟩ := h3 buf n rest hd
  unfold wayBody
  rw [e]
  simp only [Res.ok_bind]
  rw [if_neg (tag_ne (id := MakeIdType 1 PbVarInt) h2 (h4 1 (by simp))), if_neg (tag_ne (id := MakeIdType 2 PbFixedBytes) h2 (h5 2 (by simp))), if_neg (tag_ne (id := MakeIdType 3 PbFixedBytes) h2 (h5 3 (by simp))),
    if_neg (tag_ne (id := MakeIdType 4 PbFixedBytes) h2 (h5 4 (by simp))), if_neg (tag_ne (id := MakeIdType 8 PbFixedBytes) h2 (h5 8 (by simp)))]

theorem relation_rejects {q : List UInt8} {f : Field} (hf : IsField q f) (h : ¬ Only [1] [2, 3, 4, 8, 9, 10] [f]) :
    Rejects relationBody q := by
  obtain ⟨h1, h2, h3⟩ := field_tag hf
  obtain ⟨h4, h5⟩ := not_only h
  refine ⟨h1, fun buf n rest hd s => ?_⟩
  obtain ⟨m, e⟩ := h3 buf n rest hd
  unfold relationBody
  rw [e]
  simp only [Res.ok_bind]
  rw [if_neg (tag_ne (id := MakeIdType 1 PbVarInt) h2 (h4 1 (by simp))), if_neg (tag_ne (id := MakeIdType 2 PbFixedBytes) h2 (h5 2 (by simp))), if_neg (tag_ne (id := MakeIdType 3 PbFixedBytes) h2 (h5 3 (by simp))),
    if_neg (tag_ne (id := MakeIdType 4 PbFixedBytes) h2 (h5 4 (by simp))), if_neg (tag_ne (id := MakeIdType 8 PbFixedBytes) h2 (h5 8 (by simp))), if_neg (tag_ne (id := MakeIdType 9 PbFixedBytes) h2 (h5 9 (by simp))),
    if_neg (tag_ne (id := MakeIdType 10 PbFixedBytes) h2 (h5 10 (by simp)))]

theorem dense_rejects {q : List UInt8} {f : Field} (hf : IsField q f) (h : ¬ Only [] [1, 5, 8, 9, 10] [f]) :
    Rejects denseBody q := by
  obtain ⟨h1, h2, h3⟩ := field_tag hf
  obtain ⟨h4, h5⟩ := not_only h
  refine ⟨h1, fun buf n rest hd s => ?_⟩
  obtain ⟨m, e⟩ := h3 buf n rest hd
  unfold denseBody
  rw [e]
  simp only [Res.ok_bind]
  rw [if_neg (tag_ne (id := MakeIdType 1 PbFixedBytes) h2 (h5 1 (by simp))), if_neg (tag_ne (id := MakeIdType 5 PbFixedBytes) h2 (h5 5 (by simp))), if_neg (tag_ne (id := MakeIdType 8 PbFixedBytes) h2 (h5 8 (by simp))),
    if_neg (tag_ne (id := MakeIdType 9 PbFixedBytes) h2 (h5 9 (by simp))), if_neg (tag_ne (id := MakeIdType 10 PbFixedBytes) h2 (h5 10 (by simp)))]

theorem group_rejects (o : PBReader) {q : List UInt8} {f : Field} (hf : IsField q f) (h : ¬ Only [] [2, 3, 4, 5] [f]) :
    Rejects (groupBody o) q := by
  obtain ⟨h1, h2, h3⟩ := field_tag hf
  obtain ⟨h4, h5⟩ := not_only h
  refine ⟨h1, fun buf n rest hd s => ?_⟩
  obtain ⟨m, e⟩ := h3 buf n rest hd
  unfold groupBody
  rw [e]
  simp only [Res.ok_bind]
  split
  · rfl
  · rw [if_neg (tag_ne (id := MakeIdType 2 PbFixedBytes) h2 (h5 2 (by simp))), if_neg (tag_ne (id := MakeIdType 3 PbFixedBytes) h2 (h5 3 (by simp))),
      if_neg (tag_ne (id := MakeIdType 4 PbFixedBytes) h2 (h5 4 (by simp))), if_neg (tag_ne (id := MakeIdType 5 PbFixedBytes) h2 (h5 5 (by simp)))]

theorem block_rejects (o : PBReader) {q : List UInt8} {f : Field} (hf : IsField q f) (h : ¬ Only [17, 18, 19, 20] [1, 2] [f]) :
    Rejects (blockBody o) q := by
  obtain ⟨h1, h2, h3⟩ := field_tag hf
  obtain ⟨h4, h5⟩ := not_only h
  refine ⟨h1, fun buf n rest hd s => ?_⟩
  obtain ⟨m, e⟩ := h3 buf n rest hd
  unfold blockBody
  rw [e]
  simp only [Res.ok_bind]
  rw [if_neg (tag_ne (id := MakeIdType 1 PbFixedBytes) h2 (h5 1 (by simp))), if_neg (tag_ne (id := MakeIdType 2 PbFixedBytes) h2 (h5 2 (by simp))), if_neg (tag_ne (id := MakeIdType 17 PbVarInt) h2 (h4 17 (by simp))),
    if_neg (tag_ne (id := MakeIdType 18 PbVarInt) h2 (h4 18 (by simp))), if_neg (tag_ne (id := MakeIdType 19 PbVarInt) h2 (h4 19 (by simp))), if_neg (tag_ne (id := MakeIdType 20 PbVarInt) h2 (h4 20 (by simp)))]

theorem header_rejects {q : List UInt8} {f : Field} (hf : IsField q f) (h : ¬ Only [3] [1] [f]) : Rejects blobHeaderBody q := by
  obtain ⟨h1, h2, h3⟩ := field_tag hf
  obtain ⟨h4, h5⟩ := not_only h
  refine ⟨h1, fun buf n rest hd s => ?_⟩
  obtain ⟨m, e⟩ := h3 buf n rest hd
  unfold blobHeaderBody
  rw [e]
  simp only [Res.ok_bind]
  rw [if_neg (tag_ne (id := MakeIdType 1 PbFixedBytes) h2 (h5 1 (by simp))), if_neg (tag_ne (id := MakeIdType 3 PbVarInt) h2 (h4 3 (by simp)))]

theorem blob_rejects {q : List UInt8} {f : Field} (hf : IsField q f) (h : ¬ Only [2] [1, 3] [f]) : Rejects blobBody q := by
  obtain ⟨h1, h2, h3⟩ := field_tag hf
  obtain ⟨h4, h5⟩ := not_only h
  refine ⟨h1, fun buf n rest hd s => ?_⟩
  obtain ⟨m, e⟩ := h3 buf n rest hd
  unfold blobBody
  rw [e]
  simp only [Res.ok_bind]
  rw [if_neg (tag_ne (id := MakeIdType 1 PbFixedBytes) h2 (h5 1 (by simp))), if_neg (tag_ne (id := MakeIdType 2 PbVarInt) h2 (h4 2 (by simp))), if_neg (tag_ne (id := MakeIdType 3 PbFixedBytes) h2 (h5 3 (by simp)))]

theorem stringTable_rejects {q : List UInt8} {f : Field} (hf : IsField q f) (h : ¬ Only [] [1] [f]) :
    Rejects stringTableBody q := by
  obtain ⟨h1, h2, h3⟩ := field_tag hf
  obtain ⟨h4, h5⟩ := not_only h
  refine ⟨h1, fun buf n rest hd s => ?_⟩
  obtain ⟨m, e⟩ := h3 buf n rest hd
  unfold stringTableBody
  rw [e]
  simp only [Res.ok_bind]
  rw [if_neg (tag_ne (id := MakeIdType 1 PbFixedBytes) h2 (h5 1 (by simp)))]

variable {p q rest sp : List UInt8} {f : Field}

theorem unknown_stringTable {st : StringTable} (hp : IsStringTable p st) (hf : IsField q f) (h : ¬ Only [] [1] [f])
    (hb : (Slice.mk (p ++ q ++ rest) sp).Fits) : ReadStringTable ⟨p ++ q ++ rest, sp⟩ = .panic := by
  obtain ⟨fs, h1, h2, _⟩ := hp
  exact forNext_rejects hb (runsQ_of_runs (stringTable_runs h1 h2 ⟨[]⟩)) (stringTable_rejects hf h)

theorem unknown_way {w : Way} (hp : IsWay p w) (hf : IsField q f) (h : ¬ Only [1] [2, 3, 4, 8] [f])
    (hb : (Slice.mk (p ++ q ++ rest) sp).Fits) : ReadWay ⟨p ++ q ++ rest, sp⟩ = .panic := by
  obtain ⟨fs, h1, h2, h3, e1, e2, e3, e4⟩ := hp
  exact forNext_rejects hb (runsQ_of_runs (way_runs h1 h2 (w := w)
    (fun p hp => by rw [← once_item h3 (by simp) hp]; exact e2) (fun p hp => by rw [← once_item h3 (by simp) hp]; exact e3)
    (fun p hp => by rw [← once_item h3 (by simp) hp]; exact e4) Way.zero)) (way_rejects hf h)

theorem unknown_relation {w : Relation} (hp : IsRelation p w) (hf : IsField q f) (h : ¬ Only [1] [2, 3, 4, 8, 9, 10] [f])
    (hb : (Slice.mk (p ++ q ++ rest) sp).Fits) : ReadRelation ⟨p ++ q ++ rest, sp⟩ = .panic := by
  obtain ⟨fs, h1, h2, h3, e1, e2, e3, e4, e5, e6⟩ := hp
  exact forNext_rejects hb (runsQ_of_runs (relation_runs h1 h2 (w := w)
    (fun p hp => by rw [← once_item h3 (by simp) hp]; exact e2) (fun p hp => by rw [← once_item h3 (by simp) hp]; exact e3)
    (fun p hp => by rw [← once_item h3 (by simp) hp]; exact e4) (fun p hp => by rw [← once_item h3 (by simp) hp]; exact e5)
    (fun p hp => by rw [← once_item h3 (by simp) hp]; exact e6) Relation.zero)) (relation_rejects hf h)

theorem unknown_dense {w : DenseNodes} (hp : IsDense p w) (hf : IsField q f) (h : ¬ Only [] [1, 5, 8, 9, 10] [f])
    (hb : (Slice.mk (p ++ q ++ rest) sp).Fits) : ReadDenseNodes ⟨p ++ q ++ rest, sp⟩ = .panic := by
  obtain ⟨fs, h1, h2, h3, e2, e3, e4, e5⟩ := hp
  exact forNext_rejects hb (runsQ_of_runs (dense_runs h1 h2 (w := w)
    (fun p hp => by rw [← once_item h3 (by simp) hp]; exact e2) (fun p hp => by rw [← once_item h3 (by simp) hp]; exact e3)
    (fun p hp => by rw [← once_item h3 (by simp) hp]; exact e4) (fun p hp => by rw [← once_item h3 (by simp) hp]; exact e5)
    DenseNodes.zero)) (dense_rejects hf h)

theorem unknown_group (o : PBReader) {c : PrimitiveGroup} (hp : IsGroup p c) (hf : IsField q f) (h : ¬ Only [] [2, 3, 4, 5] [f])
    (hb : (Slice.mk (p ++ q ++ rest) sp).Fits) : ReadPrimitiveGroup o ⟨p ++ q ++ rest, sp⟩ = .panic := by
  obtain ⟨t', h1, _⟩ := group_after o hp
  exact forNext_rejects (q := trimGroup) hb h1 (group_rejects o hf h)

theorem unknown_block (o : PBReader) {c : PrimitiveBlock} (hp : IsBlock p c) (hf : IsField q f)
    (h : ¬ Only [17, 18, 19, 20] [1, 2] [f]) (hb : (Slice.mk (p ++ q ++ rest) sp).Fits) :
    ReadPrimitiveBlock o ⟨p ++ q ++ rest, sp⟩ = .panic := by
  obtain ⟨t', h1, _⟩ := block_after o hp
  exact forNext_rejects (q := trimBlock) (s := PrimitiveBlock.fresh) hb h1 (block_rejects o hf h)

theorem unknown_header {kind : GoStr} {size : Int32} (hp : IsBlobHeader p kind size) (hf : IsField q f) (h : ¬ Only [3] [1] [f])
    (hb : (Slice.mk (p ++ q ++ rest) sp).Fits) : ReadBlobHeader ⟨p ++ q ++ rest, sp⟩ = .panic := by
  obtain ⟨fs, h1, h2, _⟩ := hp
  exact forNext_rejects hb (runsQ_of_runs (header_runs h1 h2 ⟨[], 0⟩)) (header_rejects hf h)

theorem unknown_blob {raw zlib : Option (List UInt8)} {size : Option Int32} (hp : IsBlob p raw size zlib) (hf : IsField q f)
    (h : ¬ Only [2] [1, 3] [f]) (hb : (Slice.mk (p ++ q ++ rest) sp).Fits) : ReadBlob ⟨p ++ q ++ rest, sp⟩ = .panic := by
  obtain ⟨fs, h1, h2, _⟩ := hp
  exact forNext_rejects (q := trimBlob) hb (blob_runs h1 h2 Blob.zero) (blob_rejects hf h)

end Osm.Format
