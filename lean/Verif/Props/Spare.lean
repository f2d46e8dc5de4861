import Verif.Lemmas.Spare

/-!
# C71: what is read does not depend on the memory behind it

`⟨bytes, spare⟩` is a Go slice with the visible `bytes`, and `spare` behind them up to its capacity: the rest of the
mapped file, or what an earlier user left in a pooled buffer.
-/

namespace Osm.Props
open Osm Osm.T Osm.Pb Osm.Spec Osm.Pbf

theorem grows_more (bytes spare more : List UInt8) : Grows ⟨bytes, spare⟩ ⟨bytes, spare ++ more⟩ := ⟨rfl, more, rfl⟩

theorem leads_get {α : Type} {x y : Res α} (h : Leads Eq x y) {a : α} (ha : x = .ok a) : y = .ok a := by
  obtain ⟨b, hb, rfl⟩ := h a ha
  exact hb

/-- C71: a block that parses parses to the same content with more memory behind it, whatever sections are skipped. -/
theorem C71_block (o : PBReader) (bytes spare more : List UInt8) (b : PrimitiveBlock)
    (h : ReadPrimitiveBlock o ⟨bytes, spare⟩ = .ok b) :
    ∃ b', ReadPrimitiveBlock o ⟨bytes, spare ++ more⟩ = .ok b' ∧ SameContent b' b :=
  grows_block o (grows_more bytes spare more) b h

/-- C71: so do the messages without raw parts, to the very same values. -/
theorem C71_messages (bytes spare more : List UInt8) :
    (∀ x, ReadStringTable ⟨bytes, spare⟩ = .ok x → ReadStringTable ⟨bytes, spare ++ more⟩ = .ok x) ∧
    (∀ x, ReadDenseNodes ⟨bytes, spare⟩ = .ok x → ReadDenseNodes ⟨bytes, spare ++ more⟩ = .ok x) ∧
    (∀ x, ReadWay ⟨bytes, spare⟩ = .ok x → ReadWay ⟨bytes, spare ++ more⟩ = .ok x) ∧
    (∀ x, ReadRelation ⟨bytes, spare⟩ = .ok x → ReadRelation ⟨bytes, spare ++ more⟩ = .ok x) ∧
    ∀ x, ReadBlobHeader ⟨bytes, spare⟩ = .ok x → ReadBlobHeader ⟨bytes, spare ++ more⟩ = .ok x :=
  have g := grows_more bytes spare more
  ⟨fun _ h => leads_get (grows_stringTable g) h, fun _ h => leads_get (grows_dense g) h, fun _ h => leads_get (grows_way g) h,
    fun _ h => leads_get (grows_relation g) h, fun _ h => leads_get (grows_blobHeader g) h⟩

/-- C71: and so does a whole stored block. If its bytes are a blob, and the payload of that blob is a primitive block,
both on their own, then it reads as that block wherever it lies in the file, into whatever pooled buffer it is
inflated, and however zlib delivers the data. -/
theorem C71_stored (inflate : Inflate) (o : PBReader) (bytes payload : List UInt8) (blob : Blob) (b : PrimitiveBlock)
    (h1 : ReadBlob ⟨bytes, []⟩ = .ok blob) (h2 : Payload inflate blob payload)
    (h3 : ReadPrimitiveBlock o ⟨payload, []⟩ = .ok b)
    (i : Nat) (behind : List UInt8) (sched : Sched) :
    ∃ raw b', rawOf inflate sched ⟨i, ⟨bytes, behind⟩, osmData⟩ = .ok raw ∧ ReadPrimitiveBlock o raw = .ok b' ∧
      SameContent b' b := by
  obtain ⟨blob', e1, e2⟩ := grows_blob (grows_more bytes [] behind) _ h1
  obtain ⟨raw, e3, e4, _⟩ := payload_raw sched (payload_trim e2 h2)
  obtain ⟨c', e5, e6⟩ := grows_block o (s := ⟨payload, []⟩) (t := raw) ⟨e4, raw.spare, rfl⟩ _ h3
  refine ⟨raw, c', ?_, e5, e6⟩
  unfold Pbf.rawOf
  dsimp only
  rw [List.nil_append] at e1
  rw [e1]
  exact e3

/-- C71 requires that the bytes parse on their own, with reason: a way whose last list is cut short is rejected on its
own, but accepted if memory follows, with keys taken from there. -/
theorem C71_cut_short :
    ReadWay ⟨[8, 5, 18, 2, 1], []⟩ = .panic ∧
    ReadWay ⟨[8, 5, 18, 2, 1], [7]⟩ = .ok ⟨5, [1, 7], [], []⟩ ∧
    ReadWay ⟨[8, 5, 18, 2, 1], [9, 9]⟩ = .ok ⟨5, [1, 9], [], []⟩ := by decide

/-- A stored block with a string table and a way, raw. -/
example : ∃ blob b, ReadBlob ⟨[10, 11, 10, 3, 10, 1, 65, 18, 4, 26, 2, 8, 5], []⟩ = .ok blob ∧
    Payload (fun _ => none) blob [10, 3, 10, 1, 65, 18, 4, 26, 2, 8, 5] ∧
    ReadPrimitiveBlock readAll ⟨[10, 3, 10, 1, 65, 18, 4, 26, 2, 8, 5], []⟩ = .ok b ∧
    b.StringTable = some ⟨[[65]]⟩ ∧ b.PrimitiveGroup.map (·.Ways) = [[⟨5, [], [], []⟩]] :=
  ⟨⟨some ⟨[10, 3, 10, 1, 65, 18, 4, 26, 2, 8, 5], []⟩, none, none⟩, _, by decide, .raw _ _ _, rfl, rfl, rfl⟩

end Osm.Props
