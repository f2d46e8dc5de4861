import Verif.Lemmas.Blocks
import Verif.Spec.OsmFormat

/-! # Reading messages as the format has them -/

namespace Osm.Format
open Osm Osm.Spec Osm.Spec.Proto Osm.Spec.OsmFormat Osm.Pb Osm.T

/-! ### Fields -/

section
variable {σ τ : Type} {q : σ → τ} {body : Slice → Int → σ → Res (σ × Int)}

theorem decode_varint {buf : Slice} {n : Nat} {enc rest : List UInt8} {m : Nat} (h : Varint enc m)
    (hd : buf.bytes.drop n = enc ++ rest) : DecodeVarInt buf n = .ok (UInt64.ofNat m, (n + enc.length : Nat)) :=
  decode_of_isVarint buf n enc rest m hd h.1 h.2.1 h.2.2

theorem varint_ne_nil {enc : List UInt8} {m : Nat} (h : Varint enc m) : enc ≠ [] := by
  have := isVarint_length_pos h.1
  rintro rfl
  simp at this

/-- What a loop body does with a number `v` in field `id`. -/
def TakesNumber (body : Slice → Int → σ → Res (σ × Int)) (id : UInt64) (v : Nat) (s s' : σ) : Prop :=
  ∀ (buf : Slice) (n m j : Nat), DecodeVarInt buf n = .ok (MakeIdType id PbVarInt, (m : Int)) →
    DecodeVarInt buf m = .ok (UInt64.ofNat v, (j : Int)) → body buf n s = .ok (s', (j : Int))

theorem runs_bytes {k : Nat} {id : UInt64} (hk : UInt64.ofNat (8 * k + 2) = MakeIdType id PbFixedBytes) {bs p : List UInt8}
    {s s' : σ} (hf : IsField bs (k, .bytes p)) (h : TakesSection body id p s s') : Runs body bs s s' := by
  cases hf with
  | bytes tag len b k ht hl =>
    apply runs_step (by simp [varint_ne_nil ht])
    intro buf n rest hb hd
    have hd' : buf.bytes.drop n = tag ++ (len ++ p ++ rest) := by simpa using hd
    have h1 := decode_varint ht hd'
    rw [hk] at h1
    have h2 : buf.bytes.drop (n + tag.length) = len ++ p ++ rest := drop_tag hd'
    rw [h buf n _ len rest h1 ⟨hb, hl.1, hl.2.1, h2⟩]
    simp [Nat.add_assoc]

theorem runs_num {k : Nat} {id : UInt64} (hk : UInt64.ofNat (8 * k + 0) = MakeIdType id PbVarInt) {bs : List UInt8} {v : Nat}
    {s s' : σ} (hf : IsField bs (k, .num v)) (h : TakesNumber body id v s s') : Runs body bs s s' := by
  cases hf with
  | num tag enc k n' ht hl =>
    apply runs_step (by simp [varint_ne_nil ht])
    intro buf n rest hb hd
    have hd' : buf.bytes.drop n = tag ++ (enc ++ rest) := by simpa using hd
    have h1 := decode_varint ht hd'
    rw [hk] at h1
    have h2 : buf.bytes.drop (n + tag.length) = enc ++ rest := drop_tag hd'
    have h3 := decode_varint hl h2
    rw [h buf n _ _ h1 h3]
    simp [Nat.add_assoc]

theorem runsQ_bytes {k : Nat} {id : UInt64} (hk : UInt64.ofNat (8 * k + 2) = MakeIdType id PbFixedBytes) {bs p : List UInt8}
    {t t' : τ} (hf : IsField bs (k, .bytes p)) (h : TakesSectionQ q body id p t t') : RunsQ q body bs t t' := by
  cases hf with
  | bytes tag len b k ht hl =>
    apply runsQ_step (by simp [varint_ne_nil ht])
    intro buf n rest hb hd s hs
    have hd' : buf.bytes.drop n = tag ++ (len ++ p ++ rest) := by simpa using hd
    have h1 := decode_varint ht hd'
    rw [hk] at h1
    have h2 : buf.bytes.drop (n + tag.length) = len ++ p ++ rest := drop_tag hd'
    obtain ⟨s', h3, h4⟩ := h buf n _ len rest h1 ⟨hb, hl.1, hl.2.1, h2⟩ s hs
    refine ⟨s', h3, ?_⟩
    rw [h4]
    simp [Nat.add_assoc]

theorem runsQ_num {k : Nat} {id : UInt64} (hk : UInt64.ofNat (8 * k + 0) = MakeIdType id PbVarInt) {bs : List UInt8} {v : Nat}
    {t t' : τ} (hf : IsField bs (k, .num v)) (h : ∀ s, q s = t → ∃ s', q s' = t' ∧ TakesNumber body id v s s') :
    RunsQ q body bs t t' := by
  cases hf with
  | num tag enc k n' ht hl =>
    apply runsQ_step (by simp [varint_ne_nil ht])
    intro buf n rest hb hd s hs
    have hd' : buf.bytes.drop n = tag ++ (enc ++ rest) := by simpa using hd
    have h1 := decode_varint ht hd'
    rw [hk] at h1
    have h2 : buf.bytes.drop (n + tag.length) = enc ++ rest := drop_tag hd'
    have h3 := decode_varint hl h2
    obtain ⟨s', h4, h5⟩ := h s hs
    refine ⟨s', h4, ?_⟩
    rw [h5 buf n _ _ h1 h3]
    simp [Nat.add_assoc]

end

/-! ### Packed lists -/

theorem runs_packedNums {α : Type} (conv : UInt64 → α) {p : List UInt8} {ns : List Nat} (h : IsPacked p ns) (out : List α) :
    Runs (packedBody conv) p out (out ++ ns.map fun n => conv (UInt64.ofNat n)) := by
  induction h generalizing out with
  | nil => simpa using runs_nil _ _
  | @cons bs rest n ns hv _ ih =>
    refine runs_append (s2 := out ++ [conv (UInt64.ofNat n)]) ?_ ?_
    · apply runs_step (varint_ne_nil hv)
      intro buf i rest _ hd
      unfold packedBody
      rw [decode_varint hv hd]
      rfl
    · have := ih (out ++ [conv (UInt64.ofNat n)])
      simpa using this

theorem packedLoop_nums {α : Type} (conv : UInt64 → α) {p : List UInt8} {ns : List Nat} (h : IsPacked p ns) (sp : List UInt8)
    (hb : (Slice.mk p sp).Fits) : packedLoop conv ⟨p, sp⟩ = .ok (ns.map fun n => conv (UInt64.ofNat n)) := by
  rw [packedLoop_eq]
  have := forNext_of_runs (body := packedBody conv) hb (runs_packedNums conv h [])
  simpa using this

variable {b : Slice} {n : Nat} {enc p rest : List UInt8}

theorem decodeU32Packed_of {vs : List UInt32} (hp : PackedU32 p vs) (h : Section b n enc p rest) :
    DecodeU32Packed b n = .ok (vs, (n + (enc ++ p).length : Nat)) := by
  obtain ⟨ns, h1, rfl⟩ := hp
  unfold DecodeU32Packed DecodeBytes
  rw [h.read]
  simp only [Res.ok_bind]
  rw [packedLoop_nums _ h1 _ h.innerFits]
  simp

theorem decodeI32Packed_of {vs : List Int32} (hp : PackedI32 p vs) (h : Section b n enc p rest) :
    DecodeI32Packed b n = .ok (vs, (n + (enc ++ p).length : Nat)) := by
  obtain ⟨ns, h1, rfl⟩ := hp
  unfold DecodeI32Packed DecodeBytes
  rw [h.read]
  simp only [Res.ok_bind]
  rw [packedLoop_nums _ h1 _ h.innerFits]
  simp [Int64.toInt32_ofNat']

theorem decodeU64Packed_of {vs : List UInt64} (hp : PackedEnum p vs) (h : Section b n enc p rest) :
    DecodeU64Packed b n = .ok (vs, (n + (enc ++ p).length : Nat)) := by
  obtain ⟨ns, h1, rfl⟩ := hp
  unfold DecodeU64Packed DecodeBytes
  rw [h.read]
  simp only [Res.ok_bind]
  rw [packedLoop_nums _ h1 _ h.innerFits]
  simp

theorem decodeZigZag_ofNat {n : Nat} (h : n < 2 ^ 64) : DecodeZigZag (UInt64.ofNat n) = Int64.ofInt (unzigzag n) := by
  have hr : -2 ^ 63 ≤ unzigzag n ∧ unzigzag n < 2 ^ 63 := by unfold unzigzag; split <;> omega
  have h1 : (Int64.ofInt (unzigzag n)).toInt = unzigzag n := Int64.toInt_ofInt_of_le hr.1 hr.2
  have h2 : EncodeZigZag (Int64.ofInt (unzigzag n)) = UInt64.ofNat n := by
    apply UInt64.toNat_inj.1
    rw [encodeZigZag_toNat, h1, UInt64.toNat_ofNat_of_lt' h]
    unfold zigzag unzigzag
    split <;> split at * <;> omega
  rw [← h2, decodeZigZag_encodeZigZag]

theorem runs_packedSums {p : List UInt8} {ns : List Nat} (h : IsPacked p ns) (last : Int) (out : List Int64) :
    ∃ last', Runs packedDeltaBody p (Int64.ofInt last, out)
      (last', out ++ (sums last (ns.map unzigzag)).map Int64.ofInt) := by
  induction h generalizing last out with
  | nil => exact ⟨_, by simpa [sums] using runs_nil _ _⟩
  | @cons bs rest n ns hv _ ih =>
    obtain ⟨last', h⟩ := ih (last + unzigzag n) (out ++ [Int64.ofInt (last + unzigzag n)])
    refine ⟨last', runs_append (s2 := (Int64.ofInt (last + unzigzag n), out ++ [Int64.ofInt (last + unzigzag n)])) ?_ ?_⟩
    · apply runs_step (varint_ne_nil hv)
      intro buf i rest _ hd
      unfold packedDeltaBody
      rw [decode_varint hv hd]
      simp only [Res.ok_bind, decodeZigZag_ofNat hv.2.2, ← Int64.ofInt_add]
    · simpa [sums] using h

theorem decodeS64PackedDelta_of {vs : List Int64} (hp : PackedDelta p vs) (h : Section b n enc p rest) :
    DecodeS64PackedDelta b n = .ok (vs, (n + (enc ++ p).length : Nat)) := by
  obtain ⟨ns, h1, rfl⟩ := hp
  unfold DecodeS64PackedDelta DecodeBytes
  rw [h.read]
  simp only [Res.ok_bind]
  obtain ⟨last', hr⟩ := runs_packedSums h1 0 []
  rw [packedDeltaLoop_eq]
  have := forNext_of_runs (body := packedDeltaBody) h.innerFits hr
  rw [show (Int64.ofInt 0) = 0 from rfl] at this
  rw [this]
  simp

end Osm.Format
