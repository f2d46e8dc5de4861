import Verif.Lemmas.Readers

namespace Osm.T
open Osm Osm.Spec Osm.Pb

/-- What a successful step of a message loop did: it read a tag among `known`, and then either a
varint (wire type 0), or a length-prefixed section (wire type 2), or skipped a section (only for
tags among `skips`). -/
def StepShape (known skips : List Nat) (buf : Slice) (n n' : Int) : Prop :=
  ∃ (k : UInt64) (m : Int), DecodeVarInt buf n = .ok (k, m) ∧ k.toNat ∈ known ∧
    ((k.toNat % 8 = 0 ∧ ∃ v, DecodeVarInt buf m = .ok (v, n')) ∨
     (k.toNat % 8 = 2 ∧ ∃ s, ReadBytes buf m = .ok (s, n')) ∨
     (k.toNat % 8 = 2 ∧ k.toNat ∈ skips ∧ SkipBytes buf m = .ok n'))

/-- Every successful step has that shape. -/
def BodyShape {σ : Type} (known skips : List Nat) (body : Slice → Int → σ → Res (σ × Int)) : Prop :=
  ∀ buf n s s' n', body buf n s = .ok (s', n') → StepShape known skips buf n n'

theorem packed_shape {α : Type} {conv : UInt64 → α} {buf : Slice} {m : Int} {out : List α} {n' : Int}
    (h : (ReadBytes buf m >>= fun x => packedLoop conv x.1 >>= fun o => Res.ok (o, x.2)) = .ok (out, n')) :
    ∃ s, ReadBytes buf m = .ok (s, n') := by
  simp only [Res.bind_eq_ok] at h
  obtain ⟨⟨s, j⟩, h1, _, _, h3⟩ := h
  simp at h3
  exact ⟨s, by rw [h1, h3.2]⟩

theorem u32_shape {buf : Slice} {m : Int} {out : List UInt32} {n' : Int}
    (h : DecodeU32Packed buf m = .ok (out, n')) : ∃ s, ReadBytes buf m = .ok (s, n') :=
  packed_shape (conv := fun v => v.toUInt32) h
theorem i32_shape {buf : Slice} {m : Int} {out : List Int32} {n' : Int}
    (h : DecodeI32Packed buf m = .ok (out, n')) : ∃ s, ReadBytes buf m = .ok (s, n') :=
  packed_shape (conv := fun v => v.toInt64.toInt32) h
theorem u64_shape {buf : Slice} {m : Int} {out : List UInt64} {n' : Int}
    (h : DecodeU64Packed buf m = .ok (out, n')) : ∃ s, ReadBytes buf m = .ok (s, n') :=
  packed_shape (conv := id) h
theorem delta_shape {buf : Slice} {m : Int} {out : List Int64} {n' : Int}
    (h : DecodeS64PackedDelta buf m = .ok (out, n')) : ∃ s, ReadBytes buf m = .ok (s, n') := by
  unfold DecodeS64PackedDelta DecodeBytes at h
  simp only [Res.bind_eq_ok] at h
  obtain ⟨⟨s, j⟩, h1, _, _, h3⟩ := h
  simp at h3
  exact ⟨s, by rw [h1, h3.2]⟩
theorem string_shape {buf : Slice} {m : Int} {out : GoStr} {n' : Int}
    (h : DecodeString buf m = .ok (out, n')) : ∃ s, ReadBytes buf m = .ok (s, n') := by
  unfold DecodeString DecodeBytes at h
  simp only [Res.bind_eq_ok] at h
  obtain ⟨⟨s, j⟩, h1, h3⟩ := h
  simp at h3
  exact ⟨s, by rw [h1, h3.2]⟩
theorem i64v_shape {buf : Slice} {m : Int} {out : Int64} {n' : Int}
    (h : DecodeI64 buf m = .ok (out, n')) : ∃ v, DecodeVarInt buf m = .ok (v, n') := by
  unfold DecodeI64 at h
  simp only [Res.bind_eq_ok] at h
  obtain ⟨⟨s, j⟩, h1, h3⟩ := h
  simp at h3
  exact ⟨s, by rw [h1, h3.2]⟩
theorem i32v_shape {buf : Slice} {m : Int} {out : Int32} {n' : Int}
    (h : DecodeI32 buf m = .ok (out, n')) : ∃ v, DecodeVarInt buf m = .ok (v, n') := by
  unfold DecodeI32 at h
  simp only [Res.bind_eq_ok] at h
  obtain ⟨⟨s, j⟩, h1, h3⟩ := h
  simp at h3
  exact ⟨s, by rw [h1, h3.2]⟩

theorem stringTable_shape : BodyShape [10] [] stringTableBody := by
  intro buf n s s' n' h
  unfold stringTableBody at h
  simp only [Res.bind_eq_ok] at h
  obtain ⟨⟨k, m⟩, hk, h⟩ := h
  refine ⟨k, m, hk, ?_⟩
  dsimp only at h
  split at h
  · next e =>
    subst e
    simp only [Res.bind_eq_ok] at h
    obtain ⟨⟨v, j⟩, h1, h2⟩ := h
    simp at h2
    obtain ⟨_, rfl⟩ := h2
    exact ⟨by decide, Or.inr (Or.inl ⟨by decide, string_shape h1⟩)⟩
  · simp at h

theorem way_shape : BodyShape [8, 18, 26, 34, 66] [34] wayBody := by
  intro buf n s s' n' h
  unfold wayBody at h
  simp only [Res.bind_eq_ok] at h
  obtain ⟨⟨k, m⟩, hk, h⟩ := h
  refine ⟨k, m, hk, ?_⟩
  dsimp only at h
  repeat' split at h
  all_goals first
    | (next e =>
        subst e
        simp only [Res.bind_eq_ok] at h
        first
        | (obtain ⟨⟨v, j⟩, h1, h2⟩ := h
           simp at h2
           obtain ⟨_, rfl⟩ := h2
           first
           | exact ⟨by decide, Or.inl ⟨by decide, i64v_shape h1⟩⟩
           | exact ⟨by decide, Or.inr (Or.inl ⟨by decide, u32_shape h1⟩)⟩
           | exact ⟨by decide, Or.inr (Or.inl ⟨by decide, delta_shape h1⟩)⟩)
        | (obtain ⟨j, h1, h2⟩ := h
           simp at h2
           obtain ⟨_, rfl⟩ := h2
           exact ⟨by decide, Or.inr (Or.inr ⟨by decide, by decide, h1⟩)⟩))
    | simp at h

theorem relation_shape : BodyShape [8, 18, 26, 34, 66, 74, 82] [34] relationBody := by
  intro buf n s s' n' h
  unfold relationBody at h
  simp only [Res.bind_eq_ok] at h
  obtain ⟨⟨k, m⟩, hk, h⟩ := h
  refine ⟨k, m, hk, ?_⟩
  dsimp only at h
  repeat' split at h
  all_goals first
    | (next e =>
        subst e
        simp only [Res.bind_eq_ok] at h
        first
        | (obtain ⟨⟨v, j⟩, h1, h2⟩ := h
           simp at h2
           obtain ⟨_, rfl⟩ := h2
           first
           | exact ⟨by decide, Or.inl ⟨by decide, i64v_shape h1⟩⟩
           | exact ⟨by decide, Or.inr (Or.inl ⟨by decide, u32_shape h1⟩)⟩
           | exact ⟨by decide, Or.inr (Or.inl ⟨by decide, i32_shape h1⟩)⟩
           | exact ⟨by decide, Or.inr (Or.inl ⟨by decide, u64_shape h1⟩)⟩
           | exact ⟨by decide, Or.inr (Or.inl ⟨by decide, delta_shape h1⟩)⟩)
        | (obtain ⟨j, h1, h2⟩ := h
           simp at h2
           obtain ⟨_, rfl⟩ := h2
           exact ⟨by decide, Or.inr (Or.inr ⟨by decide, by decide, h1⟩)⟩))
    | simp at h

theorem dense_shape : BodyShape [10, 42, 66, 74, 82] [42] denseBody := by
  intro buf n s s' n' h
  unfold denseBody at h
  simp only [Res.bind_eq_ok] at h
  obtain ⟨⟨k, m⟩, hk, h⟩ := h
  refine ⟨k, m, hk, ?_⟩
  dsimp only at h
  repeat' split at h
  all_goals first
    | (next e =>
        subst e
        simp only [Res.bind_eq_ok] at h
        first
        | (obtain ⟨⟨v, j⟩, h1, h2⟩ := h
           simp at h2
           obtain ⟨_, rfl⟩ := h2
           first
           | exact ⟨by decide, Or.inr (Or.inl ⟨by decide, i32_shape h1⟩)⟩
           | exact ⟨by decide, Or.inr (Or.inl ⟨by decide, delta_shape h1⟩)⟩)
        | (obtain ⟨j, h1, h2⟩ := h
           simp at h2
           obtain ⟨_, rfl⟩ := h2
           exact ⟨by decide, Or.inr (Or.inr ⟨by decide, by decide, h1⟩)⟩))
    | simp at h

theorem blobHeader_shape : BodyShape [10, 24] [] blobHeaderBody := by
  intro buf n s s' n' h
  unfold blobHeaderBody at h
  simp only [Res.bind_eq_ok] at h
  obtain ⟨⟨k, m⟩, hk, h⟩ := h
  refine ⟨k, m, hk, ?_⟩
  dsimp only at h
  repeat' split at h
  all_goals first
    | (next e =>
        subst e
        simp only [Res.bind_eq_ok] at h
        obtain ⟨⟨v, j⟩, h1, h2⟩ := h
        simp at h2
        obtain ⟨_, rfl⟩ := h2
        first
           | exact ⟨by decide, Or.inl ⟨by decide, i32v_shape h1⟩⟩
           | exact ⟨by decide, Or.inr (Or.inl ⟨by decide, string_shape h1⟩)⟩)
    | simp at h

theorem blob_shape : BodyShape [10, 16, 26] [] blobBody := by
  intro buf n s s' n' h
  unfold blobBody at h
  simp only [Res.bind_eq_ok] at h
  obtain ⟨⟨k, m⟩, hk, h⟩ := h
  refine ⟨k, m, hk, ?_⟩
  dsimp only at h
  repeat' split at h
  all_goals first
    | (next e =>
        subst e
        simp only [Res.bind_eq_ok] at h
        obtain ⟨⟨v, j⟩, h1, h2⟩ := h
        simp at h2
        obtain ⟨_, rfl⟩ := h2
        first
           | exact ⟨by decide, Or.inl ⟨by decide, i32v_shape h1⟩⟩
           | exact ⟨by decide, Or.inr (Or.inl ⟨by decide, ⟨v, h1⟩⟩)⟩)
    | simp at h

theorem group_shape (o : PBReader) : BodyShape [18, 26, 34, 42] [42] (groupBody o) := by
  intro buf n s s' n' h
  unfold groupBody at h
  simp only [Res.bind_eq_ok] at h
  obtain ⟨⟨k, m⟩, hk, h⟩ := h
  refine ⟨k, m, hk, ?_⟩
  dsimp only at h
  have key : ∀ {p : Slice × Int} {r : Int}, DecodeBytes buf m = .ok p → p.2 = r →
      ∃ s, ReadBytes buf m = .ok (s, r) := fun {p r} h1 h2 => ⟨p.1, by rw [← h2]; exact h1⟩
  split at h
  · simp at h
  split at h
  · next e =>
    subst e
    refine ⟨by decide, Or.inr (Or.inl ⟨by decide, ?_⟩)⟩
    split at h
    all_goals
      simp only [Res.bind_eq_ok] at h
      first
      | (obtain ⟨p, h1, h2⟩ := h; simp at h2; exact key h1 h2.2)
      | (obtain ⟨p, h1, _, _, h2⟩ := h; simp at h2; exact key h1 h2.2)
  split at h
  · next e =>
    subst e
    refine ⟨by decide, Or.inr (Or.inl ⟨by decide, ?_⟩)⟩
    split at h
    all_goals
      simp only [Res.bind_eq_ok] at h
      first
      | (obtain ⟨p, h1, h2⟩ := h; simp at h2; exact key h1 h2.2)
      | (obtain ⟨p, h1, _, _, h2⟩ := h; simp at h2; exact key h1 h2.2)
  split at h
  · next e =>
    subst e
    refine ⟨by decide, Or.inr (Or.inl ⟨by decide, ?_⟩)⟩
    split at h
    all_goals
      simp only [Res.bind_eq_ok] at h
      first
      | (obtain ⟨p, h1, h2⟩ := h; simp at h2; exact key h1 h2.2)
      | (obtain ⟨p, h1, _, _, h2⟩ := h; simp at h2; exact key h1 h2.2)
  split at h
  · next e =>
    subst e
    simp only [Res.bind_eq_ok] at h
    obtain ⟨j, h1, h2⟩ := h
    simp at h2
    obtain ⟨_, rfl⟩ := h2
    exact ⟨by decide, Or.inr (Or.inr ⟨by decide, by decide, h1⟩)⟩
  · simp at h

theorem block_shape (o : PBReader) : BodyShape [10, 18, 136, 144, 152, 160] [] (blockBody o) := by
  intro buf n s s' n' h
  unfold blockBody at h
  simp only [Res.bind_eq_ok] at h
  obtain ⟨⟨k, m⟩, hk, h⟩ := h
  refine ⟨k, m, hk, ?_⟩
  dsimp only at h
  have key : ∀ {p : Slice × Int} {r : Int}, DecodeBytes buf m = .ok p → p.2 = r →
      ∃ s, ReadBytes buf m = .ok (s, r) := fun {p r} h1 h2 => ⟨p.1, by rw [← h2]; exact h1⟩
  split at h
  · next e =>
    subst e
    refine ⟨by decide, Or.inr (Or.inl ⟨by decide, ?_⟩)⟩
    split at h
    all_goals
      simp only [Res.bind_eq_ok] at h
      first
      | (obtain ⟨p, h1, h2⟩ := h; simp at h2; exact key h1 h2.2)
      | (obtain ⟨p, h1, _, _, h2⟩ := h; simp at h2; exact key h1 h2.2)
  split at h
  · next e =>
    subst e
    refine ⟨by decide, Or.inr (Or.inl ⟨by decide, ?_⟩)⟩
    simp only [Res.bind_eq_ok] at h
    obtain ⟨p, h1, _, _, h2⟩ := h; simp at h2; exact key h1 h2.2
  repeat' split at h
  all_goals first
    | (next e =>
        subst e
        simp only [Res.bind_eq_ok] at h
        obtain ⟨⟨v, j⟩, h1, h2⟩ := h
        simp at h2
        obtain ⟨_, rfl⟩ := h2
        first
           | exact ⟨by decide, Or.inl ⟨by decide, i32v_shape h1⟩⟩
           | exact ⟨by decide, Or.inl ⟨by decide, i64v_shape h1⟩⟩)
    | simp at h

end Osm.T
