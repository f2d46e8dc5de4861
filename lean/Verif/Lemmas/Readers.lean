import Verif.Lemmas.Blocks

namespace Osm
open Osm.Spec Osm.Pb

theorem loopBytes_inv {σ : Type} {buf : Slice} {body : Int → σ → Res (σ × Int)} {I : σ → Prop}
    (h : ∀ n s s' n', I s → body n s = .ok (s', n') → I s') :
    ∀ fuel n s r, I s → loopBytes buf body fuel n s = .ok r → I r := by
  intro fuel
  induction fuel with
  | zero => intro n s r _ hr; simp [loopBytes] at hr
  | succ f ih =>
    intro n s r hs hr
    unfold loopBytes at hr
    split at hr
    · rw [Res.bind_eq_ok] at hr
      obtain ⟨⟨s', n'⟩, h1, h2⟩ := hr
      exact ih _ _ _ (h _ _ _ _ hs h1) h2
    · simp at hr; exact hr ▸ hs

theorem forNext_inv {σ : Type} {buf : Slice} {body : Int → σ → Res (σ × Int)} {I : σ → Prop}
    (h : ∀ n s s' n', I s → body n s = .ok (s', n') → I s') {s r : σ} (hs : I s)
    (hr : forNext buf body s = .ok r) : I r := loopBytes_inv h _ _ _ _ hs hr

theorem loopBytes_sim {σ τ : Type} {buf : Slice} {body1 : Int → σ → Res (σ × Int)}
    {body2 : Int → τ → Res (τ × Int)} {R : σ → τ → Prop}
    (h : ∀ n s t s' n', R s t → body1 n s = .ok (s', n') →
      ∃ t', body2 n t = .ok (t', n') ∧ R s' t') :
    ∀ fuel n s t r, R s t → loopBytes buf body1 fuel n s = .ok r →
      ∃ r', loopBytes buf body2 fuel n t = .ok r' ∧ R r r' := by
  intro fuel
  induction fuel with
  | zero => intro n s t r _ hr; simp [loopBytes] at hr
  | succ f ih =>
    intro n s t r hs hr
    unfold loopBytes at hr
    split at hr
    · next hn =>
      rw [Res.bind_eq_ok] at hr
      obtain ⟨⟨s', n'⟩, h1, h2⟩ := hr
      obtain ⟨t', h3, h4⟩ := h _ _ _ _ _ hs h1
      obtain ⟨r', h5, h6⟩ := ih _ _ _ _ h4 h2
      refine ⟨r', ?_, h6⟩
      unfold loopBytes
      rw [if_pos hn, h3]
      exact h5
    · next hn =>
      simp at hr
      subst hr
      exact ⟨t, by unfold loopBytes; rw [if_neg hn], hs⟩

theorem forNext_sim {σ τ : Type} {buf : Slice} {body1 : Int → σ → Res (σ × Int)}
    {body2 : Int → τ → Res (τ × Int)} {R : σ → τ → Prop}
    (h : ∀ n s t s' n', R s t → body1 n s = .ok (s', n') →
      ∃ t', body2 n t = .ok (t', n') ∧ R s' t') {s : σ} {t : τ} {r : σ} (hs : R s t)
    (hr : forNext buf body1 s = .ok r) : ∃ r', forNext buf body2 t = .ok r' ∧ R r r' :=
  loopBytes_sim h _ _ _ _ _ hs hr

/-- A loop whose body always advances (or whose cursor leaves the slice to the left, where the
next read panics) does not hang. -/
theorem loopBytes_ne_hang {σ : Type} {buf : Slice} {body : Int → σ → Res (σ × Int)}
    (h1 : ∀ n s, body n s ≠ .hang) (hneg : ∀ n s, n < 0 → body n s = .panic)
    (h2 : ∀ n s s' n', 0 ≤ n → n < buf.len → body n s = .ok (s', n') → n < n' ∨ n' < 0) :
    ∀ (fuel : Nat) (n : Int) s, 0 < fuel → ((buf.bytes.length : Int) - n < fuel ∨ n < 0) →
      loopBytes buf body fuel n s ≠ .hang := by
  intro fuel
  induction fuel with
  | zero => intro n s h; omega
  | succ f ih =>
    intro n s _ h
    unfold loopBytes
    by_cases hn0 : n < 0
    · rw [hneg n s hn0]; split <;> simp
    · split
      · next hn =>
        cases hb : body n s with
        | hang => exact absurd hb (h1 n s)
        | panic => simp
        | ok r =>
          simp only [Res.ok_bind]
          have := h2 n s r.1 r.2 (by omega) hn hb
          unfold Slice.len at hn
          exact ih _ _ (by omega) (by omega)
      · simp

theorem forNext_ne_hang {σ : Type} {buf : Slice} {body : Int → σ → Res (σ × Int)}
    (h1 : ∀ n s, body n s ≠ .hang) (hneg : ∀ n s, n < 0 → body n s = .panic)
    (h2 : ∀ n s s' n', 0 ≤ n → n < buf.len → body n s = .ok (s', n') → n < n' ∨ n' < 0) (s : σ) :
    forNext buf body s ≠ .hang :=
  loopBytes_ne_hang h1 hneg h2 _ _ _ (by omega) (by omega)

theorem Res.bind_ne_hang {α β : Type} {x : Res α} {f : α → Res β} (hx : x ≠ .hang)
    (hf : ∀ a, x = .ok a → f a ≠ .hang) : (x >>= f) ≠ .hang := by
  cases x with
  | ok a => exact hf a rfl
  | panic => simp
  | hang => exact absurd rfl hx

end Osm

namespace Osm.Pb
open Osm Osm.Spec

theorem sub_ne_hang (b : Slice) (i j : Int) : b.sub i j ≠ .hang := by
  unfold Slice.sub; split <;> simp

theorem readBytes_ne_hang (b : Slice) (n : Int) : ReadBytes b n ≠ .hang := by
  unfold ReadBytes
  refine Res.bind_ne_hang (decode_ne_hang _ _) fun a _ => ?_
  exact Res.bind_ne_hang (sub_ne_hang _ _ _) fun _ _ => by simp

theorem decode_advances {b : Slice} {n : Int} {v : UInt64} {j : Int}
    (h : DecodeVarInt b n = .ok (v, j)) : 0 ≤ n ∧ n < j ∧ j ≤ b.len := by
  by_cases hn : n < 0
  · rw [decode_neg b n hn] at h; simp at h
  · obtain ⟨m, rfl⟩ : ∃ m : Nat, n = m := ⟨n.toNat, by omega⟩
    obtain ⟨enc, rest, hd, hv, hl, rfl⟩ := isVarint_of_decode b m v j h
    have hlen := drop_len hd
    have hpos := isVarint_length_pos hv
    simp only [List.length_append] at hlen
    refine ⟨by omega, by omega, by unfold Slice.len; omega⟩

theorem readBytes_advances {b : Slice} {n : Int} {s : Slice} {j : Int}
    (h : ReadBytes b n = .ok (s, j)) :
    0 ≤ n ∧ n < j ∧ s.bytes.length + s.spare.length ≤ b.bytes.length + b.spare.length := by
  unfold ReadBytes at h
  rw [Res.bind_eq_ok] at h
  obtain ⟨⟨v, m⟩, h1, h2⟩ := h
  have := decode_advances h1
  simp only [Res.bind_eq_ok] at h2
  obtain ⟨o, h3, h4⟩ := h2
  simp only [Res.ok.injEq, Prod.mk.injEq] at h4
  obtain ⟨rfl, rfl⟩ := h4
  unfold Slice.sub at h3
  split at h3
  · next hc =>
    simp only [Res.ok.injEq] at h3
    subst h3
    simp only [List.length_take, List.length_drop, List.length_append]
    omega
  · simp at h3

theorem readBytes_fits {b : Slice} {n : Int} {s : Slice} {j : Int} (hb : b.Fits)
    (h : ReadBytes b n = .ok (s, j)) : s.Fits := by
  have := readBytes_advances h
  unfold Slice.Fits at *
  omega

theorem packedLoop_ne_hang {α : Type} (conv : UInt64 → α) (inner : Slice) :
    packedLoop conv inner ≠ .hang := by
  rw [packedLoop_eq]
  refine forNext_ne_hang ?_ ?_ ?_ _
  · intro n s
    unfold packedBody
    exact Res.bind_ne_hang (decode_ne_hang _ _) fun _ _ => by simp
  · intro n s hn
    unfold packedBody
    rw [decode_neg _ _ hn]; rfl
  · intro n s s' n' _ _ h
    unfold packedBody at h
    rw [Res.bind_eq_ok] at h
    obtain ⟨⟨v, j⟩, h1, h2⟩ := h
    simp at h2
    have := decode_advances h1
    left; omega

theorem packedDeltaLoop_ne_hang (inner : Slice) : packedDeltaLoop inner ≠ .hang := by
  rw [packedDeltaLoop_eq]
  refine forNext_ne_hang ?_ ?_ ?_ _
  · intro n s
    unfold packedDeltaBody
    exact Res.bind_ne_hang (decode_ne_hang _ _) fun _ _ => by simp
  · intro n s hn
    unfold packedDeltaBody
    rw [decode_neg _ _ hn]; rfl
  · intro n s s' n' _ _ h
    unfold packedDeltaBody at h
    rw [Res.bind_eq_ok] at h
    obtain ⟨⟨v, j⟩, h1, h2⟩ := h
    simp at h2
    have := decode_advances h1
    left; omega

theorem deltaZeroLoop_ne_hang (buf : Slice) : ∀ (fuel : Nat) (n : Int) (last : Int64)
    (out : List Int64), 0 < fuel → (buf.bytes.length : Int) - n < fuel →
    deltaZeroLoop buf fuel n last out ≠ .hang := by
  intro fuel
  induction fuel with
  | zero => intro n last out h; omega
  | succ f ih =>
    intro n last out _ h
    unfold deltaZeroLoop
    split
    · next hn =>
      refine Res.bind_ne_hang (decode_ne_hang _ _) fun a ha => ?_
      have := decode_advances ha
      dsimp only
      unfold Slice.len at hn
      split
      · simp
      · exact ih _ _ _ (by omega) (by omega)
    · simp

end Osm.Pb
