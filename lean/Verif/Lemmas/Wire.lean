import Verif.Lemmas.Shape

namespace Osm.T
open Osm Osm.Spec Osm.Pb

/-! ### Unknown fields -/

/-- A decoded varint is the one standing there. -/
theorem decode_unique {buf : Slice} {n : Nat} {enc rest : List UInt8} {k : Nat} {v : UInt64} {j : Int}
    (hd : buf.bytes.drop n = enc ++ rest) (hv : IsVarint enc k)
    (h : DecodeVarInt buf n = .ok (v, j)) : v.toNat = k ∧ j = (n + enc.length : Nat) := by
  obtain ⟨enc', rest', hd', hv', _, rfl⟩ := isVarint_of_decode _ n v j h
  obtain ⟨rfl, rfl, _⟩ := isVarint_unique hv hv' (hd ▸ hd')
  exact ⟨rfl, rfl⟩

theorem drop_more {buf : Slice} {n : Nat} {a r : List UInt8} (hd : buf.bytes.drop n = a ++ r) :
    buf.bytes.drop (n + a.length) = r := by
  rw [← List.drop_drop, hd]; simp

theorem readBytes_unique {buf : Slice} (hb : buf.Fits) {n : Nat} {enc payload rest : List UInt8}
    (hd : buf.bytes.drop n = enc ++ (payload ++ rest)) (hv : IsVarint enc payload.length)
    {s : Slice} {j : Int} (h : ReadBytes buf n = .ok (s, j) ) :
    j = (n + enc.length + payload.length : Nat) := by
  unfold ReadBytes at h
  simp only [Res.bind_eq_ok] at h
  obtain ⟨⟨v, m⟩, h1, _, _, h3⟩ := h
  obtain ⟨e1, rfl⟩ := decode_unique hd hv h1
  simp at h3
  rw [← h3.2]
  have hlen := drop_len hd
  simp only [List.length_append] at hlen
  unfold Slice.Fits at hb
  have hpos := isVarint_length_pos hv
  have : v.toInt64.toInt = payload.length := by
    have := ofInt_toNat_small payload.length (by omega)
    rwa [← e1, UInt64.ofNat_toNat, e1] at this
  rw [this, goInt_small _ (by omega) (by omega)]
  omega

theorem skipBytes_unique {buf : Slice} (hb : buf.Fits) {n : Nat} {enc payload rest : List UInt8}
    (hd : buf.bytes.drop n = enc ++ (payload ++ rest)) (hv : IsVarint enc payload.length)
    {j : Int} (h : SkipBytes buf n = .ok j) :
    j = (n + enc.length + payload.length : Nat) := by
  unfold SkipBytes at h
  simp only [Res.bind_eq_ok] at h
  obtain ⟨⟨v, m⟩, h1, h3⟩ := h
  obtain ⟨e1, rfl⟩ := decode_unique hd hv h1
  simp at h3
  rw [← h3]
  have hlen := drop_len hd
  simp only [List.length_append] at hlen
  unfold Slice.Fits at hb
  have hpos := isVarint_length_pos hv
  have : v.toInt64.toInt = payload.length := by
    have := ofInt_toNat_small payload.length (by omega)
    rwa [← e1, UInt64.ofNat_toNat, e1] at this
  rw [this, goInt_small _ (by omega) (by omega)]
  omega

/-- A successful step over a well-formed field ends just after it. -/
theorem step_field {known skips : List Nat} {buf : Slice} (hb : buf.Fits) {n : Nat} {n' : Int}
    {f rest : List UInt8} (hf : WireField f) (hd : buf.bytes.drop n = f ++ rest)
    (h : StepShape known skips buf n n') : n' = (n + f.length : Nat) := by
  obtain ⟨k, m, hk, _, hcase⟩ := h
  cases hf with
  | varint tag val k' v ht hk0 hv =>
    rw [List.append_assoc] at hd
    obtain ⟨rfl, rfl⟩ := decode_unique hd ht hk
    rcases hcase with ⟨_, w, hw⟩ | ⟨h2, _⟩ | ⟨h2, _⟩
    · obtain ⟨_, rfl⟩ := decode_unique (drop_more hd) hv hw
      simp [Nat.add_assoc]
    · omega
    · omega
  | bytes tag len payload k' ht hk0 hv =>
    rw [List.append_assoc, List.append_assoc] at hd
    obtain ⟨rfl, rfl⟩ := decode_unique hd ht hk
    rcases hcase with ⟨h2, _⟩ | ⟨_, s, hs⟩ | ⟨_, _, hs⟩
    · omega
    · rw [readBytes_unique hb (drop_more hd) hv hs]; simp [Nat.add_assoc]
    · rw [skipBytes_unique hb (drop_more hd) hv hs]; simp [Nat.add_assoc]

theorem loop_unknown {σ : Type} {known skips : List Nat} {body : Slice → Int → σ → Res (σ × Int)}
    (hsh : BodyShape known skips body) {buf : Slice} (hb : buf.Fits) {tag rest : List UInt8} {k : Nat}
    (ht : IsVarint tag k) (hk : k ∉ known) :
    ∀ (fields : List (List UInt8)) (fuel n : Nat) (s r : σ), (∀ f ∈ fields, WireField f) →
      buf.bytes.drop n = fields.flatten ++ (tag ++ rest) →
      loopBytes buf (body buf) fuel n s ≠ .ok r := by
  intro fields
  induction fields with
  | nil =>
    intro fuel n s r _ hd h
    simp only [List.flatten_nil, List.nil_append] at hd
    cases fuel with
    | zero => simp [loopBytes] at h
    | succ fuel =>
      unfold loopBytes at h
      have hlen := drop_len hd
      have hpos := isVarint_length_pos ht
      simp only [List.length_append] at hlen
      rw [if_pos (by unfold Slice.len; omega), Res.bind_eq_ok] at h
      obtain ⟨⟨s', n'⟩, h1, _⟩ := h
      obtain ⟨k', m, hk', hmem, _⟩ := hsh _ _ _ _ _ h1
      obtain ⟨rfl, _⟩ := decode_unique hd ht hk'
      exact hk hmem
  | cons f fs ih =>
    intro fuel n s r hf hd h
    rw [List.flatten_cons, List.append_assoc] at hd
    cases fuel with
    | zero => simp [loopBytes] at h
    | succ fuel =>
      unfold loopBytes at h
      have hlen := drop_len hd
      have hpos := isVarint_length_pos ht
      simp only [List.length_append] at hlen
      rw [if_pos (by unfold Slice.len; omega), Res.bind_eq_ok] at h
      obtain ⟨⟨s', n'⟩, h1, h2⟩ := h
      have := step_field hb (hf f (by simp)) hd (hsh _ _ _ _ _ h1)
      subst this
      exact ih fuel _ s' r (fun g hg => hf g (by simp [hg])) (drop_more hd) h2

theorem forNext_unknown {σ : Type} {known skips : List Nat} {body : Slice → Int → σ → Res (σ × Int)}
    (hsh : BodyShape known skips body) {buf : Slice} (hb : buf.Fits) {fields : List (List UInt8)}
    {tag rest : List UInt8} {k : Nat} (hf : ∀ f ∈ fields, WireField f)
    (hd : buf.bytes = fields.flatten ++ (tag ++ rest))
    (ht : IsVarint tag k) (hk : k ∉ known) (s r : σ) : forNext buf (body buf) s ≠ .ok r :=
  loop_unknown hsh hb ht hk fields _ 0 s r hf (by simpa using hd)

/-! ### Termination -/

theorem skipBytes_ne_hang (b : Slice) (n : Int) : SkipBytes b n ≠ .hang := by
  unfold SkipBytes
  exact Res.bind_ne_hang (decode_ne_hang _ _) fun _ _ => by simp

theorem skipsForward_drop {arr : List UInt8} (h : SkipsForward arr) (i : Nat) :
    SkipsForward (arr.drop i) := by
  intro j tag len rest k m hd
  rw [List.drop_drop] at hd
  exact h _ tag len rest k m hd

theorem skipsForward_inner {buf s : Slice} {m j : Int} (h : SkipsForward (buf.bytes ++ buf.spare))
    (hr : ReadBytes buf m = .ok (s, j)) : SkipsForward (s.bytes ++ s.spare) := by
  unfold ReadBytes at hr
  simp only [Res.bind_eq_ok] at hr
  obtain ⟨⟨v, m'⟩, _, o, h3, h4⟩ := hr
  simp at h4
  obtain ⟨rfl, _⟩ := h4
  unfold Slice.sub at h3
  split at h3
  · next hc =>
    simp only [Res.ok.injEq] at h3
    subst h3
    have : ∀ (l : List UInt8) (a b : Nat), a ≤ b → (l.drop a).take (b - a) ++ l.drop b = l.drop a := by
      intro l a b hab
      conv => rhs; rw [← List.take_append_drop (b - a) (l.drop a)]
      rw [List.drop_drop, show a + (b - a) = b by omega]
    dsimp only at hc ⊢
    generalize goInt (m' + v.toInt64.toInt) = e at hc ⊢
    rw [this _ m'.toNat e.toNat (by omega)]
    exact skipsForward_drop h _
  · simp at h3

/-- With forward skips every successful step advances. -/
theorem step_advances {known skips : List Nat} (hs : ∀ k ∈ skips, k = 34 ∨ k = 42) {buf : Slice}
    (hb : buf.Fits) (hf : skips = [] ∨ SkipsForward (buf.bytes ++ buf.spare)) {n n' : Int}
    (h : StepShape known skips buf n n') : n < n' ∨ n' < 0 := by
  obtain ⟨k, m, hk, _, hcase⟩ := h
  have h1 := decode_advances hk
  rcases hcase with ⟨_, v, hv⟩ | ⟨_, s, hr⟩ | ⟨_, hmem, hsk⟩
  · have := decode_advances hv; left; omega
  · have := readBytes_advances hr; left; omega
  · rcases hf with rfl | hf
    · simp at hmem
    unfold SkipBytes at hsk
    simp only [Res.bind_eq_ok] at hsk
    obtain ⟨⟨v, j⟩, hv, h3⟩ := hsk
    simp at h3
    have h2 := decode_advances hv
    obtain ⟨n0, rfl⟩ : ∃ x : Nat, n = x := ⟨n.toNat, by omega⟩
    obtain ⟨tag, r1, hd1, hv1, _, rfl⟩ := isVarint_of_decode _ n0 k m hk
    obtain ⟨len, r2, hd2, hv2, _, rfl⟩ := isVarint_of_decode _ _ v j hv
    rw [drop_more hd1] at hd2
    subst hd2
    have hlt := hf n0 tag len (r2 ++ buf.spare) _ _ (by
      rw [List.drop_append_of_le_length (by unfold Slice.len at h1; omega), hd1]; simp) hv1
      (hs _ hmem) hv2
    have e : v.toInt64.toInt = v.toNat := by
      have := ofInt_toNat_small v.toNat hlt
      rwa [UInt64.ofNat_toNat] at this
    unfold Slice.Fits at hb
    unfold Slice.len at h1 h2
    rw [← h3, e]
    unfold goInt
    rw [Int.bmod_def]
    split <;> omega

/-- The general termination lemma. -/
theorem forNext_terminates {σ : Type} {known skips : List Nat}
    {body : Slice → Int → σ → Res (σ × Int)} (hsh : BodyShape known skips body)
    (hs : ∀ k ∈ skips, k = 34 ∨ k = 42) {buf : Slice} (hb : buf.Fits)
    (hf : skips = [] ∨ SkipsForward (buf.bytes ++ buf.spare)) (s : σ)
    (hbody : ∀ n s, body buf n s ≠ .hang)
    (hneg : ∀ n s, n < 0 → body buf n s = .panic) : forNext buf (body buf) s ≠ .hang :=
  forNext_ne_hang hbody hneg
    (fun _ _ _ _ _ _ h => step_advances hs hb hf (hsh _ _ _ _ _ h)) s

end Osm.T
