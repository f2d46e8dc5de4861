import Verif.Spec.Utf8Bar
import Verif.Model.Ui
import Verif.Lemmas.TextFind

/-! # Lemmas about lines with any characters -/

namespace Osm.Utf8Bar
open Osm Osm.Spec Osm.Ui

/-! ## UTF-8 -/

/-- The bytes of a character: how many there are is told by the first one, the others are of no use for that. -/
theorem encode_shape (c : Char) : ∃ h t, String.utf8EncodeChar c = h :: t ∧ (∀ x ∈ t, 128 ≤ x.toNat ∧ x.toNat < 192) ∧
    (h.toNat < 128 ∧ h.toNat = c.toNat ∧ t.length = 0 ∨ 192 ≤ h.toNat ∧ h.toNat < 224 ∧ t.length = 1 ∨ 224 ≤ h.toNat ∧ h.toNat < 240 ∧ t.length = 2 ∨
      240 ≤ h.toNat ∧ t.length = 3) := by
  have hc : c.toNat = c.val.toNat := rfl
  have hlt := TextFind.toNat_lt c
  have hv : c.val.toNat < 0x110000 := by
    rcases c.valid with h | h
    · have : c.val.toNat < 0xd800 := h
      omega
    · have : c.val.toNat < 0x110000 := h.2
      exact this
  unfold String.utf8EncodeChar
  dsimp only
  generalize c.val.toNat = v at *
  split
  · exact ⟨_, _, rfl, by simp, .inl ⟨by simp; omega, by simp; omega, rfl⟩⟩
  · split
    · refine ⟨_, _, rfl, ?_, .inr (.inl ⟨by simp; omega, by simp; omega, rfl⟩)⟩
      intro x hx
      simp only [List.mem_cons, List.not_mem_nil, or_false] at hx
      rcases hx with rfl
      simp; omega
    · split
      · refine ⟨_, _, rfl, ?_, .inr (.inr (.inl ⟨by simp; omega, by simp; omega, rfl⟩))⟩
        intro x hx
        simp only [List.mem_cons, List.not_mem_nil, or_false] at hx
        rcases hx with rfl | rfl <;> (simp; omega)
      · refine ⟨_, _, rfl, ?_, .inr (.inr (.inr ⟨by simp; omega, rfl⟩))⟩
        intro x hx
        simp only [List.mem_cons, List.not_mem_nil, or_false] at hx
        rcases hx with rfl | rfl | rfl <;> (simp; omega)

theorem firstChar_some {s : List UInt8} {c : Char} (h : firstChar s = some c) : ∃ r, s = String.utf8EncodeChar c ++ r :=
  TextFind.decodeRune_some h

theorem firstChar_encode (c : Char) (r : List UInt8) : firstChar (String.utf8EncodeChar c ++ r) = some c := by
  unfold firstChar
  rw [List.toByteArray_append]
  exact ByteArray.utf8DecodeChar?_utf8EncodeChar_append

/-- A byte from the inside of a character is not the start of one. -/
theorem firstChar_inside {b : UInt8} (h : 128 ≤ b.toNat) (h' : b.toNat < 192) (s : List UInt8) : firstChar (b :: s) = none := by
  cases hf : firstChar (b :: s) with
  | none => rfl
  | some c =>
    obtain ⟨r, hr⟩ := firstChar_some hf
    obtain ⟨x, t, e, _, hx⟩ := encode_shape c
    rw [e, List.cons_append, List.cons.injEq] at hr
    rw [← hr.1] at hx
    omega

/-- A character that is cut off is none. -/
theorem firstChar_cut {c : Char} {k : Nat} (h0 : 0 < k) (hk : k < c.utf8Size) {b : UInt8} (hb : b.toNat < 128) (s : List UInt8) :
    firstChar ((String.utf8EncodeChar c).take k ++ b :: s) = none := by
  cases hf : firstChar ((String.utf8EncodeChar c).take k ++ b :: s) with
  | none => rfl
  | some d =>
    obtain ⟨r, hr⟩ := firstChar_some hf
    obtain ⟨x, t, e, ht, hx⟩ := encode_shape c
    obtain ⟨y, u, e', hu, hy⟩ := encode_shape d
    have hl := String.length_utf8EncodeChar c
    rw [e, List.length_cons] at hl
    obtain ⟨k, rfl⟩ : ∃ j, k = j + 1 := ⟨k - 1, by omega⟩
    rw [e, e', List.take_succ_cons, List.cons_append, List.cons_append, List.cons.injEq] at hr
    obtain ⟨rfl, hr⟩ := hr
    have hlen : u.length = t.length := by omega
    have hb' : (t.take k ++ b :: s)[k]? = some b := by
      rw [List.getElem?_append_right (by rw [List.length_take]; omega), List.length_take, Nat.min_eq_left (by omega), Nat.sub_self]
      rfl
    rw [hr, List.getElem?_append_left (by omega)] at hb'
    have := hu b (List.mem_of_getElem? hb')
    omega

/-! ## Reading bytes -/

theorem runes_skip (p r : List UInt8) : runes p.length (p ++ r) = runes 0 r := by
  induction p with
  | nil => rfl
  | cons b p ih => exact ih

theorem runes_char (c : Char) (r : List UInt8) : runes 0 (String.utf8EncodeChar c ++ r) = c :: runes 0 r := by
  have hf := firstChar_encode c r
  have hl := String.length_utf8EncodeChar c
  obtain ⟨h, t, e, _⟩ := encode_shape c
  rw [e] at hf hl ⊢
  rw [List.cons_append] at hf ⊢
  rw [runes, hf]
  dsimp only
  rw [← hl, List.length_cons, Nat.add_sub_cancel, runes_skip]

theorem runes_text (a : List Char) (r : List UInt8) : runes 0 (utf8 a ++ r) = a ++ runes 0 r := by
  induction a with
  | nil => rfl
  | cons c a ih =>
    have : utf8 (c :: a) = String.utf8EncodeChar c ++ utf8 a := rfl
    rw [this, List.append_assoc, runes_char, ih]
    rfl

theorem runes_inside (p r : List UInt8) (h : ∀ x ∈ p, 128 ≤ x.toNat ∧ x.toNat < 192) :
    runes 0 (p ++ r) = List.replicate p.length garbage ++ runes 0 r := by
  induction p with
  | nil => rfl
  | cons b p ih =>
    have hb := h b (.head _)
    rw [List.cons_append, runes, firstChar_inside hb.1 hb.2]
    dsimp only
    rw [ih fun x hx => h x (.tail _ hx)]
    rfl

theorem tail_inside (c : Char) {k : Nat} (h0 : 0 < k) : ∀ x ∈ (String.utf8EncodeChar c).drop k, 128 ≤ x.toNat ∧ x.toNat < 192 := by
  obtain ⟨h, t, e, ht, _⟩ := encode_shape c
  obtain ⟨k, rfl⟩ : ∃ j, k = j + 1 := ⟨k - 1, by omega⟩
  rw [e, List.drop_succ_cons]
  exact fun x hx => ht x (List.mem_of_mem_drop hx)

theorem runes_cut (c : Char) {k : Nat} (h0 : 0 < k) (hk : k < c.utf8Size) {b : UInt8} (hb : b.toNat < 128) (s : List UInt8) :
    runes 0 ((String.utf8EncodeChar c).take k ++ b :: s) = List.replicate k garbage ++ runes 0 (b :: s) := by
  have hf := firstChar_cut h0 hk hb s
  have hl := String.length_utf8EncodeChar c
  obtain ⟨h, t, e, ht, _⟩ := encode_shape c
  obtain ⟨k, rfl⟩ : ∃ j, k = j + 1 := ⟨k - 1, by omega⟩
  rw [e, List.length_cons] at hl
  rw [e, List.take_succ_cons, List.cons_append] at hf ⊢
  rw [runes, hf]
  dsimp only
  rw [runes_inside _ _ fun x hx => ht x (List.mem_of_mem_take hx), List.length_take, Nat.min_eq_left (by omega)]
  rfl

/-! ## Markup -/

/-- Percent signs doubled. -/
def esc (t : List Char) : List Char := t.flatMap fun c => if c = '%' then ['%', '%'] else [c]

theorem utf8_append (a b : List Char) : utf8 (a ++ b) = utf8 a ++ utf8 b := List.flatMap_append

theorem escape_append (a b : List UInt8) : EscapePercent (a ++ b) = EscapePercent a ++ EscapePercent b := List.flatMap_append

theorem escape_none {p : List UInt8} (h : ∀ x ∈ p, 128 ≤ x.toNat) : EscapePercent p = p := by
  induction p with
  | nil => rfl
  | cons b p ih =>
    have hb := h b (.head _)
    have : b ≠ percent := by rintro rfl; revert hb; decide
    have e : EscapePercent (b :: p) = (if b = percent then [percent, percent] else [b]) ++ EscapePercent p := rfl
    rw [e, if_neg this, ih fun x hx => h x (.tail _ hx)]
    rfl

theorem escape_char (c : Char) : EscapePercent (String.utf8EncodeChar c) = utf8 (if c = '%' then ['%', '%'] else [c]) := by
  by_cases h : c = '%'
  · subst h; rfl
  · rw [if_neg h]
    have e2 : utf8 [c] = String.utf8EncodeChar c := by unfold utf8; simp
    rw [e2]
    obtain ⟨x, t, e, ht, hx⟩ := encode_shape c
    rw [e]
    have : EscapePercent (x :: t) = (if x = percent then [percent, percent] else [x]) ++ EscapePercent t := rfl
    rw [this, escape_none fun y hy => (ht y hy).1, if_neg]
    · rfl
    · rintro rfl
      rcases hx with hx | hx | hx | hx
      · refine h (Char.ext (UInt32.toNat_inj.1 ?_))
        exact hx.2.1.symm
      all_goals exact absurd hx.1 (by decide)

theorem escape_text (a : List Char) : EscapePercent (utf8 a) = utf8 (esc a) := by
  induction a with
  | nil => rfl
  | cons c a ih =>
    have e1 : utf8 (c :: a) = String.utf8EncodeChar c ++ utf8 a := rfl
    have e2 : esc (c :: a) = (if c = '%' then ['%', '%'] else [c]) ++ esc a := rfl
    rw [e1, e2, escape_append, escape_char, utf8_append, ih]

theorem shownRunes_cons {st c : Char} (h : c ≠ '%') (rest : List Char) : shownRunes st (c :: rest) = (st, c) :: shownRunes st rest := by
  cases rest with
  | nil => exact if_neg h
  | cons d rest => rw [shownRunes, if_neg h]

theorem shownRunes_esc (st : Char) (a rest : List Char) : shownRunes st (esc a ++ rest) = a.map (fun c => (st, c)) ++ shownRunes st rest := by
  induction a with
  | nil => rfl
  | cons c a ih =>
    have e2 : esc (c :: a) = (if c = '%' then ['%', '%'] else [c]) ++ esc a := rfl
    rw [e2, List.append_assoc]
    by_cases h : c = '%'
    · subst h
      rw [if_pos rfl]
      show shownRunes st ('%' :: '%' :: (esc a ++ rest)) = _
      rw [shownRunes, if_pos rfl, if_pos rfl, ih]
      rfl
    · rw [if_neg h]
      show shownRunes st (c :: (esc a ++ rest)) = _
      rw [shownRunes_cons h, ih]
      rfl

theorem shownRunes_garbage (st : Char) (k : Nat) (rest : List Char) :
    shownRunes st (List.replicate k garbage ++ rest) = List.replicate k (st, garbage) ++ shownRunes st rest := by
  induction k with
  | zero => rfl
  | succ k ih =>
    rw [List.replicate_succ, List.replicate_succ, List.cons_append, shownRunes_cons (by decide), ih]
    rfl

theorem shownRunes_style {st d : Char} (h : d ≠ '%') (rest : List Char) : shownRunes st ('%' :: d :: rest) = shownRunes d rest := by
  rw [shownRunes, if_pos rfl, if_neg h]

theorem utf8_spaces (n : Nat) : utf8 (List.replicate n ' ') = List.replicate n space := by
  induction n with
  | zero => rfl
  | succ n ih =>
    have : utf8 (' ' :: List.replicate n ' ') = space :: utf8 (List.replicate n ' ') := rfl
    rw [List.replicate_succ, List.replicate_succ, this, ih]

theorem padRight_text (t : List Char) (w : Nat) : padRight (utf8 t) w = utf8 (widened t w) := by
  unfold padRight widened
  rw [utf8_append, utf8_spaces]
  split
  · next h => congr 2; omega
  · next h =>
    rw [show w - (utf8 t).length = 0 by omega]
    simp

end Osm.Utf8Bar
