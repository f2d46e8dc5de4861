import Verif.Model.TextFind
import Verif.Spec.TextFind
import Verif.Lemmas.Text

/-! # Lemmas about what entityfind prints -/

namespace Osm.TextFind
open Osm Osm.T Osm.Text Osm.Spec.Text
local notation "Text" => List Char

/-! ## Strings -/

theorem hexDigits_length (k n : Nat) : (hexDigits k n).length = k := by
  induction k generalizing n with
  | zero => rfl
  | succ k ih => rw [hexDigits, List.length_append, ih]; rfl

theorem hexDigits_value (k n : Nat) (h : n < 16 ^ k) : positional 16 (hexDigits k n) = n := by
  induction k generalizing n with
  | zero =>
    rw [Nat.pow_zero] at h
    obtain rfl : n = 0 := by omega
    rfl
  | succ k ih =>
    rw [Nat.pow_succ] at h
    rw [hexDigits, positional_append, ih _ (by omega), digitValue_digitChar _ (by omega)]
    omega

theorem hexDigits_mem (k n : Nat) : ∀ c ∈ hexDigits k n, c ∈ "0123456789abcdef".toList := by
  induction k generalizing n with
  | zero => intro c hc; cases hc
  | succ k ih =>
    intro c hc
    rw [hexDigits, List.mem_append, List.mem_singleton] at hc
    rcases hc with hc | rfl
    · exact ih _ c hc
    · exact digitChar_mem _ (by omega)

theorem hexDigits_says (k n : Nat) (hk : 0 < k) (h : n < 16 ^ k) : Hex (hexDigits k n) n := by
  have := Hex.mk (t := hexDigits k n) (fun he => by
    have := hexDigits_length k n
    rw [he] at this
    simp at this
    omega) (hexDigits_mem k n)
  rwa [hexDigits_value k n h] at this

theorem encode_ascii (c : Char) (h : c.toNat < 128) : String.utf8EncodeChar c = [UInt8.ofNat c.toNat] := by
  unfold String.utf8EncodeChar
  have : c.val.toNat = c.toNat := rfl
  rw [this]
  simp only [show c.toNat ≤ 127 by omega, if_true]

theorem char_of (c : Char) (n : Nat) (h : c.toNat = n) : c = Char.ofNat n := by
  rw [← h, Char.ofNat_toNat]

theorem toNat_lt (c : Char) : c.toNat < 16 ^ 8 := by
  have := c.val.toNat_lt
  have : c.toNat = c.val.toNat := rfl
  omega

theorem escaped_says (P : Printing) (c : Char) :
    Piece (escaped P c) (String.utf8EncodeChar c) := by
  unfold escaped
  split
  · next h =>
    rcases h with rfl | rfl
    · exact .escape (b := 34) (by decide)
    · exact .escape (b := 92) (by decide)
  · next h =>
    have h' := not_or.1 h
    split
    · next hp =>
      refine .plain h'.1 h'.2 fun hn => ?_
      rw [hn, P.newline] at hp
      cases hp
    · iterate 7 (
        split
        · next hc =>
          rw [char_of c _ hc]
          exact .escape (by decide))
      split
      · next hc =>
        rw [encode_ascii c (by omega)]
        refine .byte ?_ (hexDigits_length _ _)
        rw [UInt8.toNat_ofNat', Nat.mod_eq_of_lt (by omega)]
        exact hexDigits_says 2 _ (by omega) (by omega)
      · split
        · exact .short (hexDigits_says 4 _ (by omega) (by omega)) (hexDigits_length _ _)
        · exact .long (hexDigits_says 8 _ (by omega) (toNat_lt c)) (hexDigits_length _ _)

theorem quotedBytes_drop (P : Printing) (k : Nat) (s : List UInt8) : quotedBytes P k s = quotedBytes P 0 (s.drop k) := by
  induction k generalizing s with
  | zero => rfl
  | succ k ih =>
    cases s with
    | nil => rfl
    | cons b s => exact ih s

theorem decodeRune_some {s : List UInt8} {c : Char} (h : decodeRune s = some c) : ∃ r, s = String.utf8EncodeChar c ++ r := by
  obtain ⟨l, hl⟩ := ByteArray.exists_of_utf8DecodeChar?_eq_some h
  refine ⟨l.data.toList, ?_⟩
  have := congrArg (fun b : ByteArray => b.data.toList) hl
  simpa using this

theorem quotedBytes_says (P : Printing) (s : List UInt8) : Pieces (quotedBytes P 0 s) s := by
  induction hn : s.length using Nat.strongRecOn generalizing s with
  | ind n ih =>
    cases s with
    | nil => exact .nil
    | cons b s =>
      rw [quotedBytes]
      split
      · have := Pieces.cons (.byte (b := b) (hexDigits_says 2 _ (by omega) (by have := b.toNat_lt; omega)) (hexDigits_length _ _))
          (ih s.length (by rw [← hn]; simp) s rfl)
        exact this
      · next c hc =>
        obtain ⟨r, hr⟩ := decodeRune_some hc
        have hlen : (String.utf8EncodeChar c).length = c.utf8Size := String.length_utf8EncodeChar c
        have hpos : 0 < c.utf8Size := Char.utf8Size_pos c
        rw [quotedBytes_drop]
        have hd : s.drop (c.utf8Size - 1) = r := by
          have : (b :: s).drop c.utf8Size = r := by
            rw [hr, ← hlen, List.drop_left]
          rwa [show c.utf8Size = (c.utf8Size - 1) + 1 by omega, List.drop_succ_cons] at this
        rw [hd, hr]
        refine .cons (escaped_says P c) (ih r.length ?_ r rfl)
        rw [← hn, hr, List.length_append, hlen]
        omega

theorem quote_says (P : Printing) (s : GoStr) : Quoted (quote P s) s :=
  .mk (quotedBytes_says P s)

/-! ## A string can be read in only one way, and one sees where it ends -/

theorem hex_prefix {h h' u u' : Text} {n n' : Nat} (a : Hex h n) (a' : Hex h' n') (hl : h.length = h'.length)
    (he : h ++ u = h' ++ u') : n = n' ∧ u = u' := by
  obtain ⟨e1, e2⟩ := List.append_inj he hl
  subst e1
  exact ⟨Hex.unique a a', e2⟩

theorem piece_unique {t t' u u' : Text} {b b' : List UInt8} (h : Piece t b) (h' : Piece t' b') (he : t ++ u = t' ++ u') :
    b = b' ∧ u = u' := by
  cases h with
  | plain c1 c2 c3 =>
    cases h' with
    | plain => simp only [List.cons_append, List.nil_append, List.cons.injEq] at he; obtain ⟨rfl, rfl⟩ := he; exact ⟨rfl, rfl⟩
    | escape => simp only [List.cons_append, List.nil_append, List.cons.injEq] at he; exact absurd he.1 c2
    | byte => simp only [List.cons_append, List.cons.injEq] at he; exact absurd he.1 c2
    | short => simp only [List.cons_append, List.cons.injEq] at he; exact absurd he.1 c2
    | long => simp only [List.cons_append, List.cons.injEq] at he; exact absurd he.1 c2
  | @escape c d hm =>
    cases h' with
    | plain c1 c2 c3 => simp only [List.cons_append, List.cons.injEq] at he; exact absurd he.1.symm c2
    | @escape c' d' hm' =>
      simp only [List.cons_append, List.nil_append, List.cons.injEq, true_and] at he
      obtain ⟨rfl, rfl⟩ := he
      refine ⟨?_, rfl⟩
      simp only [List.mem_cons, Prod.mk.injEq, List.not_mem_nil, or_false] at hm hm'
      rcases hm with ⟨rfl, rfl⟩ | ⟨rfl, rfl⟩ | ⟨rfl, rfl⟩ | ⟨rfl, rfl⟩ | ⟨rfl, rfl⟩ | ⟨rfl, rfl⟩ | ⟨rfl, rfl⟩ | ⟨rfl, rfl⟩ | ⟨rfl, rfl⟩ <;>
        (simp at hm'; rw [hm'])
    | byte =>
      simp only [List.cons_append, List.cons.injEq, true_and] at he
      rw [he.1] at hm
      simp at hm
    | short =>
      simp only [List.cons_append, List.cons.injEq, true_and] at he
      rw [he.1] at hm
      simp at hm
    | long =>
      simp only [List.cons_append, List.cons.injEq, true_and] at he
      rw [he.1] at hm
      simp at hm
  | byte a hl =>
    cases h' with
    | plain c1 c2 c3 => simp only [List.cons_append, List.cons.injEq] at he; exact absurd he.1.symm c2
    | escape hm =>
      simp only [List.cons_append, List.cons.injEq, true_and] at he
      rw [← he.1] at hm
      simp at hm
    | byte a' hl' =>
      simp only [List.cons_append, List.cons.injEq, true_and] at he
      obtain ⟨e1, e2⟩ := hex_prefix a a' (by omega) he
      exact ⟨by rw [UInt8.toNat_inj.1 e1], e2⟩
    | short => simp at he
    | long => simp at he
  | short a hl =>
    cases h' with
    | plain c1 c2 c3 => simp only [List.cons_append, List.cons.injEq] at he; exact absurd he.1.symm c2
    | escape hm =>
      simp only [List.cons_append, List.cons.injEq, true_and] at he
      rw [← he.1] at hm
      simp at hm
    | byte => simp at he
    | short a' hl' =>
      simp only [List.cons_append, List.cons.injEq, true_and] at he
      obtain ⟨e1, e2⟩ := hex_prefix a a' (by omega) he
      exact ⟨by rw [Char.toNat_inj.1 e1], e2⟩
    | long => simp at he
  | long a hl =>
    cases h' with
    | plain c1 c2 c3 => simp only [List.cons_append, List.cons.injEq] at he; exact absurd he.1.symm c2
    | escape hm =>
      simp only [List.cons_append, List.cons.injEq, true_and] at he
      rw [← he.1] at hm
      simp at hm
    | byte => simp at he
    | short => simp at he
    | long a' hl' =>
      simp only [List.cons_append, List.cons.injEq, true_and] at he
      obtain ⟨e1, e2⟩ := hex_prefix a a' (by omega) he
      exact ⟨by rw [Char.toNat_inj.1 e1], e2⟩

theorem piece_head {t : Text} {b : List UInt8} (h : Piece t b) : ∃ c u, t = c :: u ∧ c ≠ '"' := by
  cases h with
  | plain c1 => exact ⟨_, _, rfl, c1⟩
  | escape => exact ⟨_, _, rfl, by decide⟩
  | byte => exact ⟨_, _, rfl, by decide⟩
  | short => exact ⟨_, _, rfl, by decide⟩
  | long => exact ⟨_, _, rfl, by decide⟩

theorem pieces_unique {t t' u u' : Text} {s s' : List UInt8} (h : Pieces t s) (h' : Pieces t' s')
    (he : t ++ '"' :: u = t' ++ '"' :: u') : s = s' ∧ u = u' := by
  induction h generalizing t' s' with
  | nil =>
    cases h' with
    | nil => exact ⟨rfl, by simpa using he⟩
    | cons p q =>
      obtain ⟨c, v, rfl, hc⟩ := piece_head p
      simp only [List.nil_append, List.cons_append, List.cons.injEq] at he
      exact absurd he.1.symm hc
  | cons p q ih =>
    cases h' with
    | nil =>
      obtain ⟨c, v, rfl, hc⟩ := piece_head p
      simp only [List.nil_append, List.cons_append, List.cons.injEq] at he
      exact absurd he.1 hc
    | cons p' q' =>
      rw [List.append_assoc, List.append_assoc] at he
      obtain ⟨rfl, e⟩ := piece_unique p p' he
      obtain ⟨rfl, e'⟩ := ih q' e
      exact ⟨rfl, e'⟩

theorem quoted_unique {t t' u u' : Text} {s s' : List UInt8} (h : Quoted t s) (h' : Quoted t' s') (he : t ++ u = t' ++ u') :
    s = s' ∧ u = u' := by
  cases h with
  | mk h =>
    cases h' with
    | mk h' =>
      simp only [List.cons_append, List.append_assoc, List.nil_append, List.cons.injEq, true_and] at he
      exact pieces_unique h h' he

theorem piece_newline {t : Text} {b : List UInt8} (h : Piece t b) : '\n' ∉ t := by
  cases h with
  | plain _ _ c3 => simpa using Ne.symm c3
  | @escape c d hm =>
    simp only [List.mem_cons, Prod.mk.injEq, List.not_mem_nil, or_false] at hm
    rcases hm with ⟨rfl, _⟩ | ⟨rfl, _⟩ | ⟨rfl, _⟩ | ⟨rfl, _⟩ | ⟨rfl, _⟩ | ⟨rfl, _⟩ | ⟨rfl, _⟩ | ⟨rfl, _⟩ | ⟨rfl, _⟩ <;> decide
  | byte a =>
    have := Hex.no a (c := '\n') (by decide)
    simpa using this
  | short a =>
    have := Hex.no a (c := '\n') (by decide)
    simpa using this
  | long a =>
    have := Hex.no a (c := '\n') (by decide)
    simpa using this

theorem quoted_newline {t : Text} {s : List UInt8} (h : Quoted t s) : '\n' ∉ t := by
  cases h with
  | mk h =>
    have : ∀ {t s}, Pieces t s → '\n' ∉ t := by
      intro t s h
      induction h with
      | nil => simp
      | cons p _ ih => simp [piece_newline p, ih]
    simp [this h]

/-! ## Lists -/

/-- What can be read in only one way, and ends before a comma or closing brace. -/
structure Ends {α : Type} (R : Text → α → Prop) : Prop where
  unique : ∀ {t t' a a' c c' s s'}, R t a → R t' a' → c = ',' ∨ c = '}' → c' = ',' ∨ c' = '}' → t ++ c :: s = t' ++ c' :: s' →
    a = a' ∧ c = c' ∧ s = s'
  head : ∀ {t a}, R t a → ∃ c u, t = c :: u ∧ c ≠ '}'
  newline : ∀ {t a}, R t a → '\n' ∉ t

theorem split_two {a b s t : Text} {c d : Char} (h : a ++ c :: s = b ++ d :: t) (hc : c = ',' ∨ c = '}') (hd : d = ',' ∨ d = '}')
    (ha : ',' ∉ a ∧ '}' ∉ a) (hb : ',' ∉ b ∧ '}' ∉ b) : a = b ∧ c = d ∧ s = t := by
  have hca : c ∉ a := by rcases hc with rfl | rfl; exacts [ha.1, ha.2]
  have hcb : c ∉ b := by rcases hc with rfl | rfl; exacts [hb.1, hb.2]
  have hda : d ∉ a := by rcases hd with rfl | rfl; exacts [ha.1, ha.2]
  have hdb : d ∉ b := by rcases hd with rfl | rfl; exacts [hb.1, hb.2]
  clear ha hb
  induction a generalizing b with
  | nil =>
    cases b with
    | nil =>
      simp only [List.nil_append, List.cons.injEq] at h
      exact ⟨rfl, h.1, h.2⟩
    | cons y b =>
      simp only [List.nil_append, List.cons_append, List.cons.injEq] at h
      rw [h.1] at hcb
      simp at hcb
  | cons x a ih =>
    cases b with
    | nil =>
      simp only [List.nil_append, List.cons_append, List.cons.injEq] at h
      rw [h.1] at hda
      simp at hda
    | cons y b =>
      simp only [List.cons_append, List.cons.injEq] at h
      obtain ⟨rfl, h⟩ := h
      simp only [List.mem_cons, not_or] at hca hcb hda hdb
      obtain ⟨rfl, r⟩ := ih h hca.2 hcb.2 hda.2 hdb.2
      exact ⟨rfl, r⟩

theorem ends_numeral : Ends Numeral where
  unique h h' hc hc' he := by
    obtain ⟨rfl, e⟩ := split_two he hc hc' ⟨Numeral.no h (by decide), Numeral.no h (by decide)⟩ ⟨Numeral.no h' (by decide), Numeral.no h' (by decide)⟩
    exact ⟨Numeral.unique h h', e⟩
  head {t a} h := by
    cases t with
    | nil => exact absurd rfl (Numeral.ne_nil h)
    | cons c u => exact ⟨c, u, rfl, fun hc => Numeral.no h (c := '}') (by decide) (by simp [hc])⟩
  newline h := Numeral.no h (by decide)

theorem ends_hex : Ends HexLit where
  unique h h' hc hc' he := by
    cases h with
    | mk h =>
      cases h' with
      | mk h' =>
        simp only [List.cons_append, List.cons.injEq, true_and] at he
        obtain ⟨rfl, e⟩ := split_two he hc hc' ⟨Hex.no h (by decide), Hex.no h (by decide)⟩ ⟨Hex.no h' (by decide), Hex.no h' (by decide)⟩
        exact ⟨Hex.unique h h', e⟩
  head h := by
    cases h
    exact ⟨_, _, rfl, by decide⟩
  newline h := by
    cases h with
    | mk h =>
      have := Hex.no h (c := '\n') (by decide)
      simpa using this

theorem ends_quoted : Ends Quoted where
  unique h h' hc hc' he := by
    obtain ⟨e, e'⟩ := quoted_unique h h' he
    exact ⟨e, (List.cons.inj e').1, (List.cons.inj e').2⟩
  head h := by
    cases h
    exact ⟨_, _, rfl, by decide⟩
  newline h := quoted_newline h

theorem ends_pair : Ends Pair where
  unique h h' hc hc' he := by
    cases h with
    | mk h1 h2 =>
      cases h' with
      | mk h1' h2' =>
        simp only [List.append_assoc, List.cons_append] at he
        obtain ⟨rfl, e⟩ := quoted_unique h1 h1' he
        obtain ⟨rfl, e'⟩ := quoted_unique h2 h2' (List.cons.inj e).2
        exact ⟨rfl, (List.cons.inj e').1, (List.cons.inj e').2⟩
  head h := by
    cases h with
    | mk h1 h2 =>
      cases h1
      exact ⟨_, _, rfl, by decide⟩
  newline h := by
    cases h with
    | mk h1 h2 => simp [quoted_newline h1, quoted_newline h2]

theorem listed_unique {α : Type} {R : Text → α → Prop} (hR : Ends R) {t t' s s' : Text} {l l' : List α} (h : Listed R t l)
    (h' : Listed R t' l') (he : t ++ '}' :: s = t' ++ '}' :: s') : l = l' ∧ s = s' := by
  induction h generalizing t' l' with
  | nil =>
    cases h' with
    | nil => exact ⟨rfl, by simpa using he⟩
    | one r =>
      obtain ⟨c, u, rfl, hc⟩ := hR.head r
      simp only [List.nil_append, List.cons_append, List.cons.injEq] at he
      exact absurd he.1.symm hc
    | more r =>
      obtain ⟨c, u, rfl, hc⟩ := hR.head r
      simp only [List.nil_append, List.cons_append, List.cons.injEq] at he
      exact absurd he.1.symm hc
  | one r =>
    cases h' with
    | nil =>
      obtain ⟨c, u, rfl, hc⟩ := hR.head r
      simp only [List.nil_append, List.cons_append, List.cons.injEq] at he
      exact absurd he.1 hc
    | one r' =>
      obtain ⟨rfl, _, e⟩ := hR.unique r r' (.inr rfl) (.inr rfl) he
      exact ⟨rfl, e⟩
    | more r' q' =>
      rw [List.append_assoc, List.cons_append] at he
      obtain ⟨_, e, _⟩ := hR.unique r r' (.inr rfl) (.inl rfl) he
      simp at e
  | more r q ih =>
    cases h' with
    | nil =>
      obtain ⟨c, u, rfl, hc⟩ := hR.head r
      simp only [List.nil_append, List.cons_append, List.cons.injEq] at he
      exact absurd he.1 hc
    | one r' =>
      rw [List.append_assoc, List.cons_append] at he
      obtain ⟨_, e, _⟩ := hR.unique r r' (.inl rfl) (.inr rfl) he
      simp at e
    | more r' q' =>
      rw [List.append_assoc, List.append_assoc, List.cons_append, List.cons_append] at he
      obtain ⟨rfl, _, e⟩ := hR.unique r r' (.inl rfl) (.inl rfl) he
      obtain ⟨e1, e2⟩ := ih q' (List.cons.inj e).2
      exact ⟨by rw [e1], e2⟩

theorem listed_newline {α : Type} {R : Text → α → Prop} (hR : Ends R) {t : Text} {l : List α} (h : Listed R t l) : '\n' ∉ t := by
  induction h with
  | nil => simp
  | one r => exact hR.newline r
  | more r _ ih => simp [hR.newline r, ih]

theorem commas_says {α β : Type} {R : Text → β → Prop} (text : α → Text) (tells : α → β) (h : ∀ a, R (text a) (tells a)) (l : List α) :
    Listed R (commas (l.map text)) (l.map tells) := by
  induction l with
  | nil => exact .nil
  | cons a l ih =>
    cases l with
    | nil => exact .one (h a)
    | cons b l =>
      have := Listed.more (h a) ih
      simpa [commas] using this

/-! ## Entities -/

theorem entityLine_newline {t : Text} {e : EntitySays} (h : EntityLine t e) : '\n' ∉ t := by
  cases h with
  | node a b c d =>
    have := ends_hex.newline a
    have := listed_newline ends_pair b
    have := ends_numeral.newline c
    have := ends_numeral.newline d
    simp [*]
  | way a b c =>
    have := ends_numeral.newline a
    have := listed_newline ends_pair b
    have := listed_newline ends_hex c
    simp [*]
  | relation a b c d e =>
    have := ends_numeral.newline a
    have := listed_newline ends_pair b
    have := listed_newline ends_quoted c
    have := listed_newline ends_numeral d
    have := listed_newline ends_numeral e
    simp [*]

theorem entityLine_unique {t : Text} {e e' : EntitySays} (h : EntityLine t e) (h' : EntityLine t e') : e = e' := by
  generalize ht : t = t' at h'
  cases h with
  | node a b c d =>
    cases h' with
    | node a' b' c' d' =>
      have ht := List.append_cancel_left ht
      obtain ⟨rfl, _, ht⟩ := ends_hex.unique a a' (.inl rfl) (.inl rfl) ht
      have ht := List.append_cancel_left (as := " Tags:map[string]string{".toList) ht
      obtain ⟨rfl, ht⟩ := listed_unique ends_pair b b' ht
      have ht := List.append_cancel_left (as := ", Lat:".toList) ht
      obtain ⟨rfl, _, ht⟩ := ends_numeral.unique c c' (.inl rfl) (.inl rfl) ht
      have ht := List.append_cancel_left (as := " Lon:".toList) ht
      obtain ⟨rfl, _, ht⟩ := ends_numeral.unique d d' (.inr rfl) (.inr rfl) ht
      rfl
    | way a' => exact absurd (congrArg (fun t => t[5]?) ht) (by simp)
    | relation a' => exact absurd (congrArg (fun t => t[5]?) ht) (by simp)
  | way a b c =>
    cases h' with
    | node a' => exact absurd (congrArg (fun t => t[5]?) ht) (by simp)
    | way a' b' c' =>
      have ht := List.append_cancel_left ht
      obtain ⟨rfl, _, ht⟩ := ends_numeral.unique a a' (.inl rfl) (.inl rfl) ht
      have ht := List.append_cancel_left (as := " Tags:map[string]string{".toList) ht
      obtain ⟨rfl, ht⟩ := listed_unique ends_pair b b' ht
      have ht := List.append_cancel_left (as := ", Nodes:[]t.NodeId{".toList) ht
      obtain ⟨rfl, ht⟩ := listed_unique ends_hex c c' (s := ['}']) (s' := ['}']) ht
      rfl
    | relation a' => exact absurd (congrArg (fun t => t[5]?) ht) (by simp)
  | relation a b c d e =>
    cases h' with
    | node a' => exact absurd (congrArg (fun t => t[5]?) ht) (by simp)
    | way a' => exact absurd (congrArg (fun t => t[5]?) ht) (by simp)
    | relation a' b' c' d' e' =>
      have ht := List.append_cancel_left ht
      obtain ⟨rfl, _, ht⟩ := ends_numeral.unique a a' (.inl rfl) (.inl rfl) ht
      have ht := List.append_cancel_left (as := " Tags:map[string]string{".toList) ht
      obtain ⟨rfl, ht⟩ := listed_unique ends_pair b b' ht
      have ht := List.append_cancel_left (as := ", Roles:[]string{".toList) ht
      obtain ⟨rfl, ht⟩ := listed_unique ends_quoted c c' ht
      have ht := List.append_cancel_left (as := ", Members:[]int64{".toList) ht
      obtain ⟨rfl, ht⟩ := listed_unique ends_numeral d d' ht
      have ht := List.append_cancel_left (as := ", MemberType:[]int{".toList) ht
      obtain ⟨rfl, ht⟩ := listed_unique ends_numeral e e' (s := ['}']) (s' := ['}']) ht
      rfl

theorem listed_sorted (m : TagMap) : TagsListed m (m.mergeSort keyLe) := by
  refine ⟨List.mergeSort_perm _ _, ?_⟩
  have := List.pairwise_mergeSort (le := keyLe) (fun a b c h1 h2 => ?_) (fun a b => ?_) m
  · refine this.imp fun h => ?_
    simpa [keyLe] using h
  · simp only [keyLe, decide_eq_true_eq] at *
    exact List.le_trans h1 h2
  · simp only [keyLe, Bool.or_eq_true, decide_eq_true_eq]
    exact List.le_total a.1 b.1

/-- What the line of an entity says. -/
def entitySays : Find.Entity → EntitySays
  | .node n => .node n.Id.toNat (n.Tags.mergeSort keyLe) n.Lat.toInt n.Lon.toInt
  | .way w => .way w.Id.toInt (w.Tags.mergeSort keyLe) (w.Nodes.map (·.toNat))
  | .relation r => .relation r.Id.toInt (r.Tags.mergeSort keyLe) r.Roles (r.Members.map (·.toInt)) (r.MemberType.map (·.toInt))

theorem sharpX_says (n : UInt64) : HexLit (sharpX n) n.toNat := .mk (fmtX_says n)

theorem pairs_says (P : Printing) (m : TagMap) :
    Listed Pair (commas (m.map fun p => quote P p.1 ++ ':' :: quote P p.2)) m := by
  have := commas_says (R := Pair) (fun p : GoStr × GoStr => quote P p.1 ++ ':' :: quote P p.2) id
    (fun p => .mk (quote_says P p.1) (quote_says P p.2)) m
  rwa [List.map_id] at this

theorem node_shape (a b c d : Text) : "&t.HLNode{Id:".toList ++ a ++ ", Tags:".toList ++
      ("map[string]string{".toList ++ b ++ "}".toList) ++ ", Lat:".toList ++ c ++ ", Lon:".toList ++ d ++ "}\n".toList =
    ("&t.HLNode{Id:".toList ++ (a ++ (", Tags:map[string]string{".toList ++ (b ++ ("}, Lat:".toList ++ (c ++
        (", Lon:".toList ++ (d ++ "}".toList)))))))) ++ ['\n'] := by
  simp

theorem way_shape (a b c : Text) : "&t.HLWay{Id:".toList ++ a ++ ", Tags:".toList ++
      ("map[string]string{".toList ++ b ++ "}".toList) ++ ", Nodes:[]t.NodeId{".toList ++ c ++ "}}\n".toList =
    ("&t.HLWay{Id:".toList ++ (a ++ (", Tags:map[string]string{".toList ++ (b ++ ("}, Nodes:[]t.NodeId{".toList ++
        (c ++ "}}".toList)))))) ++ ['\n'] := by
  simp

theorem relation_shape (a b c d e : Text) : "&t.HLRelation{Id:".toList ++ a ++ ", Tags:".toList ++
      ("map[string]string{".toList ++ b ++ "}".toList) ++ ", Roles:[]string{".toList ++ c ++ "}, Members:[]int64{".toList ++ d ++
      "}, MemberType:[]int{".toList ++ e ++ "}}\n".toList =
    ("&t.HLRelation{Id:".toList ++ (a ++ (", Tags:map[string]string{".toList ++ (b ++ ("}, Roles:[]string{".toList ++
        (c ++ ("}, Members:[]int64{".toList ++ (d ++ ("}, MemberType:[]int{".toList ++ (e ++ "}}".toList)))))))))) ++ ['\n'] := by
  simp

theorem entityLine_says (P : Printing) (e : Find.Entity) :
    ∃ t, entityLine P e = t ++ ['\n'] ∧ EntityLine t (entitySays e) := by
  cases e with
  | node n =>
    exact ⟨_, node_shape _ _ _ _, .node (sharpX_says n.Id) (pairs_says P _) (fmtD_says _) (fmtD_says _)⟩
  | way w =>
    exact ⟨_, way_shape _ _ _, .way (fmtD_says _) (pairs_says P _) (commas_says _ _ sharpX_says _)⟩
  | relation r =>
    have h := commas_says (R := Quoted) (quote P) id (fun s => quote_says P s) r.Roles
    rw [List.map_id] at h
    exact ⟨_, relation_shape _ _ _ _ _, .relation (fmtD_says _) (pairs_says P _) h
      (commas_says _ _ (fun m : Int64 => fmtD_says m.toInt) _) (commas_says _ _ (fun m : Int64 => fmtD_says m.toInt) _)⟩

theorem findText_says (P : Printing) (es : List Find.Entity) :
    Lines EntityLine (findText P es) (es.map entitySays) :=
  lines_flatMap _ _ (fun e => entityLine_says P e) es

theorem entitySays_describes (e : Find.Entity) : Describes e (entitySays e) := by
  cases e with
  | node n => exact .node (listed_sorted n.Tags)
  | way w => exact .way (listed_sorted w.Tags)
  | relation r => exact .relation (listed_sorted r.Tags)

end Osm.TextFind
