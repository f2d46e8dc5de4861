import Verif.Model.Text
import Verif.Spec.Text
import Verif.Lemmas.Float

/-!
# Texts can be read in only one way
-/

namespace Osm.Text
open Osm Osm.Spec.Text

/-! ### Splitting -/

theorem split_at {c : Char} {a b s t : Text} (h : a ++ c :: s = b ++ c :: t) (ha : c ∉ a) (hb : c ∉ b) : a = b ∧ s = t := by
  induction a generalizing b with
  | nil =>
    cases b with
    | nil => simpa using h
    | cons x b =>
      simp only [List.nil_append, List.cons_append, List.cons.injEq] at h
      exact absurd (h.1 ▸ List.mem_cons_self) hb
  | cons x a ih =>
    cases b with
    | nil =>
      simp only [List.nil_append, List.cons_append, List.cons.injEq] at h
      exact absurd (h.1 ▸ List.mem_cons_self) ha
    | cons y b =>
      simp only [List.cons_append, List.cons.injEq] at h
      obtain ⟨h1, h2⟩ := ih h.2 (fun h => ha (List.mem_cons_of_mem _ h)) (fun h => hb (List.mem_cons_of_mem _ h))
      exact ⟨by rw [h.1, h1], h2⟩

/-- What a text consists of. -/
def Of (cs : String) (t : Text) : Prop := ∀ c ∈ t, c ∈ cs.toList

theorem Of.not_mem {cs : String} {t : Text} (h : Of cs t) {c : Char} (hc : c ∉ cs.toList) : c ∉ t := fun hm => hc (h c hm)

theorem Of.mono {cs ds : String} {t : Text} (h : Of cs t) (hs : ∀ c ∈ cs.toList, c ∈ ds.toList) : Of ds t :=
  fun c hc => hs c (h c hc)

theorem Numeral.of {t : Text} {z : Int} (h : Numeral t z) : Of "-0123456789" t := by
  cases h with
  | pos h => exact fun c hc => by have := h.2 c hc; simp_all
  | neg h =>
    intro c hc
    rcases List.mem_cons.1 hc with rfl | hc
    · simp
    · have := h.2 c hc; simp_all

theorem Hex.of {t : Text} {n : Nat} (h : Hex t n) : Of "0123456789abcdef" t := by
  cases h with
  | mk _ h => exact h

theorem Millionths.of {t : Text} {z : Int} (h : Millionths t z) : Of "-.0123456789" t := by
  have key : ∀ {a b : Text}, Digits a → Digits b → Of "-.0123456789" (a ++ '.' :: b) := by
    intro a b ha hb c hc
    rw [List.mem_append, List.mem_cons] at hc
    rcases hc with hc | rfl | hc
    · have := ha.2 c hc; simp_all
    · simp
    · have := hb.2 c hc; simp_all
  cases h with
  | pos h1 h2 _ => exact key h1 h2
  | neg h1 h2 _ =>
    intro c hc
    rcases List.mem_cons.1 hc with rfl | hc
    · simp
    · exact key h1 h2 c hc

theorem Digits.no_minus {t : Text} (h : Digits t) : '-' ∉ t := fun hm => by
  have := h.2 _ hm
  simp at this

theorem Digits.no_point {t : Text} (h : Digits t) : '.' ∉ t := fun hm => by
  have := h.2 _ hm
  simp at this

theorem Numeral.unique {t : Text} {y z : Int} (h : Numeral t y) (h' : Numeral t z) : y = z := by
  cases h with
  | pos h =>
    cases h' with
    | pos _ => rfl
    | neg _ => exact absurd List.mem_cons_self (Digits.no_minus h)
  | neg h =>
    cases h' with
    | pos h' => exact absurd List.mem_cons_self (Digits.no_minus h')
    | neg _ => rfl

theorem Numeral.ne_nil {t : Text} {z : Int} (h : Numeral t z) : t ≠ [] := by
  cases h with
  | pos h => exact h.1
  | neg _ => simp

theorem Hex.unique {t : Text} {y z : Nat} (h : Hex t y) (h' : Hex t z) : y = z := by
  cases h; cases h'; rfl

theorem Millionths.unique {t : Text} {y z : Int} (h : Millionths t y) (h' : Millionths t z) : y = z := by
  generalize ht : t = u at h'
  have no : ∀ {a b : Text}, Digits a → Digits b → '-' ∉ a ++ '.' :: b := by
    intro a b h1 h2 hm
    rw [List.mem_append, List.mem_cons] at hm
    rcases hm with hm | hm | hm
    · exact Digits.no_minus h1 hm
    · simp at hm
    · exact Digits.no_minus h2 hm
  cases h with
  | pos h1 h2 _ =>
    cases h' with
    | pos h3 h4 _ =>
      obtain ⟨rfl, rfl⟩ := split_at ht (Digits.no_point h1) (Digits.no_point h3)
      rfl
    | neg h3 h4 _ => exact absurd (ht ▸ List.mem_cons_self) (no h1 h2)
  | neg h1 h2 _ =>
    cases h' with
    | pos h3 h4 _ => exact absurd (ht ▸ List.mem_cons_self) (no h3 h4)
    | neg h3 h4 _ =>
      obtain ⟨rfl, rfl⟩ := split_at (List.cons.inj ht).2 (Digits.no_point h1) (Digits.no_point h3)
      rfl

theorem Numerals.of {t : Text} {zs : List Int} (h : Numerals t zs) : Of "- 0123456789" t := by
  induction h with
  | none => intro c hc; cases hc
  | one h => exact (Numeral.of h).mono (by simp)
  | more h _ _ ih =>
    intro c hc
    rw [List.mem_append, List.mem_cons] at hc
    rcases hc with hc | rfl | hc
    · exact (Numeral.of h).mono (by simp) c hc
    · simp
    · exact ih c hc

theorem Numeral.no {t : Text} {z : Int} (h : Numeral t z) {c : Char} (hc : c ∉ "-0123456789".toList) : c ∉ t :=
  (Numeral.of h).not_mem hc

theorem Numerals.unique {t : Text} {ys zs : List Int} (h : Numerals t ys) (h' : Numerals t zs) : ys = zs := by
  induction h generalizing zs with
  | none =>
    generalize hu : ([] : Text) = u at h'
    cases h' with
    | none => rfl
    | one h => exact absurd hu.symm (Numeral.ne_nil h)
    | more h _ _ => simp at hu
  | @one t z h =>
    generalize hu : t = u at h'
    cases h' with
    | none => exact absurd hu (Numeral.ne_nil h)
    | one h' => subst hu; rw [Numeral.unique h h']
    | more h1 h2 h3 =>
      exact absurd (hu ▸ List.mem_append_right _ List.mem_cons_self) (Numeral.no h (c := ' ') (by simp))
  | @more t z s ys h1 _ h3 ih =>
    generalize hu : t ++ ' ' :: s = u at h'
    cases h' with
    | none => simp at hu
    | one h' =>
      exact absurd (hu ▸ List.mem_append_right _ List.mem_cons_self) (Numeral.no h' (c := ' ') (by simp))
    | more h1' h2' h3' =>
      obtain ⟨rfl, rfl⟩ := split_at hu (Numeral.no h1 (by simp)) (Numeral.no h1' (by simp))
      rw [Numeral.unique h1 h1', ih h2']

theorem Lines.unique {α : Type} {L : Text → α → Prop} (hn : ∀ t a, L t a → '\n' ∉ t)
    (hu : ∀ t a b, L t a → L t b → a = b) {t : Text} {as bs : List α} (h : Lines L t as) (h' : Lines L t bs) : as = bs := by
  induction h generalizing bs with
  | nil =>
    generalize he : ([] : Text) = u at h'
    cases h' with
    | nil => rfl
    | cons _ _ => simp at he
  | @cons t a rest as h1 _ ih =>
    generalize he : t ++ '\n' :: rest = u at h'
    cases h' with
    | nil => simp at he
    | cons h1' h2' =>
      obtain ⟨rfl, rfl⟩ := split_at he (hn _ _ h1) (hn _ _ h1')
      rw [hu _ _ _ h1 h1', ih h2']

/-! ### Lines -/

theorem WayLine.no_newline {t : Text} {a : WaySays} (h : WayLine t a) : '\n' ∉ t := by
  cases h with
  | way h1 h2 =>
    have := Numeral.no h1 (c := '\n') (by simp)
    have := (Numerals.of h2).not_mem (c := '\n') (by simp)
    simp_all
  | missing h1 =>
    have := Numeral.no h1 (c := '\n') (by simp)
    simp_all

theorem WayLine.unique {t : Text} {a b : WaySays} (h : WayLine t a) (h' : WayLine t b) : a = b := by
  generalize hu : t = u at h'
  cases h with
  | way h1 h2 =>
    cases h' with
    | way h1' h2' =>
      obtain ⟨rfl, hs⟩ := split_at hu (Numeral.no h1 (by simp)) (Numeral.no h1' (by simp))
      have hs := List.append_cancel_right (List.cons.inj hs).2
      subst hs
      rw [Numeral.unique h1 h1', Numerals.unique h2 h2']
    | @missing t' _ h1' =>
      have hu : _ = 'X' :: 'X' :: ' ' :: ("failed to find way ".toList ++ t') := hu
      obtain ⟨rfl, _⟩ := split_at (b := ['X', 'X']) hu (Numeral.no h1 (by simp)) (by simp)
      exact absurd (by simp) (Numeral.no h1 (c := 'X') (by simp))
  | @missing t' _ h1 =>
    cases h' with
    | way h1' h2' =>
      have hu : 'X' :: 'X' :: ' ' :: ("failed to find way ".toList ++ t') = _ := hu
      obtain ⟨rfl, _⟩ := split_at (a := ['X', 'X']) hu (by simp) (Numeral.no h1' (by simp))
      exact absurd (by simp) (Numeral.no h1' (c := 'X') (by simp))
    | missing h1' =>
      obtain rfl := List.append_cancel_left hu
      rw [Numeral.unique h1 h1']

theorem Hex.no {t : Text} {z : Nat} (h : Hex t z) {c : Char} (hc : c ∉ "0123456789abcdef".toList) : c ∉ t :=
  (Hex.of h).not_mem hc

theorem Millionths.no {t : Text} {z : Int} (h : Millionths t z) {c : Char} (hc : c ∉ "-.0123456789".toList) : c ∉ t :=
  (Millionths.of h).not_mem hc

theorem NodeLine.no_newline {t : Text} {a : NodeSays} (h : NodeLine t a) : '\n' ∉ t := by
  cases h with
  | empty => decide
  | notFound => decide
  | mismatch => decide
  | stored h1 h2 h3 h4 h5 h6 =>
    have := Hex.no h1 (c := '\n') (by simp)
    have := Millionths.no h2 (c := '\n') (by simp)
    have := Millionths.no h3 (c := '\n') (by simp)
    have := Numeral.no h4 (c := '\n') (by simp)
    have := Numeral.no h5 (c := '\n') (by simp)
    have := Numeral.no h6 (c := '\n') (by simp)
    simp_all
  | found h1 h2 h3 =>
    have := Hex.no h1 (c := '\n') (by simp)
    have := Millionths.no h2 (c := '\n') (by simp)
    have := Millionths.no h3 (c := '\n') (by simp)
    simp_all

theorem NodeLine.unique {t : Text} {a b : NodeSays} (h : NodeLine t a) (h' : NodeLine t b) : a = b := by
  generalize hu : t = u at h'
  cases h with
  | empty =>
    cases h' with
    | empty => rfl
    | @stored x loc a lng b lat c first d idx e id h1 _ _ _ _ _ =>
      have hu : "Extract: ".toList ++ "skip".toList = _ := hu
      have hu := List.append_cancel_left hu
      exact absurd (hu ▸ List.mem_append_right _ List.mem_cons_self : ' ' ∈ "skip".toList) (by simp)
    | _ => simp at hu
  | notFound =>
    cases h' with
    | notFound => rfl
    | found h1 _ _ =>
      have hu : " Search: ".toList ++ "skip".toList = _ := hu
      have hu := List.append_cancel_left hu
      exact absurd (hu ▸ List.mem_append_right _ List.mem_cons_self : ' ' ∈ "skip".toList) (by simp)
    | _ => simp at hu
  | mismatch =>
    cases h' with
    | mismatch => rfl
    | _ => simp at hu
  | stored h1 h2 h3 h4 h5 h6 =>
    cases h' with
    | empty =>
      have hu : _ = "Extract: ".toList ++ "skip".toList := hu
      have hu := List.append_cancel_left hu
      exact absurd (hu ▸ List.mem_append_right _ List.mem_cons_self : ' ' ∈ "skip".toList) (by simp)
    | stored g1 g2 g3 g4 g5 g6 =>
      have hu1 := List.append_cancel_left hu
      obtain ⟨rfl, hu2⟩ := split_at hu1 (Hex.no h1 (by simp)) (Hex.no g1 (by simp))
      obtain ⟨rfl, hu3⟩ := split_at (List.cons.inj hu2).2 (Millionths.no h2 (by simp)) (Millionths.no g2 (by simp))
      obtain ⟨rfl, hu4⟩ := split_at (List.cons.inj hu3).2 (Millionths.no h3 (by simp)) (Millionths.no g3 (by simp))
      obtain ⟨rfl, hu5⟩ := split_at (List.cons.inj (List.cons.inj hu4).2).2 (Numeral.no h4 (by simp)) (Numeral.no g4 (by simp))
      obtain ⟨rfl, hu6⟩ := split_at hu5 (Numeral.no h5 (by simp)) (Numeral.no g5 (by simp))
      obtain rfl := List.append_cancel_right hu6
      rw [Hex.unique h1 g1, Millionths.unique h2 g2, Millionths.unique h3 g3, Numeral.unique h4 g4, Numeral.unique h5 g5,
        Numeral.unique h6 g6]
    | _ => simp at hu
  | found h1 h2 h3 =>
    cases h' with
    | notFound =>
      have hu : _ = " Search: ".toList ++ "skip".toList := hu
      have hu := List.append_cancel_left hu
      exact absurd (hu ▸ List.mem_append_right _ List.mem_cons_self : ' ' ∈ "skip".toList) (by simp)
    | found g1 g2 g3 =>
      have hu1 := List.append_cancel_left hu
      obtain ⟨rfl, hu2⟩ := split_at hu1 (Hex.no h1 (by simp)) (Hex.no g1 (by simp))
      obtain ⟨rfl, hu3⟩ := split_at (List.cons.inj hu2).2 (Millionths.no h2 (by simp)) (Millionths.no g2 (by simp))
      obtain rfl := List.append_cancel_right (List.cons.inj hu3).2
      rw [Hex.unique h1 g1, Millionths.unique h2 g2, Millionths.unique h3 g3]
    | _ => simp at hu

theorem Says.unique {before after : String} {t : Text} {y z : Int} (h : Says before after t y) (h' : Says before after t z) :
    y = z := by
  obtain ⟨m, h1, rfl⟩ := h
  obtain ⟨n, h2, he⟩ := h'
  obtain rfl := List.append_cancel_right (List.append_cancel_left he)
  exact Numeral.unique h1 h2

theorem Says.no_newline {before after : String} (hb : '\n' ∉ before.toList) (ha : '\n' ∉ after.toList) {t : Text} {y : Int}
    (h : Says before after t y) : '\n' ∉ t := by
  obtain ⟨m, h1, rfl⟩ := h
  have := Numeral.no h1 (c := '\n') (by simp)
  simp_all

theorem SaysTwo.unique {before middle after : String} {c : Char} {m' : Text} (hm : middle.toList = c :: m')
    (hc : c ∉ "-0123456789".toList) {t : Text} {y z y' z' : Int} (h : SaysTwo before middle after t y z)
    (h' : SaysTwo before middle after t y' z') : y = y' ∧ z = z' := by
  obtain ⟨m, n, h1, h2, rfl⟩ := h
  obtain ⟨p, q, h3, h4, he⟩ := h'
  have he1 := List.append_cancel_left he
  rw [hm, List.append_assoc, List.append_assoc] at he1
  obtain ⟨rfl, he2⟩ := split_at he1 (Numeral.no h1 hc) (Numeral.no h3 hc)
  obtain rfl := List.append_cancel_right (List.append_cancel_left he2)
  exact ⟨Numeral.unique h1 h3, Numeral.unique h2 h4⟩

theorem SaysTwo.no_newline {before middle after : String} (hb : '\n' ∉ before.toList) (hm : '\n' ∉ middle.toList)
    (ha : '\n' ∉ after.toList) {t : Text} {y z : Int}
    (h : SaysTwo before middle after t y z) : '\n' ∉ t := by
  obtain ⟨m, n, h1, h2, rfl⟩ := h
  have := Numeral.no h1 (c := '\n') (by simp)
  have := Numeral.no h2 (c := '\n') (by simp)
  simp_all

theorem CountReport.unique {t : Text} {a b : Counts} (h : CountReport t a) (h' : CountReport t b) : a = b := by
  obtain ⟨t1, t2, t3, t4, t5, rfl, h1, h2, h3, h4, h5⟩ := h
  obtain ⟨u1, u2, u3, u4, u5, he, g1, g2, g3, g4, g5⟩ := h'
  obtain ⟨rfl, he1⟩ := split_at he (Says.no_newline (by simp) (by simp) h1) (Says.no_newline (by simp) (by simp) g1)
  obtain ⟨rfl, he2⟩ := split_at he1 (SaysTwo.no_newline (by simp) (by simp) (by simp) h2)
    (SaysTwo.no_newline (by simp) (by simp) (by simp) g2)
  obtain ⟨rfl, he3⟩ := split_at he2 (SaysTwo.no_newline (by simp) (by simp) (by simp) h3)
    (SaysTwo.no_newline (by simp) (by simp) (by simp) g3)
  obtain ⟨rfl, he4⟩ := split_at he3 (SaysTwo.no_newline (by simp) (by simp) (by simp) h4)
    (SaysTwo.no_newline (by simp) (by simp) (by simp) g4)
  obtain ⟨rfl, _⟩ := split_at he4 (SaysTwo.no_newline (by simp) (by simp) (by simp) h5)
    (SaysTwo.no_newline (by simp) (by simp) (by simp) g5)
  have e1 := Says.unique h1 g1
  have e2 := SaysTwo.unique (c := ' ') rfl (by simp) h2 g2
  have e3 := SaysTwo.unique (c := ' ') rfl (by simp) h3 g3
  have e4 := SaysTwo.unique (c := ' ') rfl (by simp) h4 g4
  have e5 := SaysTwo.unique (c := ' ') rfl (by simp) h5 g5
  cases a; cases b
  simp_all

theorem TimeLine.no_newline {t : Text} {a : Int × Int} (h : TimeLine t a) : '\n' ∉ t := by
  cases h with
  | mk h1 _ h3 h4 =>
    have := Numeral.no h1 (c := '\n') (by simp)
    have := Numeral.no h4 (c := '\n') (by simp)
    simp_all

theorem TimeLine.unique {t : Text} {a b : Int × Int} (h : TimeLine t a) (h' : TimeLine t b) : a = b := by
  generalize hu : t = u at h'
  cases h with
  | mk h1 h2 h3 h4 =>
    cases h' with
    | mk g1 g2 g3 g4 =>
      have hu1 := List.append_cancel_left hu
      obtain ⟨rfl, hu2⟩ := split_at hu1 (Numeral.no h1 (by simp)) (Numeral.no g1 (by simp))
      obtain ⟨rfl, hu3⟩ := split_at hu2 h2 g2
      obtain rfl := (List.cons.inj (List.cons.inj hu3).2).2
      rw [Numeral.unique h1 g1, Numeral.unique h4 g4]

theorem StatsReport.unique {t : Text} {a b c d a' b' c' d' : Int} {l l' : List (Int × Int)} (h : StatsReport t a b c d l)
    (h' : StatsReport t a' b' c' d' l') : a = a' ∧ b = b' ∧ c = c' ∧ d = d' ∧ l = l' := by
  obtain ⟨t1, t2, t3, t4, t5, rfl, h1, h2, h3, h4, h5⟩ := h
  obtain ⟨u1, u2, u3, u4, u5, he, g1, g2, g3, g4, g5⟩ := h'
  obtain ⟨rfl, he1⟩ := split_at he (Says.no_newline (by simp) (by simp) h1) (Says.no_newline (by simp) (by simp) g1)
  obtain ⟨rfl, he2⟩ := split_at he1 (Says.no_newline (by simp) (by simp) h2) (Says.no_newline (by simp) (by simp) g2)
  obtain ⟨rfl, he3⟩ := split_at he2 (Says.no_newline (by simp) (by simp) h3) (Says.no_newline (by simp) (by simp) g3)
  obtain ⟨rfl, rfl⟩ := split_at he3 (Says.no_newline (by simp) (by simp) h4) (Says.no_newline (by simp) (by simp) g4)
  exact ⟨Says.unique h1 g1, Says.unique h2 g2, Says.unique h3 g3, Says.unique h4 g4,
    Lines.unique (fun _ _ => TimeLine.no_newline) (fun _ _ _ => TimeLine.unique) h5 g5⟩

/-! ### What is printed says what it should -/

theorem digitValue_digitChar : ∀ d < 16, digitValue d.digitChar = d := by decide

theorem positional_append {b : Nat} (s : Text) (c : Char) : positional b (s ++ [c]) = b * positional b s + digitValue c := by
  unfold positional
  rw [List.foldl_append]
  rfl

theorem positional_toDigits {b : Nat} (h1 : 1 < b) (h2 : b ≤ 16) (n : Nat) : positional b (Nat.toDigits b n) = n := by
  induction n using Nat.strongRecOn with
  | _ n ih =>
    by_cases h : n < b
    · rw [Nat.toDigits_of_lt_base h]
      show b * 0 + digitValue _ = n
      rw [digitValue_digitChar n (by omega)]
      omega
    · rw [Nat.toDigits_of_base_le h1 (by omega), positional_append, ih _ (Nat.div_lt_self (by omega) h1),
        digitValue_digitChar _ (by have := Nat.mod_lt n (show b > 0 by omega); omega)]
      exact Nat.div_add_mod n b

theorem digitChar_mem : ∀ d < 16, d.digitChar ∈ "0123456789abcdef".toList := by decide
theorem digitChar_mem10 : ∀ d < 10, d.digitChar ∈ "0123456789".toList := by decide

theorem toDigits_mem {b : Nat} (h1 : 1 < b) {P : Char → Prop} (hp : ∀ d < b, P d.digitChar) (n : Nat) :
    ∀ c ∈ Nat.toDigits b n, P c := by
  induction n using Nat.strongRecOn with
  | _ n ih =>
    by_cases h : n < b
    · rw [Nat.toDigits_of_lt_base h]
      simpa using hp n h
    · rw [Nat.toDigits_of_base_le h1 (by omega)]
      intro c hc
      rw [List.mem_append, List.mem_singleton] at hc
      rcases hc with hc | rfl
      · exact ih _ (Nat.div_lt_self (by omega) h1) c hc
      · exact hp _ (Nat.mod_lt n (by omega))

theorem digits_toDigits (n : Nat) : Digits (Nat.toDigits 10 n) :=
  ⟨Nat.toDigits_ne_nil, toDigits_mem (by omega) digitChar_mem10 n⟩

theorem fmtD_says (z : Int) : Numeral (fmtD z) z := by
  unfold fmtD
  split
  · have := Numeral.neg (digits_toDigits z.natAbs)
    rwa [positional_toDigits (by omega) (by omega), show -(z.natAbs : Int) = z by omega] at this
  · have := Numeral.pos (digits_toDigits z.natAbs)
    rwa [positional_toDigits (by omega) (by omega), show (z.natAbs : Int) = z by omega] at this

theorem fmtX_says (n : UInt64) : Hex (fmtX n) n.toNat := by
  have := Hex.mk (t := fmtX n) Nat.toDigits_ne_nil (toDigits_mem (by omega) digitChar_mem _)
  rwa [fmtX, positional_toDigits (by omega) (by omega)] at this

theorem fmtVs_says (zs : List Int64) : Numerals (fmtVs zs) (zs.map (·.toInt)) := by
  induction zs with
  | nil => exact .none
  | cons z zs ih =>
    cases zs with
    | nil => exact .one (fmtD_says _)
    | cons y zs => exact .more (fmtD_says _) ih (by simp)

theorem positional_zeros (k : Nat) (s : Text) : positional 10 (List.replicate k '0' ++ s) = positional 10 s := by
  induction k with
  | zero => rfl
  | succ k ih =>
    rw [List.replicate_succ, List.cons_append]
    exact ih

theorem pointed_says (n : Nat) : ∃ a b, pointed n = a ++ '.' :: b ∧ Digits a ∧ Digits b ∧ b.length = 6 ∧
    positional 10 (a ++ b) = n := by
  have hlen : 7 ≤ (padded n).length := by
    unfold padded
    rw [List.length_append, List.length_replicate]
    omega
  have hmem : ∀ c ∈ padded n, c ∈ "0123456789".toList := by
    unfold padded
    intro c hc
    rw [List.mem_append] at hc
    rcases hc with hc | hc
    · rw [List.eq_of_mem_replicate hc]; simp
    · exact (digits_toDigits n).2 c hc
  refine ⟨_, _, rfl, ⟨?_, ?_⟩, ⟨?_, ?_⟩, ?_, ?_⟩
  · intro h
    have := congrArg List.length h
    rw [List.length_take, List.length_nil] at this
    omega
  · exact fun c hc => hmem c (List.mem_of_mem_take hc)
  · intro h
    have := congrArg List.length h
    rw [List.length_drop, List.length_nil] at this
    omega
  · exact fun c hc => hmem c (List.mem_of_mem_drop hc)
  · rw [List.length_drop]; omega
  · rw [List.take_append_drop]
    unfold padded
    rw [positional_zeros, positional_toDigits (by omega) (by omega)]

/-- What `%f` says, in millionths. -/
def rounded (q : Rat) : Int :=
  if q < 0 then -Progress.toNearest (-q * 1000000) else Progress.toNearest (q * 1000000)

theorem fmtF_says (q : Rat) : Millionths (fmtF q) (rounded q) := by
  unfold fmtF rounded
  split
  · rename_i h
    have h0 : 0 ≤ Progress.toNearest (-q * 1000000) := Progress.toNearest_nonneg (by linarith)
    obtain ⟨a, b, h1, h2, h3, h4, h5⟩ := pointed_says (Progress.toNearest (-q * 1000000)).toNat
    have := Millionths.neg h2 h3 h4
    rw [← h1, h5] at this
    rwa [show (((Progress.toNearest (-q * 1000000)).toNat : Nat) : Int) = Progress.toNearest (-q * 1000000) by omega] at this
  · rename_i h
    have h0 : 0 ≤ Progress.toNearest (q * 1000000) := Progress.toNearest_nonneg (by linarith)
    obtain ⟨a, b, h1, h2, h3, h4, h5⟩ := pointed_says (Progress.toNearest (q * 1000000)).toNat
    have := Millionths.pos h2 h3 h4
    rw [← h1, h5] at this
    rwa [show (((Progress.toNearest (q * 1000000)).toNat : Nat) : Int) = Progress.toNearest (q * 1000000) by omega] at this

theorem near_of_nonneg (k : Int) (h0 : 0 ≤ k) (hk : k ≤ 2 ^ 31) :
    |10 * Progress.toNearest (Progress.rnd (Progress.rnd k / Progress.rnd 10000000) * 1000000) - k| ≤ 5 := by
  rw [Progress.rnd_int k h0 (by omega)]
  have h10 : Progress.rnd 10000000 = 10000000 := by
    have := Progress.rnd_int 10000000 (by omega) (by omega)
    simpa using this
  rw [h10]
  have hq : (0 : Rat) ≤ k / 10000000 := by
    have : (0 : Rat) ≤ k := by exact_mod_cast h0
    positivity
  have h1 := Progress.rnd_near hq
  have h2 := Progress.toNearest_near (Progress.rnd ((k : Rat) / 10000000) * 1000000)
  generalize Progress.rnd ((k : Rat) / 10000000) = x at h1 h2 ⊢
  generalize Progress.toNearest (x * 1000000) = P at h2 ⊢
  have hk' : (k : Rat) ≤ 2 ^ 31 := by exact_mod_cast hk
  rw [abs_le] at h1 h2
  have hb : (k : Rat) / 10000000 / 2 ^ 53 ≤ 1 / 100000000 := by
    rw [div_div, div_le_iff₀ (by norm_num)]
    norm_num at hk' ⊢
    linarith
  have hu : (10 * P - k : Rat) < 6 := by linarith
  have hl : (-6 : Rat) < (10 * P - k : Rat) := by linarith
  have hu' : 10 * P - k < 6 := by exact_mod_cast hu
  have hl' : -6 < 10 * P - k := by exact_mod_cast hl
  rw [abs_le]
  omega

/-- The printed coordinate is the stored one, rounded. -/
theorem degrees_near (v : Int32) : |10 * rounded (degrees v) - v.toInt| ≤ 5 := by
  have hv1 := v.toInt_lt
  have hv2 := v.le_toInt
  unfold rounded degrees
  have h10 : (0 : Rat) < Progress.rnd 10000000 := Progress.rnd_pos (by norm_num)
  by_cases h : v.toInt < 0
  · have hneg : Progress.rnd (Progress.rnd v.toInt / Progress.rnd 10000000) < 0 := by
      have h1 : Progress.rnd (v.toInt : Rat) = -Progress.rnd ((-v.toInt : Int) : Rat) := by
        rw [← Progress.rnd_neg]
        push_cast
        rw [neg_neg]
      have h2 : 0 < Progress.rnd ((-v.toInt : Int) : Rat) := Progress.rnd_pos (by exact_mod_cast (by omega : 0 < -v.toInt))
      rw [h1, neg_div, Progress.rnd_neg]
      have := Progress.rnd_pos (div_pos h2 h10)
      linarith
    rw [if_pos hneg]
    have := near_of_nonneg (-v.toInt) (by omega) (by omega)
    have he : -Progress.rnd (Progress.rnd v.toInt / Progress.rnd 10000000) =
        Progress.rnd (Progress.rnd ((-v.toInt : Int) : Rat) / Progress.rnd 10000000) := by
      rw [← Progress.rnd_neg, ← neg_div, ← Progress.rnd_neg]
      push_cast
      rfl
    rw [he]
    rw [abs_le] at this ⊢
    omega
  · have hnn : ¬ Progress.rnd (Progress.rnd v.toInt / Progress.rnd 10000000) < 0 := by
      have h2 : 0 ≤ Progress.rnd (v.toInt : Rat) := Progress.rnd_nonneg (by exact_mod_cast (by omega : 0 ≤ v.toInt))
      have := Progress.rnd_nonneg (div_nonneg h2 h10.le)
      linarith
    rw [if_neg hnn]
    exact near_of_nonneg v.toInt (by omega) (by omega)

/-! ### The lines -/

theorem lines_flatMap {α β : Type} {L : Text → β → Prop} (text : α → Text) (tells : α → β)
    (h : ∀ a, ∃ t, text a = t ++ ['\n'] ∧ L t (tells a)) (as : List α) : Lines L (as.flatMap text) (as.map tells) := by
  induction as with
  | nil => exact .nil
  | cons a as ih =>
    obtain ⟨t, h1, h2⟩ := h a
    rw [List.flatMap_cons, List.map_cons, h1, List.append_assoc]
    exact .cons h2 ih

/-- What a line of dumpwayindex says. -/
def waySays : Dump.WayLine → WaySays
  | .extract id locs => .way id.toInt (locs.map (·.toInt))
  | .failed id => .missing id.toInt
  | .found id locs => .way id.toInt (locs.map (·.toInt))

theorem way_shape (a b : Text) : a ++ " ".toList ++ '[' :: (b ++ [']']) ++ "\n".toList = (a ++ ' ' :: '[' :: (b ++ [']'])) ++ ['\n'] := by
  simp

theorem failed_shape (a : Text) : "XX failed to find way ".toList ++ a ++ "\n".toList =
    ("XX failed to find way ".toList ++ a) ++ ['\n'] := by
  simp

theorem extract_shape (x a b c d e : Text) :
    "Extract: ".toList ++ x ++ " (".toList ++ a ++ ", ".toList ++ b ++ ") [".toList ++
      c ++ "+".toList ++ d ++ "=".toList ++ e ++ "]\n".toList =
    ("Extract: ".toList ++ (x ++ ' ' :: '(' :: (a ++ ',' :: ' ' :: (b ++ ')' :: ' ' :: '[' :: (c ++ '+' ::
        (d ++ '=' :: (e ++ [']']))))))) ++ ['\n'] := by
  simp

theorem search_shape (x a b : Text) :
    " Search: ".toList ++ x ++ " (".toList ++ a ++ ", ".toList ++ b ++ ")\n".toList =
    (" Search: ".toList ++ (x ++ ' ' :: '(' :: (a ++ ',' :: ' ' :: (b ++ [')'])))) ++ ['\n'] := by
  simp

theorem waysText_says (ls : List Dump.WayLine) : Lines WayLine (waysText ls) (ls.map waySays) := by
  refine lines_flatMap _ _ (fun l => ?_) ls
  cases l with
  | extract id locs =>
    exact ⟨_, way_shape .., WayLine.way (fmtD_says id.toInt) (fmtVs_says locs)⟩
  | failed id => exact ⟨_, failed_shape .., WayLine.missing (fmtD_says id.toInt)⟩
  | found id locs =>
    exact ⟨_, way_shape .., WayLine.way (fmtD_says id.toInt) (fmtVs_says locs)⟩

/-- What a line of dumpnodeindex says. -/
def nodeSays : Dump.NodeLine → NodeSays
  | .extractSkip => .empty
  | .extract x lng lat first idx id =>
    .stored x.toNat (rounded (degrees lng)) (rounded (degrees lat)) first.toNat idx.toNat id.toNat
  | .searchSkip => .notFound
  | .search x lng lat => .found x.toNat (rounded (degrees lng)) (rounded (degrees lat))
  | .mismatch => .mismatch

theorem nodesText_says (ls : List Dump.NodeLine) : Lines NodeLine (nodesText ls) (ls.map nodeSays) := by
  refine lines_flatMap _ _ (fun l => ?_) ls
  cases l with
  | extractSkip => exact ⟨_, rfl, .empty⟩
  | searchSkip => exact ⟨_, rfl, .notFound⟩
  | mismatch => exact ⟨_, rfl, .mismatch⟩
  | extract x lng lat first idx id =>
    exact ⟨_, extract_shape .., NodeLine.stored (fmtX_says x) (fmtF_says (degrees lng)) (fmtF_says (degrees lat))
      (fmtD_says first.toNat) (fmtD_says idx.toNat) (fmtD_says id.toNat)⟩
  | search x lng lat =>
    exact ⟨_, search_shape .., NodeLine.found (fmtX_says x) (fmtF_says (degrees lng)) (fmtF_says (degrees lat))⟩

theorem fmtD_one (before after : String) (z : Int) : Says before after (before.toList ++ (fmtD z ++ after.toList)) z :=
  ⟨_, fmtD_says z, rfl⟩

theorem fmtD_two (before middle after : String) (y z : Int) :
    SaysTwo before middle after (before.toList ++ (fmtD y ++ middle.toList ++ (fmtD z ++ after.toList))) y z :=
  ⟨_, _, fmtD_says y, fmtD_says z, rfl⟩

theorem counts_shape (a b c d e f g h i : Text) :
    "Counted ".toList ++ a ++ " blocks\n".toList ++
    ("Counted ".toList ++ b ++ " nodes, ".toList ++ c ++ " max\n".toList) ++
    ("Counted ".toList ++ d ++ " ways, ".toList ++ e ++ " max\n".toList) ++
    ("Counted ".toList ++ f ++ " ways refs, ".toList ++ g ++ " maximum length\n".toList) ++
    ("Counted ".toList ++ h ++ " relations, ".toList ++ i ++ " max\n".toList) =
    ("Counted ".toList ++ (a ++ " blocks".toList)) ++ '\n' ::
    (("Counted ".toList ++ (b ++ " nodes, ".toList ++ (c ++ " max".toList))) ++ '\n' ::
    (("Counted ".toList ++ (d ++ " ways, ".toList ++ (e ++ " max".toList))) ++ '\n' ::
    (("Counted ".toList ++ (f ++ " ways refs, ".toList ++ (g ++ " maximum length".toList))) ++ '\n' ::
    (("Counted ".toList ++ (h ++ " relations, ".toList ++ (i ++ " max".toList))) ++ ['\n'])))) := by
  simp

theorem stats_shape (a b c d rest : Text) :
    "hitHint:      ".toList ++ a ++ "\n".toList ++ ("hitDefault:   ".toList ++ b ++ "\n".toList) ++
    ("missDefault:  ".toList ++ c ++ "\n".toList) ++ ("missDeferred: ".toList ++ d ++ "\n".toList) ++ rest =
    ("hitHint:      ".toList ++ (a ++ "".toList)) ++ '\n' :: (("hitDefault:   ".toList ++ (b ++ "".toList)) ++ '\n' ::
    (("missDefault:  ".toList ++ (c ++ "".toList)) ++ '\n' :: (("missDeferred: ".toList ++ (d ++ "".toList)) ++ '\n' ::
    rest))) := by
  simp

theorem countsText_says (m : Count.Var → UInt64) : CountReport (countsText m)
    ⟨(m .blockCount).toNat, (m .nodeCount).toNat, (m .maxNode).toNat, (m .wayCount).toNat, (m .maxWay).toNat,
      (m .wayRefCount).toNat, (m .maxWayRefCount).toNat, (m .relationCount).toNat, (m .maxRelation).toNat⟩ :=
  ⟨_, _, _, _, _, counts_shape .., fmtD_one .., fmtD_two .., fmtD_two .., fmtD_two .., fmtD_two ..⟩

/-- The buckets that are printed. -/
def nonzero : Nat → List UInt64 → List (Int × Int)
  | _, [] => []
  | i, c :: cs => if c ≠ 0 then ((i : Int), (c.toNat : Int)) :: nonzero (i + 1) cs else nonzero (i + 1) cs

theorem bucketsText_says (low high : Nat → Text) (h : ∀ i, ' ' ∉ low i ∧ '\n' ∉ low i ∧ ' ' ∉ high i ∧ '\n' ∉ high i)
    (cs : List UInt64) : ∀ i, Lines TimeLine (bucketsText low high i cs) (nonzero i cs) := by
  induction cs with
  | nil => exact fun _ => .nil
  | cons c cs ih =>
    intro i
    unfold bucketsText nonzero
    by_cases hc : c = 0
    · rw [if_neg (by simpa using hc), if_neg (by simpa using hc)]
      exact ih (i + 1)
    · rw [if_pos hc, if_pos hc]
      obtain ⟨h1, h2, h3, h4⟩ := h i
      have := Lines.cons (TimeLine.mk (fmtD_says i) (bounds := low i ++ '-' :: high i) (by simp_all) (by simp_all)
        (fmtD_says c.toNat)) (ih (i + 1))
      simpa using this

theorem statsText_says (low high : Nat → Text) (h : ∀ i, ' ' ∉ low i ∧ '\n' ∉ low i ∧ ' ' ∉ high i ∧ '\n' ∉ high i)
    (a b c d : UInt64) (cs : List UInt64) :
    StatsReport (statsText low high a b c d cs) a.toNat b.toNat c.toNat d.toNat (nonzero 0 cs) :=
  ⟨_, _, _, _, _, stats_shape .., fmtD_one .., fmtD_one .., fmtD_one .., fmtD_one .., bucketsText_says low high h cs 0⟩

end Osm.Text
