import Verif.Model.Progress
import Mathlib.Algebra.Order.Field.Rat
import Mathlib.Algebra.Order.Field.Power
import Mathlib.Data.Rat.Floor
import Mathlib.Tactic.Linarith
import Mathlib.Tactic.NormNum
import Mathlib.Tactic.Positivity
import Mathlib.Tactic.Ring
import Mathlib.Tactic.FieldSimp

/-! # Rounding of float64 -/

namespace Osm.Progress
open Osm Osm.Timing

theorem two_pos (e : Int) : (0 : Rat) < 2 ^ e := by positivity

theorem two_mono {a b : Int} (h : a ≤ b) : (2 : Rat) ^ a ≤ 2 ^ b := zpow_le_zpow_right₀ (by norm_num) h

theorem two_lt {a b : Int} : (2 : Rat) ^ a < 2 ^ b ↔ a < b := zpow_lt_zpow_iff_right₀ (by norm_num)

theorem two_add (a b : Int) : (2 : Rat) ^ (a + b) = 2 ^ a * 2 ^ b := zpow_add₀ (by norm_num) a b

theorem log2_spec {n : Nat} (h : 0 < n) : (2 : Rat) ^ (n.log2 : Int) ≤ n ∧ (n : Rat) < 2 ^ ((n.log2 : Int) + 1) := by
  have h1 := Nat.log2_self_le (n := n) (by omega)
  have h2 := Nat.lt_log2_self (n := n)
  constructor
  · rw [zpow_natCast]; exact_mod_cast h1
  · have : ((n.log2 : Int) + 1) = ((n.log2 + 1 : Nat) : Int) := by push_cast; rfl
    rw [this, zpow_natCast]; exact_mod_cast h2

theorem expo_spec {q : Rat} (h : 0 < q) : (2 : Rat) ^ expo q ≤ q ∧ q < 2 ^ (expo q + 1) := by
  have hn : 0 < q.num := Rat.num_pos.2 h
  have hd : 0 < q.den := q.den_pos
  obtain ⟨n1, n2⟩ := log2_spec (n := q.num.toNat) (by omega)
  obtain ⟨d1, d2⟩ := log2_spec hd
  have hq : q = (q.num.toNat : Rat) / q.den := by
    have : ((q.num.toNat : Nat) : Rat) = (q.num : Rat) := by
      have : ((q.num.toNat : Nat) : Int) = q.num := by omega
      exact_mod_cast congrArg (Int.cast (R := Rat)) this
    rw [this]; exact (Rat.num_div_den q).symm
  have hd' : (0 : Rat) < q.den := by exact_mod_cast hd
  generalize ((q.num.toNat : Nat) : Rat) = n at *
  generalize hx : (q.num.toNat.log2 : Int) = a at *
  generalize hy : (q.den.log2 : Int) = b at *
  generalize (q.den : Rat) = d at *
  have hlow : (2 : Rat) ^ (a - b - 1) < q := by
    rw [hq, lt_div_iff₀ hd']
    calc (2 : Rat) ^ (a - b - 1) * d < 2 ^ (a - b - 1) * 2 ^ (b + 1) := by
          exact mul_lt_mul_of_pos_left d2 (two_pos _)
      _ = 2 ^ a := by rw [← two_add]; congr 1; omega
      _ ≤ n := n1
  have hup : q < (2 : Rat) ^ (a - b + 1) := by
    rw [hq, div_lt_iff₀ hd']
    calc n < 2 ^ (a + 1) := n2
      _ = 2 ^ (a - b + 1) * 2 ^ b := by rw [← two_add]; congr 1; omega
      _ ≤ 2 ^ (a - b + 1) * d := by exact mul_le_mul_of_nonneg_left d1 (two_pos _).le
  unfold expo
  rw [hx, hy]
  dsimp only
  split
  · rename_i hlt
    exact ⟨hlow.le, by rw [show a - b - 1 + 1 = a - b by omega]; exact hlt⟩
  · rename_i hge
    exact ⟨not_lt.1 hge, hup⟩

theorem expo_unique {q : Rat} {e : Int} (h1 : (2 : Rat) ^ e ≤ q) (h2 : q < 2 ^ (e + 1)) : expo q = e := by
  have h0 : 0 < q := lt_of_lt_of_le (two_pos e) h1
  obtain ⟨s1, s2⟩ := expo_spec h0
  have a := two_lt.1 (lt_of_le_of_lt h1 s2)
  have b := two_lt.1 (lt_of_le_of_lt s1 h2)
  omega

theorem expo_mono {p q : Rat} (hp : 0 < p) (h : p ≤ q) : expo p ≤ expo q := by
  have := two_lt.1 (lt_of_le_of_lt ((expo_spec hp).1.trans h) (expo_spec (lt_of_lt_of_le hp h)).2)
  omega

theorem floor_spec (m : Rat) : (m.floor : Rat) ≤ m ∧ m < m.floor + 1 :=
  ⟨Rat.floor_le m, by exact_mod_cast Rat.lt_floor_add_one m⟩

theorem toNearest_near (m : Rat) : |(toNearest m : Rat) - m| ≤ 1 / 2 := by
  obtain ⟨h1, h2⟩ := floor_spec m
  rw [abs_le]
  unfold toNearest
  split
  · constructor <;> linarith
  · split
    · push_cast; constructor <;> linarith
    · split
      · constructor <;> linarith
      · push_cast; constructor <;> linarith

theorem toNearest_int (k : Int) : toNearest k = k := by
  unfold toNearest
  rw [Rat.floor_intCast, if_pos]
  norm_num

theorem toNearest_mono {m n : Rat} (h : m ≤ n) : toNearest m ≤ toNearest n := by
  by_cases hf : m.floor = n.floor
  · unfold toNearest
    rw [hf]
    split_ifs <;> first | omega | (exfalso; linarith)
  · have hm := Rat.floor_monotone h
    have : m.floor + 1 ≤ n.floor := by omega
    have a : toNearest m ≤ m.floor + 1 := by
      unfold toNearest; split
      · omega
      · split
        · omega
        · split <;> omega
    have b : n.floor ≤ toNearest n := by
      unfold toNearest; split
      · omega
      · split
        · omega
        · split <;> omega
    omega


theorem toNearest_nonneg {m : Rat} (h : 0 ≤ m) : 0 ≤ toNearest m := by
  have := toNearest_mono h
  rwa [show (0 : Rat) = ((0 : Int) : Rat) by norm_num, toNearest_int] at this

/-! ## rndPos -/

/-- The scaled number has 53 bits. -/
theorem scaled {q : Rat} (h : 0 < q) :
    ((2 ^ 52 : Int) : Rat) ≤ q / 2 ^ (expo q - 52) ∧ q / 2 ^ (expo q - 52) < ((2 ^ 53 : Int) : Rat) := by
  obtain ⟨h1, h2⟩ := expo_spec h
  have hp := two_pos (expo q - 52)
  rw [le_div_iff₀ hp, div_lt_iff₀ hp]
  constructor
  · refine le_trans (le_of_eq ?_) h1
    have : (((2 ^ 52 : Int) : Rat)) = 2 ^ (52 : Int) := by norm_num
    rw [this, ← two_add]; congr 1; omega
  · refine lt_of_lt_of_eq h2 ?_
    have : (((2 ^ 53 : Int) : Rat)) = 2 ^ (53 : Int) := by norm_num
    rw [this, ← two_add]; congr 1; omega

/-- What rounding gives: 53 bits (or the next power of two). -/
theorem rndPos_form {q : Rat} (h : 0 < q) :
    (2 : Int) ^ 52 ≤ toNearest (q / 2 ^ (expo q - 52)) ∧ toNearest (q / 2 ^ (expo q - 52)) ≤ (2 : Int) ^ 53 := by
  obtain ⟨h1, h2⟩ := scaled h
  have a := toNearest_mono h1
  have b := toNearest_mono h2.le
  rw [toNearest_int] at a b
  exact ⟨a, b⟩

theorem rndPos_between {q : Rat} (h : 0 < q) : (2 : Rat) ^ expo q ≤ rndPos q ∧ rndPos q ≤ 2 ^ (expo q + 1) := by
  obtain ⟨h1, h2⟩ := rndPos_form h
  have hp := two_pos (expo q - 52)
  have e1 : ((2 ^ 52 : Int) : Rat) ≤ toNearest (q / 2 ^ (expo q - 52)) := by exact_mod_cast h1
  have e2 : (toNearest (q / 2 ^ (expo q - 52)) : Rat) ≤ ((2 ^ 53 : Int) : Rat) := by exact_mod_cast h2
  have f1 : (((2 ^ 52 : Int) : Rat)) = 2 ^ (52 : Int) := by norm_num
  have f2 : (((2 ^ 53 : Int) : Rat)) = 2 ^ (53 : Int) := by norm_num
  rw [f1] at e1
  rw [f2] at e2
  unfold rndPos
  constructor
  · calc (2 : Rat) ^ expo q = 2 ^ (52 : Int) * 2 ^ (expo q - 52) := by rw [← two_add]; congr 1; omega
      _ ≤ _ := mul_le_mul_of_nonneg_right e1 hp.le
  · calc _ ≤ (2 : Rat) ^ (53 : Int) * 2 ^ (expo q - 52) := mul_le_mul_of_nonneg_right e2 hp.le
      _ = _ := by rw [← two_add]; congr 1; omega

theorem rndPos_pos {q : Rat} (h : 0 < q) : 0 < rndPos q := lt_of_lt_of_le (two_pos _) (rndPos_between h).1

theorem rndPos_mono {p q : Rat} (hp : 0 < p) (h : p ≤ q) : rndPos p ≤ rndPos q := by
  have hq : 0 < q := lt_of_lt_of_le hp h
  rcases lt_or_eq_of_le (expo_mono hp h) with he | he
  · exact (rndPos_between hp).2.trans ((two_mono (by omega)).trans (rndPos_between hq).1)
  · unfold rndPos
    rw [he]
    refine mul_le_mul_of_nonneg_right ?_ (two_pos _).le
    exact_mod_cast toNearest_mono (div_le_div_of_nonneg_right h (two_pos _).le)

/-- The error is at most half a unit in the last place. -/
theorem rndPos_near {q : Rat} (h : 0 < q) : |rndPos q - q| ≤ 2 ^ (expo q - 53) := by
  have hp := two_pos (expo q - 52)
  have hn := toNearest_near (q / 2 ^ (expo q - 52))
  have : rndPos q - q = ((toNearest (q / 2 ^ (expo q - 52)) : Rat) - q / 2 ^ (expo q - 52)) * 2 ^ (expo q - 52) := by
    unfold rndPos
    field_simp
  rw [this, abs_mul, abs_of_pos hp]
  calc _ ≤ 1 / 2 * (2 : Rat) ^ (expo q - 52) := mul_le_mul_of_nonneg_right hn hp.le
    _ = 2 ^ (expo q - 53) := by
      rw [show expo q - 52 = expo q - 53 + 1 by omega, two_add]
      norm_num
      ring

/-- Numbers of at most 53 bits are not changed. -/
theorem rndPos_exact {q : Rat} (h : 0 < q) (k : Int) (j : Int) (hk : k ≤ 2 ^ 53) (he : q = k * 2 ^ j) : rndPos q = q := by
  have hk0 : 0 < k := by
    have : (0 : Rat) < k := by
      by_contra hc
      have := mul_nonpos_of_nonpos_of_nonneg (not_lt.1 hc) (two_pos j).le
      rw [← he] at this
      linarith
    exact_mod_cast this
  -- the scaled number is an integer
  have hint : ∃ i : Int, q / 2 ^ (expo q - 52) = i := by
    by_cases hj : expo q - 52 ≤ j
    · refine ⟨k * 2 ^ (j - (expo q - 52)).toNat, ?_⟩
      rw [div_eq_iff (two_pos _).ne']
      push_cast
      rw [mul_assoc, ← zpow_natCast, ← two_add,
        show (((j - (expo q - 52)).toNat : Nat) : Int) + (expo q - 52) = j by omega]
      exact he
    · -- then q is the power of two above
      have hlt : (2 : Rat) ^ expo q ≤ k * 2 ^ j := by rw [← he]; exact (expo_spec h).1
      have hk2 : (k : Rat) ≤ 2 ^ (53 : Int) := by
        have : (k : Rat) ≤ ((2 ^ 53 : Int) : Rat) := by exact_mod_cast hk
        rwa [show ((2 ^ 53 : Int) : Rat) = 2 ^ (53 : Int) by norm_num] at this
      have hle : k * (2 : Rat) ^ j ≤ 2 ^ (53 + j) := by
        rw [two_add]; exact mul_le_mul_of_nonneg_right hk2 (two_pos _).le
      have : expo q ≤ 53 + j := by
        by_contra hc
        have := two_lt.2 (not_le.1 hc)
        linarith
      have hej : expo q = 53 + j := by omega
      have hq2 : q = 2 ^ expo q := by
        rw [hej]; rw [hej] at hlt; linarith [he.symm ▸ hle]
      refine ⟨2 ^ 52, ?_⟩
      rw [div_eq_iff (two_pos _).ne']
      have : (((2 ^ 52 : Int) : Rat)) = 2 ^ (52 : Int) := by norm_num
      rw [this, ← two_add, show (52 : Int) + (expo q - 52) = expo q by omega]
      exact hq2
  obtain ⟨i, hi⟩ := hint
  unfold rndPos
  rw [hi, toNearest_int, ← hi, div_mul_cancel₀ _ (two_pos _).ne']


/-! ## rnd -/

theorem rnd_zero : rnd 0 = 0 := if_pos rfl

theorem rnd_of_pos {q : Rat} (h : 0 < q) : rnd q = rndPos q := by
  unfold rnd
  rw [if_neg h.ne', if_pos h]

theorem rnd_of_neg {q : Rat} (h : q < 0) : rnd q = -rndPos (-q) := by
  unfold rnd
  rw [if_neg h.ne, if_neg h.le.not_gt]

theorem rnd_neg (q : Rat) : rnd (-q) = -rnd q := by
  rcases lt_trichotomy q 0 with h | h | h
  · rw [rnd_of_neg h, rnd_of_pos (by linarith), neg_neg]
  · subst h; rw [neg_zero, rnd_zero, neg_zero]
  · rw [rnd_of_pos h, rnd_of_neg (by linarith), neg_neg]

theorem rnd_nonneg {q : Rat} (h : 0 ≤ q) : 0 ≤ rnd q := by
  rcases h.eq_or_lt with h | h
  · rw [← h, rnd_zero]
  · rw [rnd_of_pos h]; exact (rndPos_pos h).le

theorem rnd_pos {q : Rat} (h : 0 < q) : 0 < rnd q := by
  rw [rnd_of_pos h]; exact rndPos_pos h

theorem rnd_mono {p q : Rat} (h : p ≤ q) : rnd p ≤ rnd q := by
  rcases lt_trichotomy p 0 with hp | hp | hp
  · rcases lt_or_ge q 0 with hq | hq
    · rw [rnd_of_neg hp, rnd_of_neg hq]
      have := rndPos_mono (p := -q) (q := -p) (by linarith) (by linarith)
      linarith
    · have a := rnd_nonneg hq
      have b := rndPos_pos (q := -p) (by linarith)
      rw [rnd_of_neg hp]
      linarith
  · subst hp; rw [rnd_zero]; exact rnd_nonneg h
  · rw [rnd_of_pos hp, rnd_of_pos (lt_of_lt_of_le hp h)]
    exact rndPos_mono hp h

/-- Numbers of at most 53 bits are not changed. -/
theorem rnd_exact (k j : Int) (h0 : 0 ≤ k) (hk : k ≤ 2 ^ 53) : rnd (k * 2 ^ j) = k * 2 ^ j := by
  rcases h0.eq_or_lt with h | h
  · subst h; simp [rnd_zero]
  · have hq : (0 : Rat) < k * 2 ^ j := mul_pos (by exact_mod_cast h) (two_pos _)
    rw [rnd_of_pos hq]
    exact rndPos_exact hq k j hk rfl

theorem rnd_int (k : Int) (h0 : 0 ≤ k) (hk : k ≤ 2 ^ 53) : rnd k = k := by
  have := rnd_exact k 0 h0 hk
  simpa using this

theorem rnd_one : rnd 1 = 1 := by
  have := rnd_int 1 (by norm_num) (by norm_num)
  simpa using this

theorem rnd_idem (q : Rat) : rnd (rnd q) = rnd q := by
  have pos : ∀ q : Rat, 0 < q → rnd (rnd q) = rnd q := by
    intro q h
    obtain ⟨h1, h2⟩ := rndPos_form h
    have := rnd_exact (toNearest (q / 2 ^ (expo q - 52))) (expo q - 52) (by linarith) h2
    rw [rnd_of_pos h]
    exact this
  rcases lt_trichotomy q 0 with h | h | h
  · have := pos (-q) (by linarith)
    rw [rnd_neg, rnd_neg] at this
    linarith
  · subst h; rw [rnd_zero, rnd_zero]
  · exact pos q h

/-- The relative error is at most 2^-53. -/
theorem rnd_near {q : Rat} (h : 0 ≤ q) : |rnd q - q| ≤ q / 2 ^ 53 := by
  rcases h.eq_or_lt with h | h
  · rw [← h, rnd_zero]; norm_num
  · rw [rnd_of_pos h]
    refine (rndPos_near h).trans ?_
    rw [le_div_iff₀ (by norm_num)]
    refine le_trans (le_of_eq ?_) (expo_spec h).1
    rw [show ((2 : Rat) ^ 53) = 2 ^ (53 : Int) by norm_num, ← two_add]
    congr 1
    omega

/-- Rounding as IEEE 754 prescribes it has the properties which the timing (C75) needs. -/
def ieee : Rounding where
  rnd := rnd
  mono _ _ := rnd_mono
  one := rnd_one
  idem := rnd_idem
  below x hx := by
    have := abs_le.1 (rnd_near (q := x) (by linarith))
    have h2 : x / 2 ^ 53 * 2 ^ 53 = x := by norm_num
    nlinarith
  above x hx := by
    have := abs_le.1 (rnd_near (q := x) (by linarith))
    have h2 : x / 2 ^ 53 * 2 ^ 53 = x := by norm_num
    nlinarith

end Osm.Progress
