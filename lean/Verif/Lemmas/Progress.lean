import Verif.Lemmas.Float
import Verif.Spec.Progress

/-! # Progress bars -/

namespace Osm.Progress
open Osm Osm.Timing Osm.Spec

/-- The error of one rounding. -/
def B : Rat := 1 + 1 / 2 ^ 52

theorem B_ge : 1 ≤ B := by unfold B; norm_num
theorem B_pos : 0 < B := by unfold B; norm_num

/-- Equal up to `m` roundings. -/
def Close (m : Nat) (x y : Rat) : Prop := 0 ≤ x ∧ 0 ≤ y ∧ x ≤ y * B ^ m ∧ y ≤ x * B ^ m

theorem Bpow_ge (m : Nat) : 1 ≤ B ^ m := one_le_pow₀ B_ge

theorem Close.refl {x : Rat} (h : 0 ≤ x) : Close 0 x x := ⟨h, h, by simp, by simp⟩

theorem Close.mono {m n : Nat} {x y : Rat} (h : Close m x y) (hmn : m ≤ n) : Close n x y := by
  obtain ⟨h1, h2, h3, h4⟩ := h
  have := pow_le_pow_right₀ B_ge hmn
  exact ⟨h1, h2, h3.trans (mul_le_mul_of_nonneg_left this h2), h4.trans (mul_le_mul_of_nonneg_left this h1)⟩

theorem Close.rnd {m : Nat} {x y : Rat} (h : Close m x y) : Close (m + 1) (rnd x) y := by
  obtain ⟨h1, h2, h3, h4⟩ := h
  obtain ⟨a, b⟩ := abs_le.1 (rnd_near h1)
  have hr := rnd_nonneg h1
  have hb := Bpow_ge m
  have u1 : Progress.rnd x ≤ x * B := by
    have : x * B = x + x / 2 ^ 52 := by unfold B; ring
    have : x / 2 ^ 53 ≤ x / 2 ^ 52 := by
      rw [div_le_div_iff₀ (by norm_num) (by norm_num)]
      have : (2 : Rat) ^ 52 ≤ 2 ^ 53 := by norm_num
      exact mul_le_mul_of_nonneg_left this h1
    linarith
  have u2 : x ≤ Progress.rnd x * B := by
    have h5 : x * (1 - 1 / 2 ^ 53) ≤ Progress.rnd x := by
      have : x * (1 - 1 / 2 ^ 53) = x - x / 2 ^ 53 := by ring
      linarith
    have h6 : x * (1 - 1 / 2 ^ 53) * B ≤ Progress.rnd x * B := mul_le_mul_of_nonneg_right h5 B_pos.le
    have h7 : x ≤ x * (1 - 1 / 2 ^ 53) * B := by
      rw [mul_assoc]
      have : (1 : Rat) ≤ (1 - 1 / 2 ^ 53) * B := by unfold B; norm_num
      exact le_mul_of_one_le_right h1 this
    linarith
  refine ⟨hr, h2, ?_, ?_⟩
  · calc Progress.rnd x ≤ x * B := u1
      _ ≤ y * B ^ m * B := mul_le_mul_of_nonneg_right h3 B_pos.le
      _ = y * B ^ (m + 1) := by rw [pow_succ]; ring
  · calc y ≤ x * B ^ m := h4
      _ ≤ Progress.rnd x * B * B ^ m := mul_le_mul_of_nonneg_right u2 (by linarith)
      _ = Progress.rnd x * B ^ (m + 1) := by rw [pow_succ]; ring

theorem Close.div {m n : Nat} {x y p q : Rat} (h : Close m x y) (hpq : Close n p q) (hp : 0 < p) (hq : 0 < q) :
    Close (m + n) (x / p) (y / q) := by
  obtain ⟨h1, h2, h3, h4⟩ := h
  obtain ⟨_, _, h5, h6⟩ := hpq
  refine ⟨div_nonneg h1 hp.le, div_nonneg h2 hq.le, ?_, ?_⟩
  · rw [div_le_iff₀ hp, div_mul_eq_mul_div, div_mul_eq_mul_div, le_div_iff₀ hq, pow_add]
    calc x * q ≤ (y * B ^ m) * (p * B ^ n) := mul_le_mul h3 h6 hq.le (by have := Bpow_ge m; positivity)
      _ = _ := by ring
  · rw [div_le_iff₀ hq, div_mul_eq_mul_div, div_mul_eq_mul_div, le_div_iff₀ hp, pow_add]
    calc y * p ≤ (x * B ^ m) * (q * B ^ n) := mul_le_mul h4 h5 hp.le (by have := Bpow_ge m; positivity)
      _ = _ := by ring

theorem Close.add {m : Nat} {x y p q : Rat} (h : Close m x y) (hpq : Close m p q) : Close m (x + p) (y + q) := by
  obtain ⟨h1, h2, h3, h4⟩ := h
  obtain ⟨h5, h6, h7, h8⟩ := hpq
  refine ⟨by linarith, by linarith, ?_, ?_⟩ <;> nlinarith

theorem Close.mul {m n : Nat} {x y p q : Rat} (h : Close m x y) (hpq : Close n p q) : Close (m + n) (x * p) (y * q) := by
  obtain ⟨h1, h2, h3, h4⟩ := h
  obtain ⟨h5, h6, h7, h8⟩ := hpq
  have := Bpow_ge m
  have := Bpow_ge n
  refine ⟨mul_nonneg h1 h5, mul_nonneg h2 h6, ?_, ?_⟩
  · rw [pow_add]
    calc x * p ≤ (y * B ^ m) * (q * B ^ n) := mul_le_mul h3 h7 h5 (by positivity)
      _ = _ := by ring
  · rw [pow_add]
    calc y * q ≤ (x * B ^ m) * (p * B ^ n) := mul_le_mul h4 h8 h6 (by positivity)
      _ = _ := by ring

/-- Cutting off at 1. -/
theorem Close.clamp {m : Nat} {x y : Rat} (h : Close m x y) (hy : y ≤ 1) : Close m (if 1 < x then 1 else x) y := by
  obtain ⟨h1, h2, h3, h4⟩ := h
  split
  · refine ⟨by norm_num, h2, by linarith, ?_⟩
    have := Bpow_ge m
    linarith
  · exact ⟨h1, h2, h3, h4⟩

/-! ## Values -/

/-- The value of the clamped share of a file. -/
def cut (x : Rat) : Rat := if 1 < x then 1 else x

theorem clamp_fin {x : Rat} (h : 0 ≤ x) : clamp (.fin x) = .fin (cut x) := by
  unfold clamp cut
  dsimp only
  rw [if_neg h.not_gt]
  split <;> rfl

theorem cut_nonneg {x : Rat} (h : 0 ≤ x) : 0 ≤ cut x := by unfold cut; split <;> linarith
theorem cut_le (x : Rat) : cut x ≤ 1 := by unfold cut; split <;> linarith
theorem cut_mono {x y : Rat} (h : x ≤ y) : cut x ≤ cut y := by unfold cut; split_ifs <;> linarith
theorem cut_of_le {x : Rat} (h : x ≤ 1) : cut x = x := by unfold cut; rw [if_neg h.not_gt]
theorem cut_of_ge {x : Rat} (h : 1 ≤ x) : cut x = 1 := by unfold cut; split <;> linarith

/-- `float64(i)` -/
def fl (n : Nat) : Rat := rnd (n : Rat)

theorem float_nat (n : Nat) : float n = .fin (fl n) := by unfold float fl; norm_cast

theorem fl_nonneg (n : Nat) : 0 ≤ fl n := rnd_nonneg (Nat.cast_nonneg n)
theorem fl_pos {n : Nat} (h : n ≠ 0) : 0 < fl n := rnd_pos (by exact_mod_cast Nat.pos_of_ne_zero h)
theorem fl_mono {m n : Nat} (h : m ≤ n) : fl m ≤ fl n := rnd_mono (by exact_mod_cast h)
theorem fl_exact {n : Nat} (h : n ≤ 2 ^ 53) : fl n = n := by
  have := rnd_int (n : Int) (by omega) (by omega)
  unfold fl
  exact_mod_cast this
theorem fl_close (n : Nat) : Close 1 (fl n) n := (Close.refl (Nat.cast_nonneg n)).rnd

/-- The share of the file as computed. -/
def fileVal (a m : Nat) : Rat := rnd (fl a / fl m)

theorem filePct_eq (a m : UInt64) (hm : m ≠ 0) : filePct a m = .fin (fileVal a.toNat m.toNat) := by
  have h0 : m.toNat ≠ 0 := fun h => hm (UInt64.toNat_inj.1 (by simpa using h))
  unfold filePct fileVal
  rw [float_nat, float_nat]
  unfold div
  dsimp only
  rw [if_neg (fl_pos h0).ne']

theorem fileVal_nonneg (a m : Nat) : 0 ≤ fileVal a m := rnd_nonneg (div_nonneg (fl_nonneg a) (fl_nonneg m))

theorem fileVal_mono {a a' m : Nat} (h : a ≤ a') : fileVal a m ≤ fileVal a' m :=
  rnd_mono (div_le_div_of_nonneg_right (fl_mono h) (fl_nonneg m))

theorem fileVal_close {a m : Nat} (hm : m ≠ 0) : Close 3 (fileVal a m) (fileShare a m) :=
  ((fl_close a).div (fl_close m) (fl_pos hm) (by exact_mod_cast Nat.pos_of_ne_zero hm)).rnd

theorem fileShare_le {a m : Nat} (hm : m ≠ 0) (h : a ≤ m) : fileShare a m ≤ 1 := by
  unfold fileShare
  rw [div_le_one (by exact_mod_cast Nat.pos_of_ne_zero hm)]
  exact_mod_cast h

/-- The share of the passes as computed. -/
def passVal (k n a m : Nat) : Rat := rnd (rnd (fl k / fl n) + rnd (cut (fileVal a m) / fl n))

theorem passPct_eq (k n a m : UInt64) (hn : n ≠ 0) (hm : m ≠ 0) :
    passPct k n a m = .fin (passVal k.toNat n.toNat a.toNat m.toNat) := by
  have h0 : n.toNat ≠ 0 := fun h => hn (UInt64.toNat_inj.1 (by simpa using h))
  have hf := filePct_eq a m hm
  unfold filePct at hf
  unfold passPct passVal
  dsimp only
  rw [hf, clamp_fin (fileVal_nonneg _ _), if_pos (by simp), float_nat, float_nat]
  unfold div
  dsimp only
  rw [if_neg (fl_pos h0).ne', if_neg (fl_pos h0).ne']
  rfl

theorem passVal_nonneg (k n a m : Nat) : 0 ≤ passVal k n a m :=
  rnd_nonneg (add_nonneg (rnd_nonneg (div_nonneg (fl_nonneg k) (fl_nonneg n)))
    (rnd_nonneg (div_nonneg (cut_nonneg (fileVal_nonneg a m)) (fl_nonneg n))))

theorem passVal_mono {k n a a' m : Nat} (h : a ≤ a') : passVal k n a m ≤ passVal k n a' m := by
  unfold passVal
  refine rnd_mono (add_le_add (le_refl _) (rnd_mono ?_))
  exact div_le_div_of_nonneg_right (cut_mono (fileVal_mono h)) (fl_nonneg n)

theorem passVal_close {k n a m : Nat} (hn : n ≠ 0) (hm : m ≠ 0) (h : a ≤ m) :
    Close 6 (passVal k n a m) (passShare k n a m) := by
  have hn' : (0 : Rat) < n := by exact_mod_cast Nat.pos_of_ne_zero hn
  have h1 : Close 5 (rnd (fl k / fl n)) ((k : Rat) / n) :=
    (((fl_close k).div (fl_close n) (fl_pos hn) hn').rnd).mono (by omega)
  have h2 : Close 5 (rnd (cut (fileVal a m) / fl n)) (fileShare a m / n) :=
    (((fileVal_close hm).clamp (fileShare_le hm h)).div (fl_close n) (fl_pos hn) hn').rnd
  have := (h1.add h2).rnd
  unfold passVal passShare
  rw [add_div]
  exact this

theorem passShare_le {k n a m : Nat} (hm : m ≠ 0) (h : a ≤ m) (hk : k < n) : passShare k n a m ≤ 1 := by
  unfold passShare
  have h1 := fileShare_le hm h
  have h2 : ((k : Rat) + 1) ≤ n := by exact_mod_cast hk
  rw [div_le_one (by linarith [Nat.cast_nonneg (α := Rat) k])]
  linarith

/-- The position of the bar's end, before the fraction is cut off. -/
def place (w : Nat) (x : Rat) : Rat := rnd (fl w * cut x)

theorem columns_fin (other : Int) (w : Nat) {x : Rat} (h : 0 ≤ x) : columns other w (.fin x) = (place w x).floor := by
  unfold columns place
  rw [clamp_fin h, float_nat]
  rfl

theorem place_nonneg (w : Nat) {x : Rat} (h : 0 ≤ x) : 0 ≤ place w x :=
  rnd_nonneg (mul_nonneg (fl_nonneg w) (cut_nonneg h))

theorem place_mono (w : Nat) {x y : Rat} (h : x ≤ y) : place w x ≤ place w y :=
  rnd_mono (mul_le_mul_of_nonneg_left (cut_mono h) (fl_nonneg w))

theorem place_le {w : Nat} (hw : w ≤ 2 ^ 53) (x : Rat) : place w x ≤ w := by
  have : fl w * cut x ≤ fl w := mul_le_of_le_one_right (fl_nonneg w) (cut_le x)
  have := rnd_mono this
  rw [fl_exact hw] at this
  unfold place
  rw [fl_exact hw]
  refine this.trans (le_of_eq ?_)
  have := fl_exact hw
  unfold fl at this
  exact this

theorem place_full {w : Nat} (hw : w ≤ 2 ^ 53) {x : Rat} (hx : 1 ≤ x) : place w x = w := by
  unfold place
  rw [cut_of_ge hx, mul_one]
  unfold fl
  rw [rnd_idem]
  exact fl_exact hw

theorem place_close {w m : Nat} (hw : w ≤ 2 ^ 53) {x y : Rat} (h : Close m x y) (hy : y ≤ 1) :
    Close (m + 1) (place w x) (w * y) := by
  have h1 : Close 0 (fl w) w := by rw [fl_exact hw]; exact Close.refl (Nat.cast_nonneg w)
  have := (h1.mul (h.clamp hy)).rnd
  rw [Nat.zero_add] at this
  exact this

theorem B7 : B ^ 7 ≤ 1 + 1 / 2 ^ 49 := by unfold B; norm_num

theorem Close.upper {x y : Rat} (h : Close 7 x y) : x ≤ y * (1 + 1 / 2 ^ 49) :=
  h.2.2.1.trans (mul_le_mul_of_nonneg_left B7 h.2.1)

theorem Close.lower {x y : Rat} (h : Close 7 x y) : y * (1 - 1 / 2 ^ 49) ≤ x := by
  obtain ⟨h1, h2, h3, h4⟩ := h
  have : y ≤ x * (1 + 1 / 2 ^ 49) := h4.trans (mul_le_mul_of_nonneg_left B7 h1)
  have h5 : y * (1 - 1 / 2 ^ 49) ≤ x * (1 + 1 / 2 ^ 49) * (1 - 1 / 2 ^ 49) := mul_le_mul_of_nonneg_right this (by norm_num)
  have h6 : x * (1 + 1 / 2 ^ 49) * (1 - 1 / 2 ^ 49) ≤ x := by
    rw [mul_assoc]
    exact mul_le_of_le_one_right h1 (by norm_num)
  linarith

/-- The end of the bar is at most a column from where it should be. -/
theorem floor_within {v y : Rat} (h : Close 7 v y) :
    (v.floor : Rat) ≤ y * (1 + 1 / 2 ^ 49) ∧ y * (1 - 1 / 2 ^ 49) - 1 < v.floor := by
  obtain ⟨h1, h2⟩ := floor_spec v
  exact ⟨h1.trans h.upper, by linarith [h.lower]⟩

theorem floor_one_column {v y : Rat} (h : Close 7 v y) (hy : y ≤ 2 ^ 48) :
    y.floor - 1 ≤ v.floor ∧ v.floor ≤ y.floor + 1 := by
  obtain ⟨h1, h2⟩ := floor_within h
  obtain ⟨f1, f2⟩ := floor_spec y
  have h0 := h.2.1
  have he : y * (1 / 2 ^ 49) ≤ 1 / 2 := by
    have : y * (1 / 2 ^ 49) ≤ 2 ^ 48 * (1 / 2 ^ 49) := mul_le_mul_of_nonneg_right hy (by norm_num)
    refine this.trans (by norm_num)
  constructor
  · have : ((y.floor - 2 : Int) : Rat) < v.floor := by push_cast; nlinarith
    have : y.floor - 2 < v.floor := by exact_mod_cast this
    omega
  · have : (v.floor : Rat) < ((y.floor + 2 : Int) : Rat) := by push_cast; nlinarith
    have : v.floor < y.floor + 2 := by exact_mod_cast this
    omega

/-- The sum at the end of the last pass is rounded to at least 1. -/
theorem last_pass {n : Nat} (hn : n ≠ 0) (h53 : n ≤ 2 ^ 53) : 1 ≤ rnd (rnd (((n - 1 : Nat) : Rat) / n) + rnd (1 / n)) := by
  have h54 : rnd (1 - 1 / 2 ^ 54) = 1 := by decide +kernel
  have hn' : (0 : Rat) < n := by exact_mod_cast Nat.pos_of_ne_zero hn
  suffices h : (1 : Rat) - 1 / 2 ^ 54 ≤ rnd (((n - 1 : Nat) : Rat) / n) + rnd (1 / n) by
    have := rnd_mono h
    rw [h54] at this
    exact this
  by_cases h1 : n = 1
  · subst h1
    norm_num [rnd_zero, rnd_one]
  have h2 : 2 ≤ n := by omega
  have h2' : (2 : Rat) ≤ n := by exact_mod_cast h2
  have hc : ((n - 1 : Nat) : Rat) = n - 1 := by
    rw [Nat.cast_sub (by omega)]; norm_num
  rw [hc]
  have hinv : (1 : Rat) / n ≤ 1 / 2 := by
    rw [div_le_div_iff₀ hn' (by norm_num)]; linarith
  have hinv0 : (0 : Rat) < 1 / n := by positivity
  have hq : ((n : Rat) - 1) / n = 1 - 1 / n := by rw [sub_div, div_self hn'.ne']
  rw [hq]
  generalize (1 : Rat) / n = y at *
  have hx0 : (0 : Rat) < 1 - y := by linarith
  have hexp : expo (1 - y) = -1 := by
    refine expo_unique ?_ ?_
    · norm_num; linarith
    · norm_num; linarith
  obtain ⟨f1, f2⟩ := rndPos_form hx0
  have hnear := toNearest_near ((1 - y) / 2 ^ (expo (1 - y) - 52))
  have hr : rnd (1 - y) = toNearest ((1 - y) / 2 ^ (expo (1 - y) - 52)) * 2 ^ (expo (1 - y) - 52) := rnd_of_pos hx0
  rw [hexp] at f1 f2 hnear hr
  rw [show ((-1 : Int) - 52) = -53 by norm_num] at f1 f2 hnear hr
  rw [hr]
  generalize toNearest ((1 - y) / 2 ^ (-53 : Int)) = t at *
  have hp53 : (2 : Rat) ^ (-53 : Int) = 1 / 2 ^ 53 := by norm_num
  rw [hp53] at hnear ⊢
  rcases eq_or_lt_of_le f2 with he | hlt
  · subst he
    have := rnd_nonneg hinv0.le
    norm_num
    norm_num at this
    linarith
  · have hge : ((2 ^ 54 - 2 * t - 1 : Int) : Rat) * 2 ^ (-54 : Int) ≤ y := by
      have h3 := (abs_le.1 hnear).1
      have hd : (1 - y) / (1 / 2 ^ 53) = (1 - y) * 2 ^ 53 := by rw [div_div_eq_mul_div, div_one]
      rw [hd] at h3
      have hp54 : (2 : Rat) ^ (-54 : Int) = 1 / 2 ^ 54 := by norm_num
      rw [hp54]
      push_cast
      norm_num at h3 ⊢
      linarith
    have h4 := rnd_mono hge
    rw [rnd_exact _ _ (by omega) (by omega)] at h4
    have hp54 : (2 : Rat) ^ (-54 : Int) = 1 / 2 ^ 54 := by norm_num
    rw [hp54] at h4
    push_cast at h4
    norm_num at h4 ⊢
    linarith

end Osm.Progress
