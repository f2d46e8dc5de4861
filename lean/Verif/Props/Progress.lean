import Verif.Lemmas.Progress
import Verif.Lemmas.Pipeline
import Verif.Props.Ui
import Verif.Lemmas.Timing

/-!
# C86: progress bars
-/

namespace Osm.Props
open Osm Osm.Spec Osm.Progress

theorem toNat_ne {x : UInt64} (h : x ≠ 0) : x.toNat ≠ 0 := fun hx => h (UInt64.toNat_inj.1 (by simpa using hx))

theorem floor_le_of_le {x : Rat} {n : Int} (h : x ≤ n) : x.floor ≤ n := by
  have := (floor_spec x).1.trans h
  exact_mod_cast this

theorem le_floor_of_le {x : Rat} {n : Int} (h : (n : Rat) ≤ x) : n ≤ x.floor := by
  have := lt_of_le_of_lt h (floor_spec x).2
  have : n < x.floor + 1 := by exact_mod_cast this
  omega

/-- C86: the bar of a pass is between nothing and the whole line. -/
theorem C86_bounds (other : Int) (pass count at_ max : UInt64) (w : Nat) (hw : w ≤ 2 ^ 53) (hc : count ≠ 0)
    (hm : max ≠ 0) :
    0 ≤ columns other w (passPct pass count at_ max) ∧ columns other w (passPct pass count at_ max) ≤ w := by
  rw [passPct_eq _ _ _ _ hc hm, columns_fin _ _ (passVal_nonneg _ _ _ _)]
  refine ⟨le_floor_of_le ?_, floor_le_of_le ?_⟩
  · exact_mod_cast place_nonneg w (passVal_nonneg _ _ _ _)
  · exact_mod_cast place_le hw _

/-- C86: so is the bar of a file. -/
theorem C86_file_bounds (other : Int) (at_ max : UInt64) (w : Nat) (hw : w ≤ 2 ^ 53) (hm : max ≠ 0) :
    0 ≤ columns other w (filePct at_ max) ∧ columns other w (filePct at_ max) ≤ w := by
  rw [filePct_eq _ _ hm, columns_fin _ _ (fileVal_nonneg _ _)]
  refine ⟨le_floor_of_le ?_, floor_le_of_le ?_⟩
  · exact_mod_cast place_nonneg w (fileVal_nonneg _ _)
  · exact_mod_cast place_le hw _

/-- C86: within a pass the bar does not get shorter. -/
theorem C86_grows (other : Int) (pass count at_ at' max : UInt64) (w : Nat) (hc : count ≠ 0) (hm : max ≠ 0)
    (h : at_ ≤ at') :
    columns other w (passPct pass count at_ max) ≤ columns other w (passPct pass count at' max) := by
  rw [passPct_eq _ _ _ _ hc hm, passPct_eq _ _ _ _ hc hm, columns_fin _ _ (passVal_nonneg _ _ _ _),
    columns_fin _ _ (passVal_nonneg _ _ _ _)]
  exact Rat.floor_monotone (place_mono w (passVal_mono (UInt64.le_iff_toNat_le.1 h)))

/-- C86: nor does the bar of a file. -/
theorem C86_file_grows (other : Int) (at_ at' max : UInt64) (w : Nat) (hm : max ≠ 0) (h : at_ ≤ at') :
    columns other w (filePct at_ max) ≤ columns other w (filePct at' max) := by
  rw [filePct_eq _ _ hm, filePct_eq _ _ hm, columns_fin _ _ (fileVal_nonneg _ _), columns_fin _ _ (fileVal_nonneg _ _)]
  exact Rat.floor_monotone (place_mono w (fileVal_mono (UInt64.le_iff_toNat_le.1 h)))

theorem pass_close {pass count at_ max : UInt64} {w : Nat} (hw : w ≤ 2 ^ 53) (hp : pass < count) (hm : max ≠ 0)
    (h : at_ ≤ max) :
    Close 7 (place w (passVal pass.toNat count.toNat at_.toNat max.toNat))
      (w * passShare pass.toNat count.toNat at_.toNat max.toNat) := by
  have hp' := UInt64.lt_iff_toNat_lt.1 hp
  have ha := UInt64.le_iff_toNat_le.1 h
  exact place_close hw (passVal_close (by omega) (toNat_ne hm) ha) (passShare_le (toNat_ne hm) ha hp')

theorem count_ne {pass count : UInt64} (hp : pass < count) : count ≠ 0 := by
  intro h
  subst h
  have := UInt64.lt_iff_toNat_lt.1 hp
  simp at this

theorem share_mul_le {w : Nat} (hw : w ≤ 2 ^ 48) {x : Rat} (hx : x ≤ 1) : (w : Rat) * x ≤ 2 ^ 48 := by
  have : (w : Rat) ≤ 2 ^ 48 := by exact_mod_cast hw
  exact (mul_le_of_le_one_right (Nat.cast_nonneg w) hx).trans this

/-- C86: the end of the bar is at most one column from the exact place. -/
theorem C86_one_column (other : Int) (pass count at_ max : UInt64) (w : Nat) (hw : w ≤ 2 ^ 48) (hp : pass < count)
    (hm : max ≠ 0) (h : at_ ≤ max) :
    let exact := ((w : Rat) * passShare pass.toNat count.toNat at_.toNat max.toNat).floor
    exact - 1 ≤ columns other w (passPct pass count at_ max) ∧ columns other w (passPct pass count at_ max) ≤ exact + 1 := by
  intro exact
  rw [passPct_eq _ _ _ _ (count_ne hp) hm, columns_fin _ _ (passVal_nonneg _ _ _ _)]
  refine floor_one_column (pass_close (by omega) hp hm h) (share_mul_le hw ?_)
  exact passShare_le (toNat_ne hm) (UInt64.le_iff_toNat_le.1 h) (UInt64.lt_iff_toNat_lt.1 hp)

/-- C86: and so is that of a file's bar. -/
theorem C86_file_one_column (other : Int) (at_ max : UInt64) (w : Nat) (hw : w ≤ 2 ^ 48) (hm : max ≠ 0) (h : at_ ≤ max) :
    let exact := ((w : Rat) * fileShare at_.toNat max.toNat).floor
    exact - 1 ≤ columns other w (filePct at_ max) ∧ columns other w (filePct at_ max) ≤ exact + 1 := by
  intro exact
  have ha := UInt64.le_iff_toNat_le.1 h
  have hs := fileShare_le (toNat_ne hm) ha
  rw [filePct_eq _ _ hm, columns_fin _ _ (fileVal_nonneg _ _)]
  exact floor_one_column ((place_close (by omega) (fileVal_close (toNat_ne hm)) hs).mono (by omega)) (share_mul_le hw hs)

/-- C86: from one moment to a later one, in the same pass or another, the bar gets at most one column shorter. -/
theorem C86_back_at_most_one (other : Int) (pass pass' count at_ at' max max' : UInt64) (w : Nat) (hw : w ≤ 2 ^ 48)
    (hp : pass < count) (hp' : pass' < count) (hm : max ≠ 0) (hm' : max' ≠ 0) (h : at_ ≤ max) (h' : at' ≤ max')
    (hs : passShare pass.toNat count.toNat at_.toNat max.toNat ≤ passShare pass'.toNat count.toNat at'.toNat max'.toNat) :
    columns other w (passPct pass count at_ max) ≤ columns other w (passPct pass' count at' max') + 1 := by
  rw [passPct_eq _ _ _ _ (count_ne hp) hm, columns_fin _ _ (passVal_nonneg _ _ _ _),
    passPct_eq _ _ _ _ (count_ne hp') hm', columns_fin _ _ (passVal_nonneg _ _ _ _)]
  have c1 := pass_close (w := w) (by omega) hp hm h
  have c2 := pass_close (w := w) (by omega) hp' hm' h'
  obtain ⟨a1, _⟩ := floor_within c1
  obtain ⟨_, b2⟩ := floor_within c2
  have hx1 : passShare pass.toNat count.toNat at_.toNat max.toNat ≤ 1 :=
    passShare_le (toNat_ne hm) (UInt64.le_iff_toNat_le.1 h) (UInt64.lt_iff_toNat_lt.1 hp)
  have hw0 : (0 : Rat) ≤ w := Nat.cast_nonneg w
  have hle := mul_le_mul_of_nonneg_left hs hw0
  have hb := share_mul_le hw hx1
  have h0 := c1.2.1
  generalize (w : Rat) * passShare pass.toNat count.toNat at_.toNat max.toNat = x at *
  generalize (w : Rat) * passShare pass'.toNat count.toNat at'.toNat max'.toNat = y at *
  have e1 : x * (1 - 1 / 2 ^ 49) ≤ y * (1 - 1 / 2 ^ 49) := mul_le_mul_of_nonneg_right hle (by norm_num)
  have e2 : x * (1 + 1 / 2 ^ 49) - x * (1 - 1 / 2 ^ 49) ≤ 1 := by
    have : x * (1 + 1 / 2 ^ 49) - x * (1 - 1 / 2 ^ 49) = x * (1 / 2 ^ 48) := by ring
    rw [this]
    refine (mul_le_mul_of_nonneg_right hb (by norm_num)).trans (by norm_num)
  generalize (place w (passVal pass.toNat count.toNat at_.toNat max.toNat)).floor = i at *
  generalize (place w (passVal pass'.toNat count.toNat at'.toNat max'.toNat)).floor = j at *
  have : (i : Rat) < ((j + 2 : Int) : Rat) := by push_cast; linarith
  have : i < j + 2 := by exact_mod_cast this
  omega

/-- A later pass is later. -/
theorem C86_later_pass (pass pass' count at_ at' max max' : UInt64) (hp : pass < pass') (hm : max ≠ 0) (h : at_ ≤ max) :
    passShare pass.toNat count.toNat at_.toNat max.toNat ≤ passShare pass'.toNat count.toNat at'.toNat max'.toNat := by
  unfold passShare
  refine div_le_div_of_nonneg_right ?_ (Nat.cast_nonneg _)
  have h1 := fileShare_le (toNat_ne hm) (UInt64.le_iff_toNat_le.1 h)
  have h2 : (pass.toNat : Rat) + 1 ≤ pass'.toNat := by exact_mod_cast UInt64.lt_iff_toNat_lt.1 hp
  have h3 : 0 ≤ fileShare at'.toNat max'.toNat := by unfold fileShare; positivity
  linarith

/-- C86: it does get shorter: in a line of 90 columns, at the end of pass 14 of 20 it is 63 columns long, and 62 at the
beginning of pass 15. -/
theorem C86_steps_back :
    columns 0 90 (passPct 13 20 7 7) = 63 ∧ columns 0 90 (passPct 14 20 0 7) = 62 := by
  decide +kernel

/-- C86: at the end of the last pass it covers the whole line. -/
theorem C86_full_at_end (other : Int) (pass count max : UInt64) (w : Nat) (hw : w ≤ 2 ^ 53) (hc : count ≤ 2 ^ 53)
    (hp : pass.toNat + 1 = count.toNat) (hm : max ≠ 0) :
    columns other w (passPct pass count max max) = w := by
  have hc0 : count ≠ 0 := by intro h; subst h; simp at hp
  have hc' := UInt64.le_iff_toNat_le.1 hc
  rw [show (2 ^ 53 : UInt64).toNat = 2 ^ 53 by decide +kernel] at hc'
  rw [passPct_eq _ _ _ _ hc0 hm, columns_fin _ _ (passVal_nonneg _ _ _ _)]
  have : passVal pass.toNat count.toNat max.toNat max.toNat =
      rnd (rnd (((count.toNat - 1 : Nat) : Rat) / count.toNat) + rnd (1 / count.toNat)) := by
    unfold passVal fileVal
    rw [div_self (fl_pos (toNat_ne hm)).ne', rnd_one, cut_of_le (le_refl _), fl_exact hc', fl_exact (by omega),
      show pass.toNat = count.toNat - 1 by omega]
  rw [this, place_full hw (last_pass (by omega) hc')]
  exact_mod_cast Rat.floor_intCast (w : Int)

/-- C86: and so does the bar of a file at its end. -/
theorem C86_file_full_at_end (other : Int) (max : UInt64) (w : Nat) (hw : w ≤ 2 ^ 53) (hm : max ≠ 0) :
    columns other w (filePct max max) = w := by
  rw [filePct_eq _ _ hm, columns_fin _ _ (fileVal_nonneg _ _)]
  unfold fileVal
  rw [div_self (fl_pos (toNat_ne hm)).ne', rnd_one, place_full hw (le_refl _)]
  exact_mod_cast Rat.floor_intCast (w : Int)

/-- A share that is nearly 1 is 1 if the denominator is small. -/
theorem share_full {k n a m : Nat} (hk : k < n) (hm : m ≠ 0) (h : a ≤ m) (hs : n * m ≤ 2 ^ 49)
    (hge : 1 ≤ passShare k n a m * (1 + 1 / 2 ^ 49)) : k + 1 = n ∧ a = m := by
  have hn' : (0 : Rat) < n := by exact_mod_cast (show 0 < n by omega)
  have hm' : (0 : Rat) < m := by exact_mod_cast Nat.pos_of_ne_zero hm
  by_contra hne
  have hnum : k * m + a + 1 ≤ n * m := by
    have h1 : (k + 1) * m ≤ n * m := Nat.mul_le_mul_right m (by omega)
    rw [Nat.add_mul, Nat.one_mul] at h1
    by_cases ha : a = m
    · have : k + 2 ≤ n := by omega
      have h2 : (k + 2) * m ≤ n * m := Nat.mul_le_mul_right m this
      rw [Nat.add_mul] at h2
      omega
    · omega
  have hs' : passShare k n a m = ((k * m + a : Nat) : Rat) / ((n * m : Nat) : Rat) := by
    unfold passShare fileShare
    push_cast
    field_simp
  have hd : (0 : Rat) < ((n * m : Nat) : Rat) := by push_cast; positivity
  rw [hs'] at hge
  have hle : ((k * m + a : Nat) : Rat) ≤ ((n * m : Nat) : Rat) - 1 := by
    have : ((k * m + a + 1 : Nat) : Rat) ≤ ((n * m : Nat) : Rat) := by exact_mod_cast hnum
    push_cast at this ⊢
    linarith
  have h49 : ((n * m : Nat) : Rat) ≤ 2 ^ 49 := by exact_mod_cast hs
  generalize ((n * m : Nat) : Rat) = d at *
  generalize ((k * m + a : Nat) : Rat) = x at *
  rw [div_mul_eq_mul_div, le_div_iff₀ hd, one_mul] at hge
  have h1 : x * (1 + 1 / 2 ^ 49) ≤ (d - 1) * (1 + 1 / 2 ^ 49) := mul_le_mul_of_nonneg_right hle (by norm_num)
  have h2 : (d - 1) * (1 + 1 / 2 ^ 49) = d - 1 + d / 2 ^ 49 - 1 / 2 ^ 49 := by ring
  have h3 : d / 2 ^ 49 ≤ 1 := by rw [div_le_one (by norm_num)]; exact h49
  have h4 : (0 : Rat) < 1 / 2 ^ 49 := by norm_num
  linarith

/-- C86: it covers the whole line only then. -/
theorem C86_full_iff (other : Int) (pass count at_ max : UInt64) (w : Nat) (hw : w ≤ 2 ^ 53) (hw0 : 0 < w)
    (hp : pass < count) (hm : max ≠ 0) (h : at_ ≤ max) (hs : count.toNat * max.toNat ≤ 2 ^ 49) :
    columns other w (passPct pass count at_ max) = w ↔ pass.toNat + 1 = count.toNat ∧ at_ = max := by
  have hp' := UInt64.lt_iff_toNat_lt.1 hp
  have ha := UInt64.le_iff_toNat_le.1 h
  constructor
  · intro he
    rw [passPct_eq _ _ _ _ (count_ne hp) hm, columns_fin _ _ (passVal_nonneg _ _ _ _)] at he
    have c := (floor_within (pass_close (w := w) hw hp hm h)).1
    rw [he] at c
    have hw' : (0 : Rat) < w := by exact_mod_cast hw0
    have : 1 ≤ passShare pass.toNat count.toNat at_.toNat max.toNat * (1 + 1 / 2 ^ 49) := by
      rw [mul_assoc] at c
      push_cast at c
      have c' : (w : Rat) * 1 ≤ w * (passShare pass.toNat count.toNat at_.toNat max.toNat * (1 + 1 / 2 ^ 49)) := by
        rw [mul_one]; exact c
      exact le_of_mul_le_mul_left c' hw'
    obtain ⟨e1, e2⟩ := share_full hp' (toNat_ne hm) ha hs this
    exact ⟨e1, UInt64.toNat_inj.1 e2⟩
  · rintro ⟨e1, rfl⟩
    refine C86_full_at_end other pass count at_ w hw ?_ e1 hm
    rw [UInt64.le_iff_toNat_le, show (2 ^ 53 : UInt64).toNat = 2 ^ 53 by decide +kernel]
    have : count.toNat * 1 ≤ count.toNat * at_.toNat := Nat.mul_le_mul_left _ (Nat.pos_of_ne_zero (toNat_ne hm))
    omega

/-- C86: before the size of the file is known, the bar of a pass is as at its beginning. -/
theorem C86_not_started (other : Int) (pass count max : UInt64) (w : Nat) (hc : count ≠ 0) (hm : max ≠ 0) :
    columns other w (passPct pass count 0 0) = columns other w (passPct pass count 0 max) := by
  have h1 : passPct pass count 0 0 = .fin (rnd (fl pass.toNat / fl count.toNat)) := by
    have hz : float ((0 : UInt64).toNat : Int) = .fin 0 := by
      rw [float_nat]; simp [fl, rnd_zero]
    unfold passPct
    dsimp only
    rw [hz]
    have : clamp (div (.fin 0) (.fin 0)) = .nan := by
      unfold div
      simp [clamp]
    rw [this, if_neg (by simp), float_nat, float_nat]
    unfold div
    dsimp only
    rw [if_neg (fl_pos (toNat_ne hc)).ne']
  have h2 : passVal pass.toNat count.toNat (0 : UInt64).toNat max.toNat = rnd (fl pass.toNat / fl count.toNat) := by
    unfold passVal fileVal
    have : fl (0 : UInt64).toNat = 0 := by simp [fl, rnd_zero]
    rw [this, zero_div, rnd_zero, cut_of_le (by norm_num), zero_div, rnd_zero, add_zero, rnd_idem]
  rw [h1, passPct_eq _ _ _ _ hc hm, h2]

/-! ## What is shown -/

theorem decimal_plain (n : Nat) : '%'.toUInt8 ∉ decimal n := by
  unfold decimal
  intro h
  obtain ⟨c, hc, he⟩ := List.mem_map.1 h
  have hd := Nat.isDigit_of_mem_toDigits (by omega) (by omega) hc
  unfold Char.isDigit at hd
  simp only [Bool.and_eq_true, decide_eq_true_eq] at hd
  have h1 : 48 ≤ c.toNat := UInt32.le_iff_toNat_le.1 hd.1
  have h2 : c.toNat ≤ 57 := UInt32.le_iff_toNat_le.1 hd.2
  have := congrArg UInt8.toNat he
  rw [UInt8.toNat_ofNat', Nat.mod_eq_of_lt (by omega), show ('%'.toUInt8).toNat = 37 by decide] at this
  omega

theorem passMsg_plain (pass count : UInt64) : '%'.toUInt8 ∉ passMsg pass count := by
  unfold passMsg
  simp only [List.mem_append, not_or]
  refine ⟨⟨⟨by decide, decimal_plain _⟩, by decide⟩, decimal_plain _⟩

/-- C86: what stands out of a line is the bar, except that nothing stands out when the bar reaches the end of the text and of
the line. -/
theorem C86_standing_out (other : Int) (s : List UInt8) (hs : '%'.toUInt8 ∉ s) (w : Nat) (hw : 0 < w) (pct : Timing.F64)
    (h0 : 0 ≤ columns other w pct) :
    (standingOut (Progress.MarkupAsProgress other s w pct) : Int) =
      if columns other w pct < max w s.length then columns other w pct else 0 := by
  have hlen : (filled s w).length = max w s.length := by
    unfold filled
    simp only [List.length_append, List.length_replicate]
    omega
  unfold Progress.MarkupAsProgress
  generalize columns other w pct = pre at *
  obtain ⟨p, rfl⟩ : ∃ p : Nat, pre = p := ⟨pre.toNat, by omega⟩
  unfold standingOut
  have cS : ∀ l : List UInt8, (l.map fun c => ('S'.toUInt8, c)).countP (fun c => c.1 == 'S'.toUInt8) = l.length := by
    intro l
    rw [List.countP_map]
    exact List.countP_eq_length.2 (by intro a _; rfl)
  have cN : ∀ l : List UInt8, (l.map fun c => ('N'.toUInt8, c)).countP (fun c => c.1 == 'S'.toUInt8) = 0 := by
    intro l
    rw [List.countP_map]
    exact List.countP_eq_zero.2 (by intro a _; show ¬ (('N'.toUInt8 == 'S'.toUInt8) = true); decide)
  by_cases hp : p < (filled s w).length
  · rw [C67_bar_partial s w hw p hp, List.countP_append, cS, cN, List.length_take, if_pos (by omega)]
    omega
  · have he : Ui.MarkupAsProgress s w p = filled s w := by
      unfold Ui.MarkupAsProgress
      rw [if_neg (by omega)]
      dsimp only
      rw [padRight_eq, if_neg (by omega), if_pos (by omega)]
    rw [he, shown_plain _ _ (fun hx => hs ((percent_filled s w).1 hx)), cN, if_neg (by omega)]
    rfl

/-- C86: for the line of the file this is its part that has been read, within a column. -/
theorem C86_file_standing_out (other : Int) (msg : List UInt8) (hs : '%'.toUInt8 ∉ msg) (at_ max : UInt64) (w : Nat) (hw : 0 < w)
    (hw' : w ≤ 2 ^ 48) (hm : max ≠ 0) (h : at_ ≤ max) :
    let exact := ((w : Rat) * fileShare at_.toNat max.toNat).floor
    shownText (fileMarkup other msg at_ max w) = filled msg w ∧
      ((standingOut (fileMarkup other msg at_ max w) = 0 ∧ Max.max (w : Int) msg.length ≤ exact + 1) ∨
        exact - 1 ≤ standingOut (fileMarkup other msg at_ max w) ∧ standingOut (fileMarkup other msg at_ max w) ≤ exact + 1) := by
  intro exact
  have h1 := C86_standing_out other msg hs w hw (filePct at_ max) (C86_file_bounds other at_ max w (by omega) hm).1
  have h2 := C86_file_one_column other at_ max w hw' hm h
  dsimp only at h2
  refine ⟨(C67_exact_iff _ w hw _).2 (Or.inr hs), ?_⟩
  unfold fileMarkup
  split at h1
  · exact .inr (by rw [h1]; exact h2)
  · refine .inl ⟨by omega, ?_⟩
    have := h2.2
    omega

/-- C86: the line of a pass shows its text, filled up. -/
theorem C86_pass_text (other : Int) (pass count at_ max : UInt64) (w : Nat) (hw : 0 < w) :
    shownText (passMarkup other pass count at_ max w) = filled (passMsg pass count) w :=
  (C67_exact_iff _ w hw _).2 (Or.inr (passMsg_plain pass count))

theorem decimal_lt {n : Nat} (h : n < 10) : decimal n = [UInt8.ofNat (48 + n)] := by
  unfold decimal
  rw [Nat.toDigits_of_lt_base h]
  revert h; revert n; decide

theorem decimal_ge {n : Nat} (h : 10 ≤ n) : decimal n = decimal (n / 10) ++ [UInt8.ofNat (48 + n % 10)] := by
  have h2 : decimal (n % 10) = [UInt8.ofNat (48 + n % 10)] := decimal_lt (Nat.mod_lt _ (by omega))
  rw [← h2]
  unfold decimal
  rw [Nat.toDigits_of_base_le (by omega) h, List.map_append, Nat.toDigits_of_lt_base (Nat.mod_lt n (by omega : 10 > 0))]

theorem decimal_numeral (n : Nat) : Numeral (decimal n) n ∧ (0 < n → (decimal n).head? ≠ some '0'.toUInt8) := by
  induction n using Nat.strongRecOn with
  | ind n ih =>
    by_cases h : n < 10
    · rw [decimal_lt h]
      revert h; revert n
      unfold Numeral
      intro n _ h
      have : ∀ n < 10, ([UInt8.ofNat (48 + n)] ≠ [] ∧ (∀ c ∈ [UInt8.ofNat (48 + n)], '0'.toNat ≤ c.toNat ∧ c.toNat ≤ '9'.toNat) ∧
        (1 < [UInt8.ofNat (48 + n)].length → [UInt8.ofNat (48 + n)].head? ≠ some '0'.toUInt8) ∧
        digitsValue [UInt8.ofNat (48 + n)] = n) ∧ (0 < n → [UInt8.ofNat (48 + n)].head? ≠ some '0'.toUInt8) := by decide
      exact this n h
    · obtain ⟨⟨i1, i2, i3, i4⟩, i5⟩ := ih (n / 10) (by omega)
      have hm : n % 10 < 10 := Nat.mod_lt _ (by omega)
      have hd : (UInt8.ofNat (48 + n % 10)).toNat = 48 + n % 10 := by
        rw [UInt8.toNat_ofNat', Nat.mod_eq_of_lt (by omega)]
      have hh : (decimal n).head? ≠ some '0'.toUInt8 := by
        rw [decimal_ge (by omega)]
        cases hq : decimal (n / 10) with
        | nil => exact absurd hq i1
        | cons a l =>
          have := i5 (by omega)
          rw [hq] at this
          exact this
      refine ⟨⟨?_, ?_, fun _ => hh, ?_⟩, fun _ => hh⟩
      · rw [decimal_ge (by omega)]; simp
      · rw [decimal_ge (by omega)]
        intro c hc
        rcases List.mem_append.1 hc with hc | hc
        · exact i2 c hc
        · rw [List.mem_singleton.1 hc, hd, show '0'.toNat = 48 from rfl, show '9'.toNat = 57 from rfl]; omega
      · rw [decimal_ge (by omega)]
        unfold digitsValue at i4 ⊢
        rw [List.foldl_append, i4]
        simp only [List.foldl_cons, List.foldl_nil, hd, show '0'.toNat = 48 from rfl]
        omega

/-- C86: and this text is "Pass", the number of the pass, counted from 1, a slash, and the number of passes. -/
theorem C86_pass_says (other : Int) (pass count at_ max : UInt64) (w : Nat) (hw : 0 < w) (hp : pass < count) :
    ∃ a b, Numeral a (pass.toNat + 1) ∧ Numeral b count.toNat ∧
      shownText (passMarkup other pass count at_ max w) = filled ("Pass ".toUTF8.toList ++ a ++ "/".toUTF8.toList ++ b) w := by
  refine ⟨decimal (pass.toNat + 1), decimal count.toNat, (decimal_numeral _).1, (decimal_numeral _).1, ?_⟩
  rw [C86_pass_text _ _ _ _ _ _ hw]
  unfold passMsg
  have hlt := UInt64.lt_iff_toNat_lt.1 hp
  have hc := UInt64.toNat_lt count
  rw [show (pass + 1).toNat = pass.toNat + 1 from by rw [UInt64.toNat_add]; exact Nat.mod_eq_of_lt (by simp; omega)]
  rw [show "Pass ".toList.map (fun c => UInt8.ofNat c.toNat) = "Pass ".toUTF8.toList by decide +kernel,
    show [UInt8.ofNat '/'.toNat] = "/".toUTF8.toList by decide +kernel]

/-- C86: at the end of the last pass nothing stands out. -/
theorem C86_vanishes (other : Int) (pass count max : UInt64) (w : Nat) (hw : w ≤ 2 ^ 53) (hc : count ≤ 2 ^ 53)
    (hp : pass.toNat + 1 = count.toNat) (hm : max ≠ 0) (hlen : (passMsg pass count).length ≤ w) (hw0 : 0 < w) :
    standingOut (passMarkup other pass count max max w) = 0 := by
  have hcol := C86_full_at_end other pass count max w hw hc hp hm
  have := C86_standing_out other (passMsg pass count) (passMsg_plain _ _) w hw0 (passPct pass count max max) (by omega)
  rw [hcol, if_neg (by omega)] at this
  unfold passMarkup
  omega

/-! ## In a run -/

/-- The position in the file only grows. -/
theorem pos_grows {O : Type} {c : Pbf.Cfg O} {n : Nat} {s s' : Pbf.St O} (h : Pbf.Steps c n s s') : s.pos ≤ s'.pos := by
  induction h with
  | refl => exact Nat.le_refl _
  | step _ hs ih =>
    refine Nat.le_trans ih ?_
    obtain ⟨_, hs⟩ := hs
    cases hs <;> simp only [Nat.le_refl, Nat.le_add_right]

/-- C86: whatever the workers do, during a run over a file the bars do not get shorter. -/
theorem C86_run {O : Type} (c : Pbf.Cfg O) (workers n n' : Nat) (s s' : Pbf.St O) (hl : c.file.length < 2 ^ 63)
    (hne : c.file ≠ []) (h : Pbf.Steps c n (Pbf.St.init c workers) s) (h' : Pbf.Steps c n' s s')
    (other : Int) (pass count : UInt64) (hc : count ≠ 0) (w : Nat) :
    columns other w (passPct pass count (UInt64.ofNat s.pos) (UInt64.ofNat c.file.length)) ≤
        columns other w (passPct pass count (UInt64.ofNat s'.pos) (UInt64.ofNat c.file.length)) ∧
      columns other w (filePct (UInt64.ofNat s.pos) (UInt64.ofNat c.file.length)) ≤
        columns other w (filePct (UInt64.ofNat s'.pos) (UInt64.ofNat c.file.length)) := by
  have inv : ∀ {k : Nat} {s0 t : Pbf.St O}, Pbf.AInv c s0 → Pbf.Steps c k s0 t → Pbf.AInv c t := by
    intro k s0 t h0 hs
    induction hs with
    | refl => exact h0
    | step _ hs ih => exact (ih h0).step hl hs.2
  have i1 := inv (Pbf.AInv.init c workers) h
  have i2 := inv i1 h'
  have p1 := i1.pos_le hl
  have p2 := i2.pos_le hl
  have hpos := pos_grows h'
  have hle : UInt64.ofNat s.pos ≤ UInt64.ofNat s'.pos := by
    rw [UInt64.le_iff_toNat_le, UInt64.toNat_ofNat', UInt64.toNat_ofNat', Nat.mod_eq_of_lt (by omega),
      Nat.mod_eq_of_lt (by omega)]
    exact hpos
  have hm : UInt64.ofNat c.file.length ≠ 0 := by
    intro he
    have := congrArg UInt64.toNat he
    rw [UInt64.toNat_ofNat', Nat.mod_eq_of_lt (by omega)] at this
    exact hne (List.length_eq_zero_iff.1 this)
  exact ⟨C86_grows other pass count _ _ _ w hc hm hle, C86_file_grows other _ _ _ w hm hle⟩

/-! ## C75 with rounding errors -/

theorem divs_ge (R : Timing.Rounding) {f : Rat} (hf : 1 < f) : ∀ (k fuel : Nat) (d : Rat) (i n : Nat), (f * B) ^ k < d →
    Timing.divisions R (.fin f) fuel (.fin d) i = .ok n → i + k + 1 ≤ n := by
  have hfB : 1 ≤ f * B := by have := B_ge; nlinarith
  intro k
  induction k with
  | zero =>
    intro fuel d i n hd h
    cases fuel with
    | zero => cases h
    | succ fuel =>
      unfold Timing.divisions at h
      rw [if_pos (by simpa [Timing.F64.gt1] using hd)] at h
      have := Timing.divisions_ge R _ _ _ _ _ h
      omega
  | succ k ih =>
    intro fuel d i n hd h
    cases fuel with
    | zero => cases h
    | succ fuel =>
      have hp : (1 : Rat) ≤ (f * B) ^ k := one_le_pow₀ hfB
      have hd1 : 1 < d := lt_of_le_of_lt (one_le_pow₀ hfB) hd
      unfold Timing.divisions at h
      rw [if_pos (by simpa [Timing.F64.gt1] using hd1)] at h
      have hdiv : (Timing.F64.fin d).div R (.fin f) = .fin (R.rnd (d / f)) := by
        unfold Timing.F64.div
        dsimp only
        rw [if_neg (by linarith)]
      rw [hdiv] at h
      have hq : (f * B) ^ k * B < d / f := by
        rw [lt_div_iff₀ (by linarith)]
        calc (f * B) ^ k * B * f = (f * B) ^ (k + 1) := by rw [pow_succ]; ring
          _ < d := hd
      have hq1 : 1 ≤ d / f := by
        have := B_ge
        have : (1 : Rat) ≤ (f * B) ^ k * B := by nlinarith
        linarith
      have ha := R.above _ hq1
      have hr : (f * B) ^ k < R.rnd (d / f) := by
        have h1 : (f * B) ^ k * B * (2 ^ 53 - 1) < R.rnd (d / f) * 2 ^ 53 :=
          lt_of_lt_of_le (mul_lt_mul_of_pos_right hq (by norm_num)) ha
        have h2 : (2 : Rat) ^ 53 ≤ B * (2 ^ 53 - 1) := by unfold B; norm_num
        have h3 : (f * B) ^ k * 2 ^ 53 ≤ (f * B) ^ k * (B * (2 ^ 53 - 1)) := mul_le_mul_of_nonneg_left h2 (by linarith)
        have h4 : (f * B) ^ k * 2 ^ 53 < R.rnd (d / f) * 2 ^ 53 := by
          rw [← mul_assoc] at h3; linarith
        exact lt_of_mul_lt_mul_right h4 (by norm_num)
      have := ih fuel _ (i + 1) n hr h
      omega

theorem divs_le (R : Timing.Rounding) {f : Rat} (hf : 1 < f) : ∀ (k fuel : Nat) (d : Rat) (i : Nat), k < fuel →
    d * B ^ k ≤ f ^ k → ∃ n, Timing.divisions R (.fin f) fuel (.fin d) i = .ok n ∧ n ≤ i + k := by
  have stop : ∀ (fuel : Nat) (d : Rat) (i : Nat), 0 < fuel → d ≤ 1 → Timing.divisions R (.fin f) fuel (.fin d) i = .ok i := by
    intro fuel d i hfuel hd
    obtain ⟨fuel, rfl⟩ : ∃ m, fuel = m + 1 := ⟨fuel - 1, by omega⟩
    unfold Timing.divisions
    rw [if_neg (by simpa [Timing.F64.gt1] using hd)]
  intro k
  induction k with
  | zero =>
    intro fuel d i hfuel hd
    exact ⟨i, stop fuel d i hfuel (by simpa using hd), by omega⟩
  | succ k ih =>
    intro fuel d i hfuel hd
    obtain ⟨fuel, rfl⟩ : ∃ m, fuel = m + 1 := ⟨fuel - 1, by omega⟩
    by_cases h1 : 1 < d
    · have hdiv : (Timing.F64.fin d).div R (.fin f) = .fin (R.rnd (d / f)) := by
        unfold Timing.F64.div
        dsimp only
        rw [if_neg (by linarith)]
      have hstep : Timing.divisions R (.fin f) (fuel + 1) (.fin d) i = Timing.divisions R (.fin f) fuel (.fin (R.rnd (d / f))) (i + 1) := by
        rw [Timing.divisions, if_pos (by simpa [Timing.F64.gt1] using h1), hdiv]
      rw [hstep]
      by_cases hx : 1 ≤ d / f
      · have hb := R.below _ hx
        have hr : R.rnd (d / f) ≤ d / f * B := by
          have h2 : (2 ^ 53 + 1 : Rat) ≤ B * 2 ^ 53 := by unfold B; norm_num
          have h3 : d / f * (2 ^ 53 + 1) ≤ d / f * (B * 2 ^ 53) := mul_le_mul_of_nonneg_left h2 (by linarith)
          have h4 : R.rnd (d / f) * 2 ^ 53 ≤ d / f * B * 2 ^ 53 := by rw [mul_assoc (d / f)]; linarith
          exact le_of_mul_le_mul_right h4 (by norm_num)
        have hle : R.rnd (d / f) * B ^ k ≤ f ^ k := by
          have := Bpow_ge k
          calc R.rnd (d / f) * B ^ k ≤ d / f * B * B ^ k := mul_le_mul_of_nonneg_right hr (by linarith)
            _ = d * B ^ (k + 1) / f := by rw [pow_succ]; ring
            _ ≤ f ^ (k + 1) / f := div_le_div_of_nonneg_right hd (by linarith)
            _ = f ^ k := by rw [pow_succ, mul_div_assoc, div_self (by linarith), mul_one]
        obtain ⟨n, h, hn⟩ := ih fuel _ (i + 1) (by omega) hle
        exact ⟨n, h, by omega⟩
      · have := R.mono (d / f) 1 (by linarith)
        rw [R.one] at this
        exact ⟨i + 1, stop fuel _ _ (by omega) this, by omega⟩
    · exact ⟨i, stop _ _ _ (by omega) (by linarith), by omega⟩

/-- C75: with any rounding, the k-th counter counts the lookups that took more than factor^k and at most factor^(k+1)
ticks, with a relative error of 2^-52 per division. -/
theorem C75_bucket_near (R : Timing.Rounding) (f : Rat) (hf : 1 < f) (t : Timing.Ticks) (q : Rat) (ht : t.delta R = .fin q)
    (hq : q < 6600000000) (k : Nat) (h1 : (f * (1 + 1 / 2 ^ 52)) ^ k < q) (h2 : q * (1 + 1 / 2 ^ 52) ^ (k + 1) ≤ f ^ (k + 1))
    (fuel : Nat) (hfuel : k + 1 < fuel) :
    Timing.bucket R (.fin f) fuel t = if k < 200 then .ok (some k) else .panic := by
  have hq1 : 1 < q := lt_of_le_of_lt (one_le_pow₀ (by nlinarith)) h1
  obtain ⟨n, hn, hle⟩ := divs_le R hf (k + 1) fuel q 0 hfuel h2
  have hge := divs_ge R hf k fuel q 0 n h1 hn
  have : n = k + 1 := by omega
  subst this
  unfold Timing.bucket
  rw [ht, show (Timing.F64.fin q).gt1 = true by simpa [Timing.F64.gt1] using hq1,
    show (Timing.F64.fin q).fast = true by simpa [Timing.F64.fast] using hq, if_pos (by rfl), hn, Res.ok_bind]
  simp

/-- Factor 1.2 as a float64, and a lookup of 1000 ticks: 1.2^37 < 1000 ≤ 1.2^38. -/
example : Timing.bucket ieee (.fin (rnd (6 / 5))) 300 ⟨5000, 6100, 100⟩ = .ok (some 37) :=
  C75_bucket_near ieee _ (by decide +kernel) _ 1000 (by decide +kernel) (by norm_num) 37 (by decide +kernel) (by decide +kernel) 300
    (by norm_num)

/-- C75: in terms of the time stamp counter, which may wrap: a lookup that took d ticks more than the overhead (d is an
integer that a float64 can represent) is counted by the k-th counter if d is between factor^k and factor^(k+1)... -/
theorem C75_elapsed (R : Timing.Rounding) (f : Rat) (hf : 1 < f) (t : Timing.Ticks) (d : Nat) (hd : d < 6600000000)
    (hr : R.rnd d = d) (ht : t.stop = t.start + t.overhead + UInt64.ofNat d) (k : Nat) (h1 : (f * (1 + 1 / 2 ^ 52)) ^ k < d)
    (h2 : (d : Rat) * (1 + 1 / 2 ^ 52) ^ (k + 1) ≤ f ^ (k + 1)) (fuel : Nat) (hfuel : k + 1 < fuel) :
    Timing.bucket R (.fin f) fuel t = if k < 200 then .ok (some k) else .panic := by
  refine C75_bucket_near R f hf t d ?_ (by exact_mod_cast hd) k h1 h2 fuel hfuel
  unfold Timing.Ticks.delta Timing.ofInt
  have e : (t.stop - t.start) - t.overhead = UInt64.ofNat d := by
    rw [ht, UInt64.add_assoc, UInt64.add_comm t.start, UInt64.add_sub_cancel, UInt64.add_comm t.overhead, UInt64.add_sub_cancel]
  rw [e]
  have : (UInt64.ofNat d).toInt64.toInt = d := by
    rw [UInt64.toInt64_ofNat', Int64.toInt_ofNat_of_lt (by omega)]
  rw [this]
  exact congrArg _ (by exact_mod_cast hr)

/-- ...and by none if it took no longer than 1 tick, less than the overhead (which is measured, so that can happen), or
2 seconds or more. -/
theorem C75_not_counted (R : Timing.Rounding) (f : Timing.F64) (t : Timing.Ticks) (d : Int) (hlo : -2 ^ 63 ≤ d) (hhi : d < 2 ^ 63)
    (ht : t.stop = t.start + t.overhead + (Int64.ofInt d).toUInt64) (h : d ≤ 1 ∨ 6600000000 ≤ d ∧ R.rnd 6600000000 = 6600000000)
    (fuel : Nat) : Timing.bucket R f fuel t = .ok none := by
  unfold Timing.bucket
  have e : (t.stop - t.start) - t.overhead = (Int64.ofInt d).toUInt64 := by
    rw [ht, UInt64.add_assoc, UInt64.add_comm t.start, UInt64.add_sub_cancel, UInt64.add_comm t.overhead, UInt64.add_sub_cancel]
  have e2 : t.delta R = .fin (R.rnd d) := by
    unfold Timing.Ticks.delta Timing.ofInt
    rw [e, Int64.toInt64_toUInt64, Int64.toInt_ofInt_of_le hlo hhi]
  rw [e2, if_neg ?_]
  rcases h with h | ⟨h, hr⟩
  · have := R.mono d 1 (by exact_mod_cast h)
    rw [R.one] at this
    simp [Timing.F64.gt1, this]
  · have := R.mono 6600000000 d (by exact_mod_cast h)
    rw [hr] at this
    simp [Timing.F64.fast, this]

/-- Factor 1.2 as a float64, and a lookup of 1000 ticks: 1.2^37 < 1000 ≤ 1.2^38; the counter wraps on the way. -/
example : Timing.bucket ieee (.fin (rnd (6 / 5))) 300 ⟨18446744073709551615, 1099, 100⟩ = .ok (some 37) :=
  C75_elapsed ieee _ (by decide +kernel) _ 1000 (by norm_num) (by decide +kernel) (by decide +kernel) 37 (by decide +kernel)
    (by decide +kernel) 300 (by norm_num)

/-- A lookup faster than the overhead. -/
example : Timing.bucket ieee (.fin 2) 300 ⟨5000, 5090, 100⟩ = .ok none :=
  C75_not_counted ieee _ _ (-10) (by decide) (by decide) (by decide +kernel) (Or.inl (by decide)) 300

/-! ## Examples -/

/-- Three passes over a file of 1000 bytes, in a line of 80 columns. -/
example : columns 0 80 (passPct 0 3 0 1000) = 0 ∧ columns 0 80 (passPct 0 3 999 1000) = 26 ∧
    columns 0 80 (passPct 1 3 0 1000) = 26 ∧ columns 0 80 (passPct 1 3 500 1000) = 40 ∧
    columns 0 80 (passPct 2 3 999 1000) = 79 ∧ columns 0 80 (passPct 2 3 1000 1000) = 80 := by decide +kernel

/-- A column short: 63 would be exact. -/
example : columns 0 90 (filePct 7 10) = 62 := by decide +kernel

/-- The line of a pass. -/
example : standingOut (passMarkup 0 1 3 500 1000 80) = 40 ∧ standingOut (passMarkup 0 2 3 999 1000 80) = 79 ∧
    standingOut (passMarkup 0 2 3 1000 1000 80) = 0 := by decide +kernel

example : (passMsg 1 3).length = 8 ∧ passMsg 1 3 = "Pass 2/3".toUTF8.toList := by decide +kernel

end Osm.Props
