import Verif.Model.Timing
import Verif.Lemmas.Cancel
import Mathlib.Algebra.Order.Field.Rat
import Mathlib.Tactic.Linarith
import Mathlib.Tactic.NormNum
import Mathlib.Tactic.Positivity

/-! # Timing of lookups -/

namespace Osm.Timing
open Osm Osm.T Osm.Pbf Osm.NodeIndex

theorem divisions_ge (R : Rounding) (f : F64) : ∀ (fuel : Nat) (d : F64) (i n : Nat), divisions R f fuel d i = .ok n → i ≤ n := by
  intro fuel
  induction fuel with
  | zero => intro d i n h; cases h
  | succ fuel ih =>
    intro d i n h
    unfold divisions at h
    split at h
    · have := ih _ _ _ h; omega
    · cases h; omega

/-- Dividing by at least 1.12 a number below 1.1199^k ends after at most k rounds. -/
theorem divisions_ends (R : Rounding) (f : Rat) (hf : 28 / 25 ≤ f) : ∀ (k fuel : Nat) (d : Rat) (i : Nat), k < fuel →
    d ≤ (11199 / 10000) ^ k → ∃ n, divisions R (.fin f) fuel (.fin d) i = .ok n ∧ n ≤ i + k := by
  intro k
  induction k with
  | zero =>
    intro fuel d i hfuel hd
    obtain ⟨fuel, rfl⟩ : ∃ m, fuel = m + 1 := ⟨fuel - 1, by omega⟩
    refine ⟨i, ?_, by omega⟩
    unfold divisions
    rw [if_neg]
    simp only [F64.gt1, decide_eq_true_eq, not_lt]
    simpa using hd
  | succ k ih =>
    intro fuel d i hfuel hd
    obtain ⟨fuel, rfl⟩ : ∃ m, fuel = m + 1 := ⟨fuel - 1, by omega⟩
    unfold divisions
    by_cases h1 : 1 < d
    · rw [if_pos (by simpa [F64.gt1] using h1)]
      have hf0 : f ≠ 0 := by intro h; rw [h] at hf; norm_num at hf
      have hfp : 0 < f := by linarith
      have hq : R.rnd (d / f) ≤ (11199 / 10000) ^ k := by
        have hk : (1 : Rat) ≤ (11199 / 10000) ^ k := one_le_pow₀ (by norm_num)
        by_cases hx : 1 ≤ d / f
        · have hb := R.below _ hx
          have hd' : d / f ≤ d * (25 / 28) := by
            rw [div_le_iff₀ hfp]
            nlinarith
          have : d ≤ (11199 / 10000) ^ k * (11199 / 10000) := by rw [← pow_succ]; exact hd
          generalize (11199 / 10000 : Rat) ^ k = p at *
          nlinarith
        · have := R.mono (d / f) 1 (by linarith)
          rw [R.one] at this
          linarith
      have hdiv : (F64.fin d).div R (.fin f) = .fin (R.rnd (d / f)) := by
        unfold F64.div
        dsimp only
        rw [if_neg hf0]
      rw [hdiv]
      obtain ⟨n, hn, hle⟩ := ih fuel (R.rnd (d / f)) (i + 1) (by omega) hq
      exact ⟨n, hn, by omega⟩
    · rw [if_neg (by simpa [F64.gt1] using h1)]
      exact ⟨i, rfl, by omega⟩

/-- Dividing by a factor of at most 1 never ends. -/
theorem divisions_hang (R : Rounding) (f : Rat) (h0 : 0 ≤ f) (h1 : f ≤ 1) : ∀ (fuel : Nat) (d : F64) (i : Nat),
    (d = .posInf ∨ ∃ q, d = .fin q ∧ 1 < q ∧ R.rnd q = q) → divisions R (.fin f) fuel d i = .hang := by
  intro fuel
  induction fuel with
  | zero => intro d i _; rfl
  | succ fuel ih =>
    intro d i h
    unfold divisions
    rcases h with rfl | ⟨q, rfl, hq, hr⟩
    · rw [if_pos (by rfl)]
      refine ih _ _ (Or.inl ?_)
      unfold F64.div
      dsimp only
      rw [if_neg (not_lt.2 h0)]
    · rw [if_pos (by simpa [F64.gt1] using hq)]
      unfold F64.div
      dsimp only
      split
      · exact ih _ _ (Or.inl rfl)
      · rename_i hf
        have hfp : 0 < f := lt_of_le_of_ne h0 (Ne.symm hf)
        have : q ≤ q / f := by
          rw [le_div_iff₀ hfp]
          nlinarith
        have hm := R.mono _ _ this
        rw [hr] at hm
        exact ih _ _ (Or.inr ⟨_, rfl, by linarith, R.idem _⟩)

/-- The number of rounds without rounding errors. -/
theorem divisions_exact (R : Rounding) (hR : ∀ x, R.rnd x = x) (f : Rat) (hf : 1 < f) : ∀ (k fuel : Nat) (d : Rat) (i : Nat),
    k + 1 < fuel → f ^ k < d → d ≤ f ^ (k + 1) → divisions R (.fin f) fuel (.fin d) i = .ok (i + k + 1) := by
  have hfp : 0 < f := by linarith
  have hdiv : ∀ d : Rat, (F64.fin d).div R (.fin f) = .fin (d / f) := by
    intro d
    unfold F64.div
    dsimp only
    rw [if_neg (by linarith), hR]
  intro k
  induction k with
  | zero =>
    intro fuel d i hfuel h1 h2
    obtain ⟨fuel, rfl⟩ : ∃ m, fuel = m + 2 := ⟨fuel - 2, by omega⟩
    rw [pow_zero] at h1
    rw [zero_add, pow_one] at h2
    unfold divisions
    rw [if_pos (by simpa [F64.gt1] using h1), hdiv]
    unfold divisions
    have : ¬ (F64.fin (d / f)).gt1 = true := by
      simp only [F64.gt1, decide_eq_true_eq, not_lt]
      rw [div_le_iff₀ hfp]
      linarith
    rw [if_neg this]
  | succ k ih =>
    intro fuel d i hfuel h1 h2
    obtain ⟨fuel, rfl⟩ : ∃ m, fuel = m + 1 := ⟨fuel - 1, by omega⟩
    have hk : (1 : Rat) ≤ f ^ (k + 1) := one_le_pow₀ (by linarith)
    unfold divisions
    rw [if_pos (by simp only [F64.gt1, decide_eq_true_eq]; linarith), hdiv]
    rw [ih fuel (d / f) (i + 1) (by omega) (by rw [lt_div_iff₀ hfp, ← pow_succ]; exact h1)
      (by rw [div_le_iff₀ hfp, ← pow_succ]; exact h2)]
    congr 1
    omega

/-- With a small factor there are many rounds. -/
theorem divisions_many (R : Rounding) (f : Rat) (h0 : 0 < f) (hf : f ≤ 17 / 16) : ∀ (k fuel : Nat) (d : Rat) (i n : Nat),
    (11 / 10) ^ k < d → divisions R (.fin f) fuel (.fin d) i = .ok n → i + k < n := by
  intro k
  induction k with
  | zero =>
    intro fuel d i n hd h
    cases fuel with
    | zero => cases h
    | succ fuel =>
      unfold divisions at h
      rw [if_pos (by simpa [F64.gt1] using hd)] at h
      have := divisions_ge _ _ _ _ _ _ h
      omega
  | succ k ih =>
    intro fuel d i n hd h
    cases fuel with
    | zero => cases h
    | succ fuel =>
      have hk : (1 : Rat) ≤ (11 / 10) ^ k := one_le_pow₀ (by norm_num)
      unfold divisions at h
      have hd1 : 1 < d := by rw [pow_succ] at hd; linarith
      rw [if_pos (by simpa [F64.gt1] using hd1)] at h
      have hdiv : (F64.fin d).div R (.fin f) = .fin (R.rnd (d / f)) := by
        unfold F64.div
        dsimp only
        rw [if_neg (by linarith)]
      rw [hdiv] at h
      have hx : d * (16 / 17) ≤ d / f := by
        rw [le_div_iff₀ h0]
        nlinarith
      have h1 : 1 ≤ d / f := by rw [pow_succ] at hd; linarith
      have ha := R.above _ h1
      have := ih fuel (R.rnd (d / f)) (i + 1) n (by
        rw [pow_succ] at hd
        generalize (11 / 10 : Rat) ^ k = p at *
        nlinarith) h
      omega

theorem findNode_timed (R : Rounding) (timing : Option F64) (fuel : Nat) (t : Ticks) (si : SubIdx) (id : UInt64) (hint : Int)
    {r : Found × Option Nat} (h : FindNode R timing fuel t si id hint = .ok r) : si.findNode id hint = .ok r.1 := by
  unfold FindNode at h
  cases timing with
  | none =>
    obtain ⟨x, h1, h2⟩ := Res.bind_eq_ok.1 h
    cases h2
    exact h1
  | some f =>
    obtain ⟨x, h1, h2⟩ := Res.bind_eq_ok.1 h
    obtain ⟨b, h3, h4⟩ := Res.bind_eq_ok.1 h2
    cases h4
    exact h1

theorem rewriteRefs_timed (e : Env) (si : SubIdx) : ∀ (rs : List Int64) (k : Nat) (hint : Int) {x},
    rewriteRefs e si k hint rs = .ok x → Rewrite.rewriteRefs si hint rs = .ok (x.1, x.2.1) := by
  intro rs
  induction rs with
  | nil => intro k hint x h; cases h; rfl
  | cons r rs ih =>
    intro k hint x h
    unfold rewriteRefs at h
    unfold Rewrite.rewriteRefs
    split at h
    · rename_i hr
      rw [if_pos hr]
      obtain ⟨y, h1, h2⟩ := Res.bind_eq_ok.1 h
      cases h2
      rw [ih _ _ h1]
      rfl
    · rename_i hr
      rw [if_neg hr]
      obtain ⟨f, h1, h2⟩ := Res.bind_eq_ok.1 h
      obtain ⟨y, h3, h4⟩ := Res.bind_eq_ok.1 h2
      cases h4
      rw [findNode_timed _ _ _ _ _ _ _ h1, Res.ok_bind, ih _ _ h3]
      rfl

theorem rewriteWays_timed (e : Env) (si : SubIdx) : ∀ (ws : List Way) (k : Nat) (hint : Int) {x},
    rewriteWays e si k hint ws = .ok x → Rewrite.rewriteWays si hint ws = .ok (x.1, x.2.1) := by
  intro ws
  induction ws with
  | nil => intro k hint x h; cases h; rfl
  | cons w ws ih =>
    intro k hint x h
    unfold rewriteWays at h
    unfold Rewrite.rewriteWays
    obtain ⟨f, h1, h2⟩ := Res.bind_eq_ok.1 h
    obtain ⟨y, h3, h4⟩ := Res.bind_eq_ok.1 h2
    cases h4
    rw [rewriteRefs_timed _ _ _ _ _ h1, Res.ok_bind, ih _ _ h3]
    rfl

theorem rewriteGroups_timed (e : Env) (si : SubIdx) : ∀ (gs : List T.PrimitiveGroup) (k : Nat) (hint : Int) {x},
    rewriteGroups e si k hint gs = .ok x → Rewrite.rewriteGroups si hint gs = .ok (x.1, x.2.1) := by
  intro gs
  induction gs with
  | nil => intro k hint x h; cases h; rfl
  | cons g gs ih =>
    intro k hint x h
    unfold rewriteGroups at h
    unfold Rewrite.rewriteGroups
    obtain ⟨f, h1, h2⟩ := Res.bind_eq_ok.1 h
    obtain ⟨y, h3, h4⟩ := Res.bind_eq_ok.1 h2
    cases h4
    rw [rewriteWays_timed _ _ _ _ _ h1, Res.ok_bind, ih _ _ h3]
    rfl

theorem rewriteWork_timed (inflate : Inflate) (sched : Block → Sched) (env : Block → Env) (si : SubIdx) (b : Block)
    {x : Rewrite.Out} (h : rewriteWork inflate sched env si b = .ok x) : Rewrite.rewriteWork inflate sched si b = .ok x := by
  unfold rewriteWork at h
  unfold Rewrite.rewriteWork
  split at h
  · rename_i hk
    rw [if_pos hk]
    exact h
  · rename_i hk
    rw [if_neg hk]
    obtain ⟨raw, h1, h2⟩ := Res.bind_eq_ok.1 h
    obtain ⟨pb, h3, h4⟩ := Res.bind_eq_ok.1 h2
    rw [h1, Res.ok_bind, h3, Res.ok_bind]
    unfold Rewrite.rewriteDecoded
    split at h4
    · rename_i ht
      rw [if_pos ht]
      exact h4
    · rename_i ht
      rw [if_neg ht]
      obtain ⟨r, h5, h6⟩ := Res.bind_eq_ok.1 h4
      obtain ⟨blob, h7, h8⟩ := Res.bind_eq_ok.1 h6
      cases h8
      unfold Rewrite.rewriteBlock
      rw [rewriteGroups_timed _ _ _ _ _ h5, Res.ok_bind, h7]
      rfl

/-! The other direction: if no measurement can fail, the timed worker succeeds where the untimed one does. -/

/-- Timing never fails in this environment. -/
def Env.Safe (e : Env) : Prop := ∀ f, e.timing = some f → ∀ t, ∃ b, bucket e.R f e.fuel t = .ok b

theorem findNode_safe {e : Env} (hs : e.Safe) (t : Ticks) (si : SubIdx) (id : UInt64) (hint : Int) {r : Found}
    (h : si.findNode id hint = .ok r) : ∃ b, FindNode e.R e.timing e.fuel t si id hint = .ok (r, b) := by
  unfold FindNode
  cases ht : e.timing with
  | none => exact ⟨none, by dsimp only; rw [h]; rfl⟩
  | some f =>
    obtain ⟨b, hb⟩ := hs f ht t
    exact ⟨b, by dsimp only; rw [h, Res.ok_bind, hb]; rfl⟩

theorem rewriteRefs_safe {e : Env} (hs : e.Safe) (si : SubIdx) : ∀ (rs : List Int64) (k : Nat) (hint : Int) {x},
    Rewrite.rewriteRefs si hint rs = .ok x → ∃ y, rewriteRefs e si k hint rs = .ok (x.1, x.2, y) := by
  intro rs
  induction rs with
  | nil => intro k hint x h; cases h; exact ⟨_, rfl⟩
  | cons r rs ih =>
    intro k hint x h
    unfold Rewrite.rewriteRefs at h
    unfold rewriteRefs
    split at h
    · rename_i hr
      rw [if_pos hr]
      obtain ⟨y, h1, h2⟩ := Res.bind_eq_ok.1 h
      cases h2
      obtain ⟨z, hz⟩ := ih k _ h1
      rw [hz]
      exact ⟨_, rfl⟩
    · rename_i hr
      rw [if_neg hr]
      obtain ⟨f, h1, h2⟩ := Res.bind_eq_ok.1 h
      obtain ⟨y, h3, h4⟩ := Res.bind_eq_ok.1 h2
      cases h4
      obtain ⟨b, hb⟩ := findNode_safe hs (e.ticks k) si _ _ h1
      obtain ⟨z, hz⟩ := ih (k + 1) _ h3
      rw [hb, Res.ok_bind, hz]
      exact ⟨_, rfl⟩

theorem rewriteWays_safe {e : Env} (hs : e.Safe) (si : SubIdx) : ∀ (ws : List Way) (k : Nat) (hint : Int) {x},
    Rewrite.rewriteWays si hint ws = .ok x → ∃ y, rewriteWays e si k hint ws = .ok (x.1, x.2, y) := by
  intro ws
  induction ws with
  | nil => intro k hint x h; cases h; exact ⟨_, rfl⟩
  | cons w ws ih =>
    intro k hint x h
    unfold Rewrite.rewriteWays at h
    unfold rewriteWays
    obtain ⟨f, h1, h2⟩ := Res.bind_eq_ok.1 h
    obtain ⟨y, h3, h4⟩ := Res.bind_eq_ok.1 h2
    cases h4
    obtain ⟨b, hb⟩ := rewriteRefs_safe hs si _ k _ h1
    rw [hb, Res.ok_bind]
    obtain ⟨z, hz⟩ := ih b.1 _ h3
    dsimp only
    rw [hz]
    exact ⟨_, rfl⟩

theorem rewriteGroups_safe {e : Env} (hs : e.Safe) (si : SubIdx) : ∀ (gs : List T.PrimitiveGroup) (k : Nat) (hint : Int) {x},
    Rewrite.rewriteGroups si hint gs = .ok x → ∃ y, rewriteGroups e si k hint gs = .ok (x.1, x.2, y) := by
  intro gs
  induction gs with
  | nil => intro k hint x h; cases h; exact ⟨_, rfl⟩
  | cons g gs ih =>
    intro k hint x h
    unfold Rewrite.rewriteGroups at h
    unfold rewriteGroups
    obtain ⟨f, h1, h2⟩ := Res.bind_eq_ok.1 h
    obtain ⟨y, h3, h4⟩ := Res.bind_eq_ok.1 h2
    cases h4
    obtain ⟨b, hb⟩ := rewriteWays_safe hs si _ k _ h1
    rw [hb, Res.ok_bind]
    obtain ⟨z, hz⟩ := ih b.1 _ h3
    dsimp only
    rw [hz]
    exact ⟨_, rfl⟩

theorem rewriteWork_safe (inflate : Inflate) (sched : Block → Sched) {env : Block → Env} (hs : ∀ b, (env b).Safe)
    (si : SubIdx) (b : Block) {x : Rewrite.Out} (h : Rewrite.rewriteWork inflate sched si b = .ok x) :
    rewriteWork inflate sched env si b = .ok x := by
  unfold Rewrite.rewriteWork at h
  unfold rewriteWork
  split at h
  · rename_i hk
    rw [if_pos hk]
    exact h
  · rename_i hk
    rw [if_neg hk]
    obtain ⟨raw, h1, h2⟩ := Res.bind_eq_ok.1 h
    obtain ⟨pb, h3, h4⟩ := Res.bind_eq_ok.1 h2
    rw [h1, Res.ok_bind, h3, Res.ok_bind]
    unfold Rewrite.rewriteDecoded at h4
    split at h4
    · rename_i ht
      rw [if_pos ht]
      exact h4
    · rename_i ht
      rw [if_neg ht]
      obtain ⟨blob, h5, h6⟩ := Res.bind_eq_ok.1 h4
      unfold Rewrite.rewriteBlock at h5
      obtain ⟨r, h7, h8⟩ := Res.bind_eq_ok.1 h5
      obtain ⟨z, hz⟩ := rewriteGroups_safe (hs b) si _ 0 _ h7
      rw [hz, Res.ok_bind, h8]
      exact h6

theorem mapRes_mono {α β : Type} {f g : α → Res β} (h : ∀ a b, f a = .ok b → g a = .ok b) : ∀ (as : List α) {bs : List β},
    mapRes f as = .ok bs → mapRes g as = .ok bs := by
  intro as
  induction as with
  | nil => intro bs h; exact h
  | cons a as ih =>
    intro bs hb
    unfold mapRes at hb ⊢
    obtain ⟨x, h1, h2⟩ := Res.bind_eq_ok.1 hb
    obtain ⟨y, h3, h4⟩ := Res.bind_eq_ok.1 h2
    cases h4
    rw [h _ _ h1, Res.ok_bind, ih h3]
    rfl

end Osm.Timing
