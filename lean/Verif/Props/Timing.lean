import Verif.Lemmas.Timing

/-!
# C75: timing of lookups

`rewritenodes -t factor` measures each lookup. The measurement must not change what the lookup says; and it does not end,
or panics, for some factors.
-/

namespace Osm.Props
open Osm Osm.T Osm.Pbf Osm.Spec Osm.NodeIndex Osm.Timing

/-- C75: whatever the factor and whatever the clock says, a timed lookup that returns gives the answer of an untimed one,
and if that panics so does the timed one. -/
theorem C75_same_answer (R : Rounding) (timing : Option F64) (fuel : Nat) (t : Ticks) (si : SubIdx) (id : UInt64)
    (hint : Int) :
    (∀ r b, Timing.FindNode R timing fuel t si id hint = .ok (r, b) → si.findNode id hint = .ok r) ∧
    (si.findNode id hint = .panic → Timing.FindNode R timing fuel t si id hint = .panic) := by
  refine ⟨fun r b h => findNode_timed R timing fuel t si id hint h, fun h => ?_⟩
  unfold Timing.FindNode
  cases timing <;> dsimp only <;> rw [h] <;> rfl

/-- C75: without `-t` nothing is measured. -/
theorem C75_off (R : Rounding) (fuel : Nat) (t : Ticks) (si : SubIdx) (id : UInt64) (hint : Int) {r : Found}
    (h : si.findNode id hint = .ok r) : Timing.FindNode R none fuel t si id hint = .ok (r, none) := by
  unfold Timing.FindNode
  dsimp only
  rw [h]
  rfl

/-- The factors with which a measurement always ends: from 1.12 on, infinite, negative, or not a number. -/
def SafeFactor : F64 → Prop
  | .fin f => 28 / 25 ≤ f ∨ f < 0
  | _ => True

/-- C75: with such a factor every measurement ends, after at most 200 divisions, with one of the 200 counters. -/
theorem C75_safe_factor (R : Rounding) (f : F64) (hf : SafeFactor f) (t : Ticks) (fuel : Nat) (hfuel : 200 < fuel) :
    bucket R f fuel t = .ok none ∨ ∃ k, k < 200 ∧ bucket R f fuel t = .ok (some k) := by
  unfold bucket
  split
  · rename_i h
    rw [Bool.and_eq_true] at h
    obtain ⟨h1, h2⟩ := h
    unfold Ticks.delta ofInt at h1 h2 ⊢
    generalize hq : R.rnd _ = q at *
    have h1' : 1 < q := by simpa [F64.gt1] using h1
    have h2' : q < 6600000000 := by simpa [F64.fast] using h2
    right
    have hdone : ∀ d : F64, d.gt1 = false → (F64.fin q).div R f = d →
        ∃ k, k < 200 ∧ (divisions R f fuel (.fin q) 0 >>= fun i => if i - 1 < 200 then Res.ok (some (i - 1)) else .panic) = .ok (some k) := by
      intro d hd hx
      obtain ⟨fuel, rfl⟩ : ∃ m, fuel = m + 2 := ⟨fuel - 2, by omega⟩
      refine ⟨0, by omega, ?_⟩
      unfold divisions
      rw [if_pos h1, hx]
      unfold divisions
      rw [if_neg (by rw [hd]; decide)]
      rfl
    cases f with
    | fin f =>
      rcases hf with hf | hf
      · obtain ⟨n, hn, hle⟩ := divisions_ends R f hf 200 fuel q 0 hfuel (le_trans (le_of_lt h2') (by norm_num))
        rw [hn, Res.ok_bind]
        refine ⟨n - 1, by omega, ?_⟩
        rw [if_pos (by omega)]
      · refine hdone (.fin (R.rnd (q / f))) ?_ ?_
        · have h0 : q / f ≤ 1 := le_trans (div_nonpos_of_nonneg_of_nonpos (by linarith) (le_of_lt hf)) (by norm_num)
          have := R.mono _ _ h0
          rw [R.one] at this
          simpa [F64.gt1] using this
        · unfold F64.div
          dsimp only
          rw [if_neg (by linarith)]
    | negZero => exact hdone _ rfl rfl
    | posInf => exact hdone (.fin 0) (by decide) rfl
    | negInf => exact hdone _ rfl rfl
    | nan => exact hdone _ rfl rfl
  · exact Or.inl rfl

/-- C75: the same for ways: a timed lookup answers as an untimed one, and with a safe factor it always answers. -/
theorem C75_ways (R : Rounding) (timing : Option F64) (fuel : Nat) (t : Ticks) (si : WayIndex.SubIdx) (id : Int64) (hint : Int) :
    (∀ r b, Timing.FindLocations R timing fuel t si id hint = .ok (r, b) → si.FindLocations id hint = .ok r) ∧
    (si.FindLocations id hint = .panic → Timing.FindLocations R timing fuel t si id hint = .panic) ∧
    (200 < fuel → (∀ f, timing = some f → SafeFactor f) → ∀ r, si.FindLocations id hint = .ok r →
      ∃ b, Timing.FindLocations R timing fuel t si id hint = .ok (r, b) ∧ (timing = none → b = none) ∧ ∀ k, b = some k → k < 200) := by
  unfold Timing.FindLocations
  refine ⟨fun r b h => ?_, fun h => ?_, fun hfuel hsafe r h => ?_⟩
  · cases timing with
    | none =>
      obtain ⟨x, h1, h2⟩ := Res.bind_eq_ok.1 h
      cases h2
      exact h1
    | some f =>
      obtain ⟨x, h1, h2⟩ := Res.bind_eq_ok.1 h
      obtain ⟨y, h3, h4⟩ := Res.bind_eq_ok.1 h2
      cases h4
      exact h1
  · cases timing <;> dsimp only <;> rw [h] <;> rfl
  · cases timing with
    | none =>
      dsimp only
      rw [h]
      exact ⟨none, rfl, fun _ => rfl, fun k hk => by cases hk⟩
    | some f =>
      dsimp only
      rw [h, Res.ok_bind]
      rcases C75_safe_factor R f (hsafe f rfl) t fuel hfuel with hb | ⟨k, hk, hb⟩
      · rw [hb]
        exact ⟨none, rfl, (fun hn => nomatch hn), fun k hk => by cases hk⟩
      · rw [hb]
        exact ⟨some k, rfl, (fun hn => nomatch hn), fun j hj => by cases hj; exact hk⟩

/-- C75 is false for a factor from 0 to 1: any lookup measured to take between 1 and 6.6·10^9 ticks never returns. -/
theorem C75_endless (R : Rounding) (f : Rat) (h0 : 0 ≤ f) (h1 : f ≤ 1) (t : Ticks)
    (ht : (t.delta R).gt1 = true ∧ (t.delta R).fast = true) (fuel : Nat) (si : SubIdx) (id : UInt64) (hint : Int) {r : Found}
    (h : si.findNode id hint = .ok r) : Timing.FindNode R (some (.fin f)) fuel t si id hint = .hang := by
  unfold Timing.FindNode
  dsimp only
  rw [h, Res.ok_bind]
  unfold bucket
  rw [ht.1, ht.2, if_pos (by rfl), divisions_hang R f h0 h1 fuel _ 0 ?_]
  · rfl
  · right
    have := ht.1
    unfold Ticks.delta ofInt at *
    exact ⟨_, rfl, by simpa [F64.gt1] using this, R.idem _⟩

/-- C75 is false for a factor between 1 and 1.0625: a lookup measured to take more than 1.1^200 (1.9·10^8) ticks, which is
60 ms, does not return: it panics (or does not end). -/
theorem C75_out_of_range (R : Rounding) (f : Rat) (h0 : 0 < f) (h1 : f ≤ 17 / 16) (t : Ticks) (q : Rat)
    (ht : t.delta R = .fin q) (hq : (11 / 10) ^ 200 < q) (hq' : q < 6600000000) (fuel : Nat) (si : SubIdx) (id : UInt64)
    (hint : Int) (x : Found × Option Nat) : Timing.FindNode R (some (.fin f)) fuel t si id hint ≠ .ok x := by
  intro h
  unfold Timing.FindNode at h
  obtain ⟨r, _, h2⟩ := Res.bind_eq_ok.1 h
  obtain ⟨b, h3, _⟩ := Res.bind_eq_ok.1 h2
  unfold bucket at h3
  have hq1 : 1 < q := lt_of_le_of_lt (one_le_pow₀ (by norm_num)) hq
  rw [ht, show (F64.fin q).gt1 = true by simpa [F64.gt1] using hq1,
    show (F64.fin q).fast = true by simpa [F64.fast] using hq', if_pos (by rfl)] at h3
  obtain ⟨i, h4, h5⟩ := Res.bind_eq_ok.1 h3
  have := divisions_many R f h0 h1 200 fuel q 0 i hq h4
  rw [if_neg (by omega)] at h5
  cases h5

/-- C75: if no rounding error occurs, the k-th counter counts the lookups that took more than factor^k and at most
factor^(k+1) ticks (which is what `PrintStats` says), and a lookup of more than factor^200 ticks panics. -/
theorem C75_bucket (R : Rounding) (hR : ∀ x, R.rnd x = x) (f : Rat) (hf : 1 < f) (t : Ticks) (q : Rat)
    (ht : t.delta R = .fin q) (hq : q < 6600000000) (k : Nat) (h1 : f ^ k < q) (h2 : q ≤ f ^ (k + 1)) (fuel : Nat)
    (hfuel : k + 1 < fuel) : bucket R (.fin f) fuel t = if k < 200 then .ok (some k) else .panic := by
  have hq1 : 1 < q := lt_of_le_of_lt (one_le_pow₀ (le_of_lt hf)) h1
  unfold bucket
  rw [ht, show (F64.fin q).gt1 = true by simpa [F64.gt1] using hq1,
    show (F64.fin q).fast = true by simpa [F64.fast] using hq, if_pos (by rfl),
    divisions_exact R hR f hf k fuel q 0 hfuel h1 h2, Res.ok_bind]
  simp

/-- C75: a pass of rewritenodes with timing that ends has done exactly what it does without timing, for every factor and
clock; and with a safe factor it ends whenever the pass without timing does. -/
theorem C75_same_file (inflate : Inflate) (sched : Block → Sched) (env : Block → Env) (si : SubIdx) (inp out : String)
    (file : List UInt8) (fs : FS) (hin : Holds fs inp file) (bs : List Block) (hs : split file = .ok bs) (r : Unit × FS) :
    ((Timing.pass inflate sched env si inp out).exec fs = .ok r → (Rewrite.pass inflate sched si inp out).exec fs = .ok r) ∧
    ((∀ b, 200 < (env b).fuel ∧ ∀ f, (env b).timing = some f → SafeFactor f) →
      (Rewrite.pass inflate sched si inp out).exec fs = .ok r → (Timing.pass inflate sched env si inp out).exec fs = .ok r) := by
  constructor
  · intro h
    obtain ⟨xs, h1, h2⟩ := Interrupt.process_back none _ inp (Rewrite.output out) hs fs hin h
    have h3 := mapRes_mono (fun b x => rewriteWork_timed inflate sched env si b (x := x)) _ h1
    have := Interrupt.process_run none (Rewrite.rewriteWork inflate sched si) inp (Rewrite.output out) hs h3 fs hin
    have h4 : (Interrupt.process none (Rewrite.rewriteWork inflate sched si) inp (Rewrite.output out)).exec fs = .ok r := by
      unfold Prog.exec at h2 ⊢
      rw [this]
      exact h2
    exact h4
  · intro hsafe h
    have hS : ∀ b, (env b).Safe := by
      intro b f hf t
      rcases C75_safe_factor (env b).R f ((hsafe b).2 f hf) t (env b).fuel (hsafe b).1 with h | ⟨k, _, h⟩ <;> exact ⟨_, h⟩
    obtain ⟨xs, h1, h2⟩ := Interrupt.process_back none (Rewrite.rewriteWork inflate sched si) inp (Rewrite.output out) hs fs hin h
    have h3 := mapRes_mono (fun b x => rewriteWork_safe inflate sched hS si b (x := x)) _ h1
    have := Interrupt.process_run none (Timing.rewriteWork inflate sched env si) inp (Rewrite.output out) hs h3 fs hin
    unfold Timing.pass
    unfold Prog.exec at h2 ⊢
    rw [this]
    exact h2

/-! ## Examples -/

/-- No rounding at all. -/
def noRounding : Rounding := ⟨id, fun _ _ h => h, rfl, fun _ => rfl, fun x h => by simp only [id]; nlinarith, fun x h => by simp only [id]; nlinarith⟩

/-- Rounding down to multiples of 2^-53. -/
def down : Rounding where
  rnd x := (x * 2 ^ 53).floor / 2 ^ 53
  mono x y h := by
    apply div_le_div_of_nonneg_right _ (by norm_num)
    exact_mod_cast Rat.floor_monotone (mul_le_mul_of_nonneg_right h (by norm_num))
  one := by decide +kernel
  idem x := by
    rw [div_mul_cancel₀ _ (by norm_num), Rat.floor_intCast]
  below x h := by
    rw [div_mul_cancel₀ _ (by norm_num)]
    have := Rat.floor_le (x * 2 ^ 53)
    nlinarith
  above x h := by
    rw [div_mul_cancel₀ _ (by norm_num)]
    have := Rat.lt_floor_add_one (x * 2 ^ 53)
    push_cast at this
    nlinarith

/-- With factor 2, a lookup of 1000 ticks is counted by counter 9 (512 < 1000 ≤ 1024). -/
example : bucket noRounding (.fin 2) 300 ⟨5000, 6100, 100⟩ = .ok (some 9) :=
  C75_bucket noRounding (fun _ => rfl) 2 (by norm_num) _ 1000 (by decide +kernel) (by norm_num) 9 (by norm_num) (by norm_num) 300 (by norm_num)

/-- With factor 1.0625, a lookup of 10^9 ticks panics. -/
example (x) : Timing.FindNode down (some (.fin (17 / 16))) 300 ⟨5000, 1000005100, 100⟩ ⟨[⟨5, 1⟩], [-9], 5⟩ 5 0 ≠ .ok x :=
  C75_out_of_range down _ (by norm_num) (le_refl _) _ 1000000000 (by decide +kernel) (by norm_num) (by norm_num) _ _ _ _ x

/-- With factor 1, a lookup of 1000 ticks never returns. -/
example (fuel : Nat) : Timing.FindNode down (some (.fin 1)) fuel ⟨5000, 6100, 100⟩ ⟨[⟨5, 1⟩], [-9], 5⟩ 5 0 = .hang :=
  C75_endless down 1 (by norm_num) (le_refl _) _ (by decide +kernel) fuel _ _ _ (r := ⟨-9, 0, true, [.hitHint]⟩) (by decide +kernel)

end Osm.Props
