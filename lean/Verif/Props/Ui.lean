import Verif.Model.Ui
import Verif.Spec.Ui

/-!
# C67: progress lines
-/

namespace Osm.Props
open Osm Osm.Spec Osm.Ui

theorem shown_escape (st : UInt8) (s r : List UInt8) :
    shown st (EscapePercent s ++ r) = s.map (fun c => (st, c)) ++ shown st r := by
  induction s with
  | nil => rfl
  | cons c s ih =>
    unfold EscapePercent at ih ⊢
    rw [List.flatMap_cons]
    by_cases hc : c = percent
    · rw [if_pos hc]
      subst hc
      simp only [List.cons_append, List.nil_append]
      rw [shown, if_pos (by decide), if_pos (by decide), ih]
      rfl
    · rw [if_neg hc]
      simp only [List.cons_append, List.nil_append]
      have hc' : ¬ c = '%'.toUInt8 := fun h => hc (by rw [h]; rfl)
      generalize hx : (List.flatMap (fun c => if c = percent then [percent, percent] else [c]) s) ++ r = x at ih ⊢
      cases x with
      | nil =>
        rw [shown, if_neg hc', ← List.append_nil (List.map _ _)]
        have : s = [] ∧ r = [] := by
          rw [List.append_eq_nil_iff] at hx
          refine ⟨?_, hx.2⟩
          cases s with
          | nil => rfl
          | cons a s =>
            rw [List.flatMap_cons] at hx
            have := hx.1
            split at this <;> cases this
        obtain ⟨rfl, rfl⟩ := this
        simp [shown]
      | cons d x =>
        rw [shown, if_neg hc', ih]
        rfl

theorem padRight_eq (s : List UInt8) (w : Nat) : padRight s w = filled s w := by
  unfold padRight filled
  split
  · rw [show ((w : Int) - s.length).toNat = w - s.length by omega]; rfl
  · rw [show w - s.length = 0 by omega]; simp

/-- C67: whenever the boundary is inside the line, exactly the text filled up to the width is shown, the part
before the boundary standing out. -/
theorem C67_bar_partial (s : List UInt8) (w : Nat) (hw : 0 < w) (pre : Nat) (hp : pre < (filled s w).length) :
    shown 'N'.toUInt8 (MarkupAsProgress s w pre) =
      ((filled s w).take pre).map (fun c => ('S'.toUInt8, c)) ++ ((filled s w).drop pre).map (fun c => ('N'.toUInt8, c)) := by
  unfold MarkupAsProgress
  rw [if_neg (by omega)]
  dsimp only
  rw [padRight_eq, if_neg (by omega), if_neg (by omega), Int.toNat_natCast]
  rw [List.append_assoc, List.append_assoc]
  simp only [List.cons_append, List.nil_append]
  rw [shown, if_pos (by decide), if_neg (by decide), shown_escape]
  rw [shown, if_pos (by decide), if_neg (by decide)]
  have := shown_escape normal ((filled s w).drop pre) []
  rw [List.append_nil] at this
  rw [this]
  simp only [shown, List.append_nil]
  rfl

theorem C67_bar_text_partial (s : List UInt8) (w : Nat) (hw : 0 < w) (pre : Nat) (hp : pre < (filled s w).length) :
    shownText (MarkupAsProgress s w pre) = filled s w := by
  unfold shownText
  rw [C67_bar_partial s w hw pre hp, List.map_append, List.map_map, List.map_map]
  have : ∀ (f : UInt8), ((fun x : UInt8 × UInt8 => x.2) ∘ fun c => (f, c)) = id := fun _ => rfl
  rw [this, this, List.map_id, List.map_id, List.take_append_drop]

theorem shown_plain (st : UInt8) : ∀ (s : List UInt8), '%'.toUInt8 ∉ s → shown st s = s.map fun c => (st, c)
  | [], _ => rfl
  | [c], h => by
    rw [shown, if_neg (fun hc => h (by simp [hc]))]; rfl
  | c :: d :: rest, h => by
    rw [shown, if_neg (fun hc => h (by simp [hc])), shown_plain st (d :: rest) (fun hx => h (by
      rw [List.mem_cons]; exact Or.inr hx))]
    rfl

theorem shown_short (st : UInt8) (s : List UInt8) :
    (shown st s).length ≤ s.length ∧ ('%'.toUInt8 ∈ s → (shown st s).length < s.length) := by
  induction st, s using shown.induct with
  | case1 st => exact ⟨Nat.le_refl _, fun h => by cases h⟩
  | case2 st =>
    rw [shown, if_pos rfl]
    exact ⟨by simp, fun _ => by simp⟩
  | case3 st c hc =>
    rw [shown, if_neg hc]
    refine ⟨by simp, fun h => ?_⟩
    rw [List.mem_singleton] at h
    exact absurd h.symm hc
  | case4 st rest ih =>
    rw [shown, if_pos rfl, if_pos rfl]
    have := ih.1
    simp only [List.length_cons]
    exact ⟨by omega, fun _ => by omega⟩
  | case5 st d rest hd ih =>
    rw [shown, if_pos rfl, if_neg hd]
    have := ih.1
    simp only [List.length_cons]
    exact ⟨by omega, fun _ => by omega⟩
  | case6 st c d rest hc ih =>
    rw [shown, if_neg hc]
    have := ih
    rw [List.length_cons, List.length_cons (a := c)]
    refine ⟨by omega, fun h => ?_⟩
    rcases List.mem_cons.1 h with h | h
    · exact absurd h.symm hc
    · have := this.2 h; omega

theorem percent_filled (s : List UInt8) (w : Nat) : '%'.toUInt8 ∈ filled s w ↔ '%'.toUInt8 ∈ s := by
  unfold filled
  rw [List.mem_append]
  constructor
  · rintro (h | h)
    · exact h
    · exact absurd (List.eq_of_mem_replicate h) (by decide)
  · exact Or.inl

/-- C67: in all cases, the text shown is the filled text exactly if the boundary is inside the line or the text
has no percent sign; otherwise (in particular at 100%) characters are lost. -/
theorem C67_exact_iff (s : List UInt8) (w : Nat) (hw : 0 < w) (pre : Int) :
    shownText (MarkupAsProgress s w pre) = filled s w ↔
      (0 ≤ pre ∧ pre < (filled s w).length) ∨ '%'.toUInt8 ∉ s := by
  by_cases hp : 0 ≤ pre ∧ pre < (filled s w).length
  · refine ⟨fun _ => Or.inl hp, fun _ => ?_⟩
    have := C67_bar_text_partial s w hw pre.toNat (by omega)
    rwa [show ((pre.toNat : Nat) : Int) = pre by omega] at this
  · have he : MarkupAsProgress s w pre = filled s w := by
      unfold MarkupAsProgress
      rw [if_neg (by omega)]
      dsimp only
      rw [padRight_eq]
      by_cases h0 : pre < 0
      · rw [if_pos h0]
      · rw [if_neg h0, if_pos (by omega)]
    rw [he]
    constructor
    · intro h
      refine Or.inr fun hm => ?_
      have := (shown_short 'N'.toUInt8 (filled s w)).2 ((percent_filled s w).2 hm)
      have h2 := congrArg List.length h
      unfold shownText at h2
      rw [List.length_map] at h2
      omega
    · rintro (h | h)
      · exact absurd h hp
      · unfold shownText
        rw [shown_plain _ _ (fun hx => h ((percent_filled s w).1 hx)), List.map_map]
        show List.map id _ = _
        rw [List.map_id]

/-- C67: with no width, the text is not filled, and shown exactly if it has no percent sign. -/
theorem C67_no_width (s : List UInt8) (pre : Int) : shownText (MarkupAsProgress s 0 pre) = s ↔ '%'.toUInt8 ∉ s := by
  unfold MarkupAsProgress
  rw [if_pos rfl]
  constructor
  · intro h hm
    have := (shown_short 'N'.toUInt8 s).2 hm
    have h2 := congrArg List.length h
    unfold shownText at h2
    rw [List.length_map] at h2
    omega
  · intro h
    unfold shownText
    rw [shown_plain _ _ h, List.map_map]
    show List.map id _ = _
    rw [List.map_id]

/-- C67 does not hold as stated: a finished line "100.0%" of width 8 loses its percent sign. -/
theorem C67_false : shownText (MarkupAsProgress "100.0%".toUTF8.toList 8 8) = "100.0 ".toUTF8.toList := by
  decide +kernel

/-- At 50%. -/
example : shownText (MarkupAsProgress "50.0%".toUTF8.toList 8 4) = "50.0%   ".toUTF8.toList := by decide +kernel

end Osm.Props
