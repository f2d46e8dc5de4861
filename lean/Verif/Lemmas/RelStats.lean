import Verif.Model.RelStats
import Verif.Spec.RelStats
import Verif.Lemmas.RelPass
import Verif.Lemmas.RelPasses
import Verif.Lemmas.WayIndex

/-! # The statistics of relindex -/

namespace Osm.RelIndex
open Osm Osm.T Osm.WayIndex Osm.Spec
open _root_.Osm.NodeIndex (Counter)

/-! ## One lookup -/

theorem findBetween_counted {si : SubIdx} {id : Int64} {hint : Int} {lo hi : Nat} {r : Found}
    (h : si.findBetween id hint lo hi = .ok r) : r.counted = [if r.ok then .hitDefault else .missDefault] := by
  unfold SubIdx.findBetween at h
  obtain ⟨p, _, h⟩ := Res.bind_eq_ok.1 h
  split at h
  · cases h; rfl
  · split at h
    · cases h; rfl
    · obtain ⟨ls, _, h⟩ := Res.bind_eq_ok.1 h
      cases h; rfl

theorem find_counted {si : SubIdx} (hw : WayOrderedSub si) (id : Int64) {r : Found} (h : si.FindLocations id 0 = .ok r) :
    r.counted = [wayCounter (passOf si).1 (passOf si).2 id.toInt] := by
  have hres := find_ok hw id 0 (by omega)
  have hin : (id.toInt ∈ (passOf si).1) ↔ ∃ d ∈ si.Ids, (wId d : Int) = id.toInt := by
    unfold passOf
    rw [List.mem_map]
  have hok : r.ok = true ↔ id.toInt ∈ (passOf si).1 := by
    rw [hin]
    constructor
    · intro hr
      apply Classical.byContradiction
      intro hex
      obtain ⟨c, h'⟩ := hres.2 (fun d hd hid => hex ⟨d, hd, hid⟩)
      rw [h] at h'; cases h'
      cases hr
    · rintro ⟨d, hd, hid⟩
      obtain ⟨p, c, hp, _, h'⟩ := hres.1 d hd hid
      rw [h] at h'
      obtain ⟨ls, _, h'⟩ := Res.bind_eq_ok.1 h'.symm
      cases h'; rfl
  unfold SubIdx.FindLocations at h
  unfold wayCounter
  by_cases ht : id > si.Top
  · rw [if_pos ht] at h
    cases h
    rw [gt_iff_lt, Int64.lt_iff_toInt_lt] at ht
    rw [if_pos (show (passOf si).2 < id.toInt from ht)]
  · rw [if_neg ht] at h
    rw [gt_iff_lt, Int64.lt_iff_toInt_lt] at ht
    rw [if_neg (show ¬ (passOf si).2 < id.toInt from ht)]
    cases hids : si.Ids with
    | nil =>
      rw [hids, List.length_nil, if_neg (by omega)] at h
      rw [findBetween_counted h]
      have : (passOf si).1 = [] := by unfold passOf; rw [hids]; rfl
      have hf : ¬ r.ok = true := by rw [hok, this]; exact List.not_mem_nil
      rw [this, if_neg hf, if_neg (show ¬ ([] : List Int).head? = some id.toInt by simp),
        if_neg (show ¬ id.toInt ∈ ([] : List Int) from List.not_mem_nil)]
    | cons d ds =>
      have hhead : (passOf si).1.head? = some (wId d : Int) := by unfold passOf; rw [hids]; rfl
      rw [hids, List.length_cons, if_pos (by omega), if_neg (by omega)] at h
      rw [show (d :: ds)[(0 : Int).toNat]? = some d from rfl, Res.ofOption_some, Res.ok_bind] at h
      rw [hhead]
      have hwid : (WayID d).toInt = wId d := wayID_eq d
      by_cases h1 : id < WayID d
      · rw [if_pos h1] at h
        rw [Int64.lt_iff_toInt_lt] at h1
        rw [findBetween_counted h, if_neg (show ¬ some (wId d : Int) = some id.toInt by rw [Option.some.injEq]; omega)]
        by_cases h2 : r.ok = true
        · rw [if_pos h2, if_pos (hok.1 h2)]
        · rw [if_neg h2, if_neg (fun h3 => h2 (hok.2 h3))]
      · rw [if_neg h1] at h
        by_cases h2 : id = WayID d
        · rw [if_pos h2] at h
          obtain ⟨ls, _, h⟩ := Res.bind_eq_ok.1 h
          cases h
          rw [if_pos (by rw [h2, hwid])]
        · rw [if_neg h2] at h
          rw [findBetween_counted h, if_neg (show ¬ some (wId d : Int) = some id.toInt by
            rw [Option.some.injEq]
            intro h3
            exact h2 (Int64.toInt_inj.1 (by omega)))]
          by_cases h2 : r.ok = true
          · rw [if_pos h2, if_pos (hok.1 h2)]
          · rw [if_neg h2, if_neg (fun h3 => h2 (hok.2 h3))]

/-! ## One pass, whatever it reads -/

/-- The increments made for a way. -/
def wayCounts (swi : SubIdx) : PassWay → List Counter
  | .done _ _ => []
  | .pending w =>
    match swi.FindLocations (-w) 0 with
    | .ok r => r.counted
    | _ => []

theorem countWay_run {swi : SubIdx} (w : PassWay) (hv : w.Valid) (hr : WayRuns swi w) (v : List Int64) :
    countWay swi (w.words ++ v) = .ok (wayCounts swi w, v) := by
  cases w with
  | pending x =>
    have hx : x < 0 := hv
    obtain ⟨r, hr⟩ := hr
    unfold countWay wayCounts
    rw [show take1 ((PassWay.pending x).words ++ v) = .ok (x, v) from rfl, Res.ok_bind]
    dsimp only
    rw [if_pos hx, hr]
    rfl
  | done w ls =>
    have hx : ¬ w < 0 := by
      have := hv.1
      rw [Int64.le_iff_toInt_le] at this
      rw [Int64.lt_iff_toInt_lt]
      omega
    have := rewriteWay_run (swi := swi) (last := false) (.done w ls) hv hr v
    unfold rewriteWay at this
    unfold countWay wayCounts
    rw [show take1 ((PassWay.done w ls).words ++ v) = .ok (w, Int64.ofNat ls.length :: ls ++ v) from rfl, Res.ok_bind] at this ⊢
    dsimp only at this ⊢
    rw [if_neg hx] at this ⊢
    rw [this]
    rfl

theorem countWaysOf_run {swi : SubIdx} (ws : List PassWay) (hv : ∀ w ∈ ws, w.Valid) (hr : ∀ w ∈ ws, WayRuns swi w)
    (v : List Int64) : countWaysOf swi ws.length (ws.flatMap PassWay.words ++ v) = .ok (ws.flatMap (wayCounts swi), v) := by
  induction ws with
  | nil => rfl
  | cons w ws ih =>
    rw [List.length_cons, List.flatMap_cons, List.append_assoc]
    unfold countWaysOf
    rw [countWay_run w (hv w (by simp)) (hr w (by simp)), Res.ok_bind]
    dsimp only
    rw [ih (fun w h => hv w (by simp [h])) (fun w h => hr w (by simp [h])), Res.ok_bind]
    rfl

theorem countRelation_run {swi : SubIdx} (r : PassRel) (hv : r.Valid) (hr : RelRuns swi r) (v : List Int64) :
    countRelation swi (r.words ++ v) = .ok (r.ways.flatMap (wayCounts swi), v) := by
  obtain ⟨i, c, ws⟩ := r
  obtain ⟨hl, hv⟩ := hv
  dsimp only at hl
  unfold countRelation
  rw [show take1 ((⟨i, c, ws⟩ : PassRel).words ++ v) = .ok (i, c :: (ws.flatMap PassWay.words ++ v)) from rfl, Res.ok_bind]
  dsimp only
  rw [show take1 (c :: (ws.flatMap PassWay.words ++ v)) = .ok (c, ws.flatMap PassWay.words ++ v) from rfl, Res.ok_bind]
  dsimp only
  rw [← hl]
  exact countWaysOf_run ws hv hr v

theorem countLoop_run {swi : SubIdx} (rels : List PassRel) (hv : ∀ r ∈ rels, r.Valid) (hr : ∀ r ∈ rels, RelRuns swi r) :
    ∀ fuel, rels.length < fuel →
    countLoop swi fuel (rels.flatMap PassRel.words) = .ok ((rels.flatMap (·.ways)).flatMap (wayCounts swi)) := by
  induction rels with
  | nil =>
    intro fuel hf
    obtain ⟨fuel, rfl⟩ : ∃ k, fuel = k + 1 := ⟨fuel - 1, by simp at hf; omega⟩
    rfl
  | cons r rels ih =>
    intro fuel hf
    obtain ⟨fuel, rfl⟩ : ∃ k, fuel = k + 1 := ⟨fuel - 1, by simp at hf; omega⟩
    rw [List.length_cons] at hf
    have ih := ih (fun r h => hv r (by simp [h])) (fun r h => hr r (by simp [h])) fuel (by omega)
    have hstep := countRelation_run r (hv r (by simp)) (hr r (by simp)) (rels.flatMap PassRel.words)
    obtain ⟨x, xs, hx⟩ : ∃ x xs, r.words ++ rels.flatMap PassRel.words = x :: xs := ⟨_, _, rfl⟩
    rw [List.flatMap_cons, hx]
    rw [hx] at hstep
    unfold countLoop
    rw [hstep, Res.ok_bind]
    dsimp only
    rw [ih, Res.ok_bind, List.flatMap_cons, List.flatMap_append]

theorem words_length (rels : List PassRel) : rels.length ≤ (rels.flatMap PassRel.words).length := by
  induction rels with
  | nil => simp
  | cons r rels ih =>
    rw [List.flatMap_cons, List.length_cons, List.length_append]
    have : 2 ≤ r.words.length := by unfold PassRel.words; simp
    omega

end Osm.RelIndex
