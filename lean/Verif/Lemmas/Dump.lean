import Verif.Spec.Dump
import Verif.Lemmas.SubIndex
import Verif.Lemmas.RelPasses
import Verif.Lemmas.Hl

namespace Osm.Dump
open Osm Osm.Spec

theorem toUInt64_zero (l : Int64) : l.toUInt64 = 0 ↔ l = 0 := by
  constructor
  · intro h
    have := congrArg UInt64.toInt64 h
    simpa using this
  · rintro rfl; rfl

/-- One slot of a range of a well-formed index. -/
theorem dumpSlot_ok (o : NodeOpts) {si : NodeIndex.SubIdx} (hw : WellFormedSub si) {e : NodeIndex.IndexElement}
    (he : e ∈ si.element) (i : Nat) (hi : i < rCount e) :
    dumpSlot o si e (UInt64.ofNat i) =
      .ok (slotLines o.PrintLocations o.SearchIndex e i (si.locations[rOffset e + i]?.getD 0)) := by
  have c1 := NodeIndex.rCount_lt e
  have c2 := NodeIndex.rOffset_lt e
  have c3 := hw.1.ids e he
  have c4 := hw.1.slots e he
  have hlt : rOffset e + i < si.locations.length := by omega
  have hi64 : (UInt64.ofNat i).toNat = i := by rw [UInt64.toNat_ofNat']; omega
  have hoff : (e.Offset + UInt64.ofNat i).toNat = rOffset e + i := by
    rw [UInt64.toNat_add, NodeIndex.offset_eq, hi64]; omega
  have hid : (e.FirstID + UInt64.ofNat i) = UInt64.ofNat (rFirst e + i) := by
    apply UInt64.toNat_inj.1
    rw [UInt64.toNat_add, hi64, UInt64.toNat_ofNat']
    rfl
  have hidn : (UInt64.ofNat (rFirst e + i)).toNat = rFirst e + i := by rw [UInt64.toNat_ofNat']; omega
  have hget : si.locations[rOffset e + i]? = some si.locations[rOffset e + i] := List.getElem?_eq_getElem hlt
  generalize si.locations[rOffset e + i] = l at hget
  have hx : extractSlot o si e (UInt64.ofNat i) = .ok
      (if o.PrintLocations then l.toUInt64 else 0,
       if o.PrintLocations then
        [if l = 0 then .extractSkip else .extract l.toUInt64 (Morton.DecodeLocation l.toUInt64).1
          (Morton.DecodeLocation l.toUInt64).2 e.baseId (UInt64.ofNat i) (UInt64.ofNat (rFirst e + i))] else []) := by
    unfold extractSlot
    cases o.PrintLocations
    · rfl
    · simp only [if_true]
      unfold NodeIndex.locAt
      rw [hoff, hget, hid]
      simp only [Res.ofOption_some, Res.ok_bind, toUInt64_zero]
      by_cases hz : l = 0
      · rw [if_pos hz, if_pos hz]
      · rw [if_neg hz, if_neg hz]; rfl
  have hs : searchSlot o si e (UInt64.ofNat i) = .ok
      (if o.SearchIndex then l.toUInt64 else 0,
       if o.SearchIndex then
        [if l = 0 then .searchSkip else .search l.toUInt64 (Morton.DecodeLocation l.toUInt64).1
          (Morton.DecodeLocation l.toUInt64).2] else []) := by
    unfold searchSlot
    cases o.SearchIndex
    · rfl
    · simp only [if_true]
      rw [hid]
      obtain ⟨r, h1, h2, h3, _⟩ := NodeIndex.findNode_ok hw (UInt64.ofNat (rFirst e + i)) 0 (by omega)
      rw [h1]
      simp only [Res.ok_bind]
      rw [hidn] at h2 h3
      have hhas : l ≠ 0 → HasLoc si.element si.locations (rFirst e + i) l := fun hz =>
        ⟨e, he, ⟨by omega, by omega⟩, by rw [show rFirst e + i - rFirst e = i by omega]; exact hget, hz⟩
      cases hr : r.ok
      · have hl : l = 0 := by
          by_cases hz : l = 0
          · exact hz
          · exact absurd (hhas hz) ((h3 hr).2 l)
        rw [(h3 hr).1]
        subst hl
        rfl
      · have h4 := h2 hr
        by_cases hz : l = 0
        · obtain ⟨e', he', h5, h6, h7⟩ := h4
          have := NodeIndex.rHas_unique hw.1 he he' (id := rFirst e + i) ⟨by omega, by omega⟩ h5
          subst this
          rw [show rFirst e + i - rFirst e = i by omega, hget] at h6
          simp only [Option.some.injEq] at h6
          exact absurd (h6 ▸ hz) h7
        · rw [NodeIndex.hasLoc_unique hw.1 h4 (hhas hz), if_neg hz]
          rfl
  unfold dumpSlot
  rw [hx, hs, hget]
  simp only [Res.ok_bind, Option.getD_some]
  unfold slotLines
  cases o.PrintLocations <;> cases o.SearchIndex <;> simp

theorem dumpElement_ok (o : NodeOpts) {si : NodeIndex.SubIdx} (hw : WellFormedSub si) (k : Nat)
    (hk : k < si.element.length) :
    dumpElement o si (k : Int) =
      .ok (rangeLines o.PrintLocations o.SearchIndex si.locations si.element[k]) := by
  unfold dumpElement
  rw [if_neg (by omega), Int.toNat_natCast, List.getElem?_eq_getElem hk]
  simp only [Res.ofOption_some, Res.ok_bind]
  rw [NodeIndex.count_eq]
  rw [T.mapRes_ok (g := fun i => slotLines o.PrintLocations o.SearchIndex si.element[k] i
    (si.locations[rOffset si.element[k] + i]?.getD 0))]
  · unfold rangeLines
    cases hp : o.PrintLocations <;> cases hs : o.SearchIndex
    all_goals simp [slotLines, List.flatMap_def]
  · intro i hi
    exact dumpSlot_ok o hw (List.getElem_mem hk) i (List.mem_range.1 hi)

/-- A loop over the indices of a list. -/
theorem mapRes_range {α β : Type} {f : Nat → Res β} {h : α → β} (ys : List α)
    (hf : ∀ i (hi : i < ys.length), f i = .ok (h ys[i])) : mapRes f (List.range ys.length) = .ok (ys.map h) := by
  induction ys using T.snoc_induction with
  | h0 => rfl
  | h1 ys y ih =>
    rw [List.length_append, List.length_singleton, List.range_succ, List.map_append]
    refine T.mapRes_append _ _ _ _ _ (ih fun i hi => ?_) ?_
    · rw [hf i (by simp; omega), List.getElem_append_left hi]
    · unfold mapRes
      rw [hf ys.length (by simp)]
      simp [mapRes]

/-- The ranges dumped, for a start that is not negative. -/
theorem dumpAll_ok (o : NodeOpts) {si : NodeIndex.SubIdx} (hw : WellFormedSub si) (s e : Nat) (he : e ≤ si.element.length) :
    mapRes (fun i : Nat => dumpElement o si ((s : Int) + i)) (List.range ((e : Int) - s).toNat) =
      .ok (((si.element.take e).drop s).map (rangeLines o.PrintLocations o.SearchIndex si.locations)) := by
  have hl : ((e : Int) - s).toNat = ((si.element.take e).drop s).length := by
    rw [List.length_drop, List.length_take]; omega
  rw [hl]
  apply mapRes_range
  intro i hi
  rw [List.length_drop, List.length_take] at hi
  rw [show (s : Int) + i = ((s + i : Nat) : Int) by omega, dumpElement_ok o hw (s + i) (by omega)]
  rw [List.getElem_drop, List.getElem_take]

/-! ## Ways -/

/-- The whole index is one pass. -/
theorem whole_ways (ix : WayIndex.WayIdx) (hw : WayOrdered ix.Ids ix.Loc ix.AlignmentShift) (hne : ix.Ids ≠ [])
    (hlt : ∀ d ∈ ix.Ids, wStart ix.AlignmentShift d < ix.Loc.length) :
    ∃ si, ix.SubIndexWithScaledPass 0 1 = .ok si ∧ si.Ids = ix.Ids := by
  have hb : WayIndex.before ix.AlignmentShift (ix.Loc.length : Nat) ix.Ids = ix.Ids.length := by
    unfold WayIndex.before
    have key : ∀ ids : List UInt64, (∀ d ∈ ids, wStart ix.AlignmentShift d < ix.Loc.length) →
        ids.takeWhile (fun d => decide ((wStart ix.AlignmentShift d : Int) < (ix.Loc.length : Nat))) = ids := by
      intro ids
      induction ids with
      | nil => intro _; rfl
      | cons d ds ih =>
        intro hd
        have := hd d (by simp)
        rw [List.takeWhile_cons, if_pos (by simpa using this), ih fun x hx => hd x (by simp [hx])]
    rw [key ix.Ids hlt]
  have hb0 : WayIndex.before ix.AlignmentShift (0 : Nat) ix.Ids = 0 := by
    unfold WayIndex.before
    cases ix.Ids with
    | nil => rfl
    | cons d ds =>
      rw [List.takeWhile_cons, if_neg (by simp)]
      rfl
  have h := WayIndex.sub_ok ix hw 1 0 (by omega) (by omega)
  rw [show Int64.ofNat 0 = 0 from rfl, show Int64.ofNat 1 = 1 from rfl] at h
  rw [h]
  dsimp only
  rw [Nat.div_one, Nat.mul_zero, show 0 + 1 = 1 from rfl, Nat.mul_one, hb, hb0]
  have hpos : 0 < ix.Ids.length := List.length_pos_iff.2 hne
  rw [if_neg (by omega), List.getElem?_eq_getElem (by omega), if_pos hpos]
  refine ⟨_, rfl, ?_⟩
  simp

theorem dumpWay_ok (o : WayOpts) {ix : WayIndex.WayIdx} (hw : WayOrdered ix.Ids ix.Loc ix.AlignmentShift)
    {si : WayIndex.SubIdx} (hl : si.Loc = ix.Loc) (hsh : si.AlignmentShift = ix.AlignmentShift) (hws : WayOrderedSub si)
    (hsub : si.Ids.Sublist ix.Ids) {d : UInt64} (hd : d ∈ ix.Ids) {ls : List Int64}
    (hst : Stored ix.Loc ix.AlignmentShift d = .ok ls) :
    dumpWay o ix si d =
      .ok (wayLines o.PrintLocations o.SearchIndex (si.Ids.contains d) (Int64.ofNat (wId d)) ls) := by
  have hid : WayIndex.WayID d = Int64.ofNat (wId d) := by
    apply Int64.toInt_inj.1
    rw [WayIndex.wayID_eq, Int64.toInt_ofNat_of_lt]
    have := WayIndex.wId_lt d
    omega
  have hidn : (Int64.ofNat (wId d)).toInt = wId d := by rw [← hid, WayIndex.wayID_eq]
  have hx : extractWay o ix d =
      .ok (if o.PrintLocations then [.extract (Int64.ofNat (wId d)) ls] else []) := by
    unfold extractWay
    cases o.PrintLocations
    · rfl
    · simp only [if_true]
      obtain ⟨s, h1, h2⟩ := WayIndex.start_eq hw hd
      have h3 := hw.starts d hd
      rw [h1]
      simp only [Res.ok_bind]
      rw [if_pos (by omega), h2, Int.toNat_natCast]
      unfold Stored at hst
      rw [hst, hid]
      rfl
  have hs : searchWay o si d = .ok (if o.SearchIndex then
      [if si.Ids.contains d then .found (Int64.ofNat (wId d)) ls else .failed (Int64.ofNat (wId d))] else []) := by
    unfold searchWay
    cases o.SearchIndex
    · rfl
    · simp only [if_true]
      rw [hid]
      by_cases hc : d ∈ si.Ids
      · obtain ⟨p, c, _, _, h⟩ := (WayIndex.find_ok hws (Int64.ofNat (wId d)) 0 (by omega)).1 d hc hidn.symm
        rw [h, hl, hsh, hst]
        simp [hc]
      · obtain ⟨c, h⟩ := (WayIndex.find_ok hws (Int64.ofNat (wId d)) 0 (by omega)).2 (by
          intro d' hd' he
          rw [hidn] at he
          obtain ⟨i, hi, rfl⟩ := List.getElem_of_mem hd
          obtain ⟨j, hj, rfl⟩ := List.getElem_of_mem (hsub.mem hd')
          have : i = j := by
            rcases Nat.lt_trichotomy i j with hlt | heq | hgt
            · have := WayIndex.sorted_get hw.sorted hlt hj; omega
            · exact heq
            · have := WayIndex.sorted_get hw.sorted hgt hi; omega
          subst this
          exact hc hd')
        rw [h]
        simp [hc]
  unfold dumpWay
  rw [hx, hs]
  rfl

end Osm.Dump
