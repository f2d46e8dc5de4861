import Verif.Lemmas.Dump

/-!
# C66: the index dumps
-/

namespace Osm.Props
open Osm Osm.Spec Osm.Dump

/-- C66: on a well-formed index the node dump prints, for the selected ranges of the selected pass, exactly
the slots of these ranges in order, each with the location it holds both as extracted and as found by
searching for its id, and no mismatch. -/
theorem C66_nodes (o : NodeOpts) (file : List UInt8) (ix : NodeIndex.NodeIdx) (h : NodeIndex.NewNodeIndex file = .ok ix)
    (wf : WellFormed ix.elements ix.locations) (p n : UInt64) (hp : o.SubIndex.getD (0, 1) = (p, n))
    (si : NodeIndex.SubIdx) (hsi : ix.SubIndex p n = .ok si) (s : Nat) (hs : o.StartElement.getD 0 = s)
    (e : Int) (he : o.EndElement.getD si.element.length = e) :
    dumpNodes o file = .ok (((si.element.take e.toNat).drop s).flatMap
      (rangeLines o.PrintLocations o.SearchIndex ix.locations)) := by
  obtain ⟨hw, hl, _⟩ := NodeIndex.subIndex_wf ix wf p n si hsi
  have hpick : pickSub o ix = .ok si := by
    unfold pickSub
    cases hq : o.SubIndex with
    | none => rw [hq] at hp; cases hp; exact hsi
    | some q => rw [hq] at hp; cases hp; exact hsi
  have hend : (bounds o si).2 = if e < (si.element.length : Int) then e else si.element.length := by
    unfold bounds
    cases hq : o.EndElement with
    | none => rw [hq] at he; subst he; simp
    | some q => rw [hq] at he; subst he; rfl
  have hst : (bounds o si).1 = s := hs
  unfold dumpNodes
  rw [h]
  simp only [Res.ok_bind]
  rw [hpick]
  simp only [Res.ok_bind]
  rw [hst, hend]
  by_cases hlt : e < (si.element.length : Int)
  · rw [if_pos hlt]
    by_cases h0 : e < 0
    · rw [show (e - s).toNat = 0 by omega, show e.toNat = 0 by omega]
      simp [mapRes]
    · have := dumpAll_ok o hw s e.toNat (by omega)
      rw [show ((e.toNat : Nat) : Int) = e by omega] at this
      rw [this, hl]
      simp [List.flatMap_def]
  · rw [if_neg hlt, dumpAll_ok o hw s si.element.length (by omega), hl, List.take_of_length_le (Nat.le_refl _),
      List.take_of_length_le (by omega)]
    simp [List.flatMap_def]

/-- C66: no mismatch is ever among the lines printed for a range. -/
theorem C66_no_mismatch (print search : Bool) (locs : List Int64) (es : List NodeIndex.IndexElement) :
    NodeLine.mismatch ∉ es.flatMap (rangeLines print search locs) := by
  rw [List.mem_flatMap]
  rintro ⟨e, _, h⟩
  unfold rangeLines at h
  rw [List.mem_flatMap] at h
  obtain ⟨i, _, h⟩ := h
  unfold slotLines at h
  dsimp only at h
  rw [List.mem_append] at h
  rcases h with h | h
  · split at h
    · rw [List.mem_singleton] at h
      split at h <;> cases h
    · cases h
  · split at h
    · rw [List.mem_singleton] at h
      split at h <;> cases h
    · cases h

/-- C66: without selection, the dump of an index whose ranges account for all the locations covers all of it. -/
theorem C66_nodes_all (print search : Bool) (file : List UInt8) (ix : NodeIndex.NodeIdx)
    (h : NodeIndex.NewNodeIndex file = .ok ix) (wf : WellFormed ix.elements ix.locations) (hc : Complete ix)
    (hL : ix.locations.length < 2 ^ 63) (hne : ix.elements ≠ []) :
    dumpNodes ⟨print, search, none, none, none⟩ file = .ok (ix.elements.flatMap (rangeLines print search ix.locations)) := by
  obtain ⟨last, h1, h2, h3⟩ : ∃ last, ix.elements.getLast? = some last ∧
      ix.locations.length % 1 < rCount last ∧ rCount last ≤ ix.locations.length / 1 + ix.locations.length % 1 := by
    refine ⟨ix.elements.getLast hne, List.getLast?_eq_some_getLast hne, ?_, ?_⟩
    · have := wf.nonempty _ (List.getLast_mem hne); omega
    · have := wf.slots _ (List.getLast_mem hne); omega
  obtain ⟨subs, h4, h5⟩ := (NodeIndex.passes_iff ix hc hL 1 (by omega) (by omega)).2 ⟨last, h1, h2, h3⟩
  obtain ⟨si, h6, h7⟩ : ∃ si, ix.SubIndex 0 1 = .ok si ∧ subs = [si] := by
    rw [show List.range 1 = [0] from rfl] at h4
    unfold mapRes at h4
    obtain ⟨si, h6, h4⟩ := Res.bind_eq_ok.1 h4
    unfold mapRes at h4
    simp only [Res.ok_bind, Res.ok.injEq] at h4
    exact ⟨si, h6, h4.symm⟩
  subst h7
  have h8 : si.element = ix.elements := by simpa using h5
  have := C66_nodes ⟨print, search, none, none, none⟩ file ix h wf 0 1 rfl si h6 0 rfl si.element.length rfl
  rw [this, Int.toNat_natCast, List.take_length, List.drop_zero, h8]

/-- C66: a negative start panics. -/
theorem C66_negative_start (o : NodeOpts) (file : List UInt8) (s : Int) (hs : o.StartElement = some s) (hn : s < 0)
    (he : o.EndElement = none) : ∀ lines, dumpNodes o file ≠ .ok lines := by
  intro lines h
  unfold dumpNodes at h
  obtain ⟨ix, _, h⟩ := Res.bind_eq_ok.1 h
  obtain ⟨si, _, h⟩ := Res.bind_eq_ok.1 h
  obtain ⟨ls, h, _⟩ := Res.bind_eq_ok.1 h
  have h1 : (bounds o si).1 = s := by unfold bounds; rw [hs]; rfl
  have h2 : (bounds o si).2 = si.element.length := by unfold bounds; rw [he]
  rw [h1, h2] at h
  obtain ⟨k, hk⟩ : ∃ k, ((si.element.length : Int) - s).toNat = k + 1 := ⟨((si.element.length : Int) - s).toNat - 1, by omega⟩
  rw [hk, List.range_succ_eq_map] at h
  unfold mapRes at h
  obtain ⟨_, h, _⟩ := Res.bind_eq_ok.1 h
  unfold dumpElement at h
  rw [if_pos (by omega)] at h
  cases h

/-- Ranges 5-7 (6 empty) and 10-11; version 1, two ranges, five locations. -/
def dumpFile : List UInt8 :=
  [1,0,0,0,0,0,0,0, 2,0,0,0,0,0,0,0, 5,0,0,0,0,0,0,0, 3,0,0,0,0,0,0,0, 10,0,0,0,0,0,0,0, 2,0,0,3,0,0,0,0,
   1,0,0,0,0,0,0,128, 0,0,0,0,0,0,0,0, 2,0,0,0,0,0,0,128, 3,0,0,0,0,0,0,128, 4,0,0,0,0,0,0,128]

/-- The hypotheses are met, with these lines. -/
example : ∃ ix, NodeIndex.NewNodeIndex dumpFile = .ok ix ∧ WellFormed ix.elements ix.locations ∧ Complete ix ∧
    dumpNodes ⟨true, true, none, some 1, none⟩ dumpFile =
      .ok [.extract 0x8000000000000003 1 1 10 0 10, .search 0x8000000000000003 1 1,
           .extract 0x8000000000000004 2 0 10 1 11, .search 0x8000000000000004 2 0] := by
  refine ⟨⟨[⟨5, 3⟩, ⟨10, 0x3000002⟩], [0x8000000000000001, 0, 0x8000000000000002, 0x8000000000000003, 0x8000000000000004].map
    UInt64.toInt64⟩, by decide +kernel, ⟨by decide, by decide, by decide, by decide⟩, by unfold Complete; decide, by decide +kernel⟩

/-- The comparison can fail: with overlapping ranges a mismatch is printed. -/
theorem C66_mismatch_possible : ∃ file lines, dumpNodes ⟨true, true, none, none, none⟩ file = .ok lines ∧
    NodeLine.mismatch ∈ lines :=
  ⟨[1,0,0,0,0,0,0,0, 2,0,0,0,0,0,0,0, 5,0,0,0,0,0,0,0, 1,0,0,0,0,0,0,0, 5,0,0,0,0,0,0,0, 1,0,0,1,0,0,0,0,
    1,0,0,0,0,0,0,128, 2,0,0,0,0,0,0,128], _, rfl, by decide +kernel⟩

/-! ## Ways -/

/-- C66: on a well-ordered index whose ways all decode, the way dump prints for every way of the index its
stored locations, as extracted and as found if the searched pass contains it; a search fails exactly for the
ways outside that pass. -/
theorem C66_ways (o : WayOpts) (file : List UInt8) (ix : WayIndex.WayIdx) (h : WayIndex.NewWayIndex file = .ok ix)
    (hw : WayOrdered ix.Ids ix.Loc ix.AlignmentShift) (p n : Int64) (hp : o.SubIndex.getD (0, 1) = (p, n))
    (si : WayIndex.SubIdx) (hsi : ix.SubIndexWithScaledPass p n = .ok si) (stored : UInt64 → List Int64)
    (hst : ∀ d ∈ ix.Ids, Stored ix.Loc ix.AlignmentShift d = .ok (stored d)) :
    dumpWays o file = .ok (ix.Ids.flatMap fun d =>
      wayLines o.PrintLocations o.SearchIndex (si.Ids.contains d) (Int64.ofNat (wId d)) (stored d)) := by
  obtain ⟨hsub, hl, hsh, hws⟩ := RelIndex.sub_facts hw hsi
  have hpick : pickWaySub o ix = .ok si := by
    unfold pickWaySub
    cases hq : o.SubIndex with
    | none => rw [hq] at hp; cases hp; exact hsi
    | some q => rw [hq] at hp; cases hp; exact hsi
  unfold dumpWays
  rw [h]
  simp only [Res.ok_bind]
  rw [hpick]
  simp only [Res.ok_bind]
  rw [T.mapRes_ok _ (fun d hd => dumpWay_ok o hw hl hsh hws hsub hd (hst d hd))]
  simp [List.flatMap_def]

/-- C66: for the whole index (every way's data starting inside the location data) no search fails. -/
theorem C66_ways_all (print search : Bool) (file : List UInt8) (ix : WayIndex.WayIdx)
    (h : WayIndex.NewWayIndex file = .ok ix) (hw : WayOrdered ix.Ids ix.Loc ix.AlignmentShift) (hne : ix.Ids ≠ [])
    (hlt : ∀ d ∈ ix.Ids, wStart ix.AlignmentShift d < ix.Loc.length) (stored : UInt64 → List Int64)
    (hst : ∀ d ∈ ix.Ids, Stored ix.Loc ix.AlignmentShift d = .ok (stored d)) :
    dumpWays ⟨print, search, none⟩ file = .ok (ix.Ids.flatMap fun d =>
      wayLines print search true (Int64.ofNat (wId d)) (stored d)) := by
  obtain ⟨si, h1, h2⟩ := whole_ways ix hw hne hlt
  rw [C66_ways ⟨print, search, none⟩ file ix h hw 0 1 rfl si h1 stored hst, h2]
  congr 1
  rw [List.flatMap_def, List.flatMap_def]
  congr 1
  apply List.map_congr_left
  intro d hd
  rw [List.contains_iff_mem.2 hd]

/-- Ways 2 and 3, blocks of 4 bytes. -/
def dumpWayFile : List UInt8 :=
  [2,0,0,0,0,0,0,0, 2,0,0,0,0,0,0,0, 0,0,0,0,4,0,0,0, 1,0,0,0,6,0,0,0, 2,2,0,0, 9,0,0,0]

/-- The hypotheses are met, with these lines. -/
example : ∃ ix, WayIndex.NewWayIndex dumpWayFile = .ok ix ∧ WayOrdered ix.Ids ix.Loc ix.AlignmentShift ∧ ix.Ids ≠ [] ∧
    (∀ d ∈ ix.Ids, wStart ix.AlignmentShift d < ix.Loc.length) ∧
    dumpWays ⟨true, true, none⟩ dumpWayFile =
      .ok [.extract 2 [1, 2], .found 2 [1, 2], .extract 3 [-5], .found 3 [-5]] :=
  ⟨⟨[0x400000000, 0x600000001], [2,2,0,0, 9,0,0,0], 2⟩, by decide +kernel,
    ⟨by decide, by decide, by decide, by decide⟩, by decide, by decide, by decide +kernel⟩

/-- The search of one pass of two fails for the way outside it. -/
example : dumpWays ⟨false, true, some (0, 2)⟩ dumpWayFile = .ok [.found 2 [1, 2], .failed 3] := by decide +kernel

end Osm.Props
