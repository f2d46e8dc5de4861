import Verif.Spec.AnyWayIndex
import Verif.Props.RelPass
import Verif.Props.RelIndex
import Verif.Props.Unsorted

/-!
# C103: relindex with whatever way index
-/

namespace Osm.Props
open Osm Osm.T Osm.WayIndex Osm.RelIndex Osm.Spec

theorem deltaZero_length (b : Slice) : ∀ (fuel : Nat) (next : Int) (last : Int64) (o ls : List Int64),
    Pb.deltaZeroLoop b fuel next last o = .ok ls → ls.length ≤ o.length + fuel := by
  intro fuel
  induction fuel with
  | zero => intro next last o ls h; cases h
  | succ fuel ih =>
    intro next last o ls h
    unfold Pb.deltaZeroLoop at h
    split at h
    · obtain ⟨⟨d, n'⟩, -, h⟩ := Res.bind_eq_ok.1 h
      dsimp only at h
      split at h
      · cases h; omega
      · have := ih _ _ _ _ h
        rw [List.length_append] at this
        simp only [List.length_cons, List.length_nil] at this
        omega
    · cases h

theorem decodeAt_length {si : SubIdx} {d : UInt64} {ls : List Int64} (h : si.decodeAt d = .ok ls) :
    ls.length ≤ si.Loc.length + 1 := by
  unfold SubIdx.decodeAt at h
  obtain ⟨o, -, h⟩ := Res.bind_eq_ok.1 h
  split at h
  · unfold Pb.DecodeS64PackedDeltaZero at h
    have := deltaZero_length _ _ _ _ _ _ h
    simp only [List.length_nil, List.length_drop] at this
    omega
  · cases h

theorem between_length {si : SubIdx} {id : Int64} {hint : Int} {lo hi : Nat} {a : Found}
    (h : si.findBetween id hint lo hi = .ok a) : a.locs.length ≤ si.Loc.length + 1 := by
  unfold SubIdx.findBetween at h
  obtain ⟨p, -, h⟩ := Res.bind_eq_ok.1 h
  split at h
  · cases h; simp
  · split at h
    · cases h; simp
    · obtain ⟨ls, h1, h⟩ := Res.bind_eq_ok.1 h
      cases h
      exact decodeAt_length h1

theorem find_length {si : SubIdx} {id : Int64} {hint : Int} {a : Found} (h : si.FindLocations id hint = .ok a) :
    a.locs.length ≤ si.Loc.length + 1 := by
  unfold SubIdx.FindLocations at h
  split at h
  · cases h; simp
  · split at h
    · split at h
      · cases h
      · obtain ⟨d, -, h⟩ := Res.bind_eq_ok.1 h
        split at h
        · exact between_length h
        · split at h
          · obtain ⟨ls, h1, h⟩ := Res.bind_eq_ok.1 h
            cases h
            exact decodeAt_length h1
          · exact between_length h
    · exact between_length h

theorem answer_length {ix : WayIdx} (hloc : ix.Loc.length < 2 ^ 62) {p n : Int64} {si : SubIdx}
    (hs : ix.SubIndexWithScaledPass p n = .ok si) (id : Int64) (ls : List Int64) (h : answer si id = some ls) :
    ls.length < 2 ^ 63 := by
  obtain ⟨-, e, -⟩ := sub_any ix p n si hs
  unfold answer at h
  split at h
  · rename_i r hr
    split at h
    · cases h
      have := find_length hr
      rw [e] at this
      omega
    · cases h
  · cases h

theorem answer_eq {si : SubIdx} {w : Int64} {a : Found} (h : si.FindLocations w 0 = .ok a) :
    answer si w = if a.ok then some a.locs else none := by
  unfold answer
  rw [h]

/-- What the first `i` of `n` passes find. -/
def foundBy (ix : WayIdx) (n : Nat) : Nat → Int64 → Option (List Int64)
  | 0, _ => none
  | i + 1, w => match foundBy ix n i w with
    | some ls => some ls
    | none => match ix.SubIndexWithScaledPass (Int64.ofNat i) (Int64.ofNat n) with
      | .ok si => answer si w
      | _ => none

theorem foundBy_some {ix : WayIdx} {n i : Nat} {w : Int64} {ls : List Int64} (h : foundBy ix n i w = some ls) :
    foundBy ix n (i + 1) w = some ls := by
  show (match foundBy ix n i w with | some ls => _ | none => _) = _
  rw [h]

theorem foundBy_none {ix : WayIdx} {n i : Nat} {w : Int64} (h : foundBy ix n i w = none) {si : SubIdx}
    (hs : ix.SubIndexWithScaledPass (Int64.ofNat i) (Int64.ofNat n) = .ok si) :
    foundBy ix n (i + 1) w = answer si w := by
  show (match foundBy ix n i w with | some ls => _ | none => _) = _
  rw [h, hs]

/-- A way of a relation after some passes. -/
def wayThen (look : Int64 → Option (List Int64)) (w : Int64) : PassWay :=
  match look w with
  | some ls => .done w ls
  | none => .pending (-w)

theorem wayThen_some {look : Int64 → Option (List Int64)} {w : Int64} {ls : List Int64} (h : look w = some ls) :
    wayThen look w = .done w ls := by
  unfold wayThen; rw [h]

theorem wayThen_none {look : Int64 → Option (List Int64)} {w : Int64} (h : look w = none) :
    wayThen look w = .pending (-w) := by
  unfold wayThen; rw [h]

/-- A relation after some passes. -/
def relThen (look : Int64 → Option (List Int64)) (r : Relation) : PassRel :=
  ⟨r.ID, Int64.ofNat (wayMembers r).length, (wayMembers r).map (wayThen look)⟩

theorem count_back {rs : List Relation} (h : RelationsFit rs) {r : Relation} (hr : r ∈ rs) :
    (Int64.ofNat (wayMembers r).length).toInt = (wayMembers r).length := by
  have h1 := h.memory r hr
  have h2 := wayMembers_length r
  rw [Int64.toInt_ofNat_of_lt (by omega)]

theorem neg_toInt {w : Int64} (h : 0 < w.toInt) : (-w).toInt = -w.toInt := by
  rw [Int64.toInt_neg]
  have := Int64.toInt_lt w
  exact Int.bmod_eq_of_le (by omega) (by omega)

theorem relThen_valid {rs : List Relation} (h : RelationsFit rs) {look : Int64 → Option (List Int64)}
    (hlook : ∀ id ls, look id = some ls → ls.length < 2 ^ 63) {r : Relation} (hr : r ∈ rs) : (relThen look r).Valid := by
  refine ⟨?_, ?_⟩
  · show ((wayMembers r).map _).length = (Int64.ofNat (wayMembers r).length).toInt.toNat
    rw [count_back h hr, List.length_map]
    omega
  · intro x hx
    obtain ⟨w, hw, rfl⟩ := List.mem_map.1 hx
    have hp := h.ids r hr w hw
    cases hl : look w with
    | some ls =>
      rw [wayThen_some hl]
      exact ⟨Int64.le_iff_toInt_le.2 (by rw [Int64.toInt_zero]; omega), hlook w ls hl⟩
    | none =>
      rw [wayThen_none hl]
      exact Int64.lt_iff_toInt_lt.2 (by rw [neg_toInt hp, Int64.toInt_zero]; omega)

theorem pending_mem {look : Int64 → Option (List Int64)} {r : Relation} {x : Int64}
    (h : PassWay.pending x ∈ (relThen look r).ways) : ∃ w ∈ wayMembers r, look w = none ∧ x = -w := by
  obtain ⟨w, hw, e⟩ := List.mem_map.1 h
  cases hl : look w with
  | some ls => rw [wayThen_some hl] at e; cases e
  | none =>
    rw [wayThen_none hl] at e
    exact ⟨w, hw, hl, (PassWay.pending.inj e).symm⟩

/-- A pass that is not the last. -/
theorem settle_then {ix : WayIdx} {n i : Nat} {si : SubIdx}
    (hs : ix.SubIndexWithScaledPass (Int64.ofNat i) (Int64.ofNat n) = .ok si) (r : Relation) :
    (relThen (foundBy ix n i) r).settle (answer si) false = relThen (foundBy ix n (i + 1)) r := by
  unfold PassRel.settle relThen
  dsimp only
  rw [List.map_map]
  congr 1
  refine List.map_congr_left fun w _ => ?_
  show (wayThen (foundBy ix n i) w).settle (answer si) false = wayThen (foundBy ix n (i + 1)) w
  cases hl : foundBy ix n i w with
  | some ls =>
    rw [wayThen_some hl, wayThen_some (foundBy_some hl)]
    rfl
  | none =>
    rw [wayThen_none hl]
    have hn := foundBy_none hl hs
    unfold PassWay.settle
    dsimp only
    rw [Int64.neg_neg]
    cases ha : answer si w with
    | some ls => rw [wayThen_some (hn.trans ha)]
    | none => rw [wayThen_none (hn.trans ha)]; rfl

/-- The last pass. -/
theorem settle_last {ix : WayIdx} {n i : Nat} {si : SubIdx}
    (hs : ix.SubIndexWithScaledPass (Int64.ofNat i) (Int64.ofNat n) = .ok si) (r : Relation) :
    ((relThen (foundBy ix n i) r).settle (answer si) true).geo = geoOf (fun w => (foundBy ix n (i + 1) w).getD []) r := by
  unfold PassRel.settle relThen PassRel.geo geoOf
  dsimp only
  rw [List.map_map, List.map_map]
  congr 1
  refine List.map_congr_left fun w _ => ?_
  show (match (wayThen (foundBy ix n i) w).settle (answer si) true with
    | .done w ls => (w, ls)
    | .pending w => (w, [])) = _
  cases hl : foundBy ix n i w with
  | some ls =>
    rw [wayThen_some hl, foundBy_some hl]
    rfl
  | none =>
    rw [wayThen_none hl, foundBy_none hl hs]
    unfold PassWay.settle
    dsimp only
    rw [Int64.neg_neg]
    cases ha : answer si w with
    | some ls => rfl
    | none => rfl

/-- What a pass needs: that it can be made, and that no lookup of a way not found before panics. -/
def PassRuns (ix : WayIdx) (n : Nat) (rs : List Relation) (p : Nat) : Prop :=
  ∃ si, ix.SubIndexWithScaledPass (Int64.ofNat p) (Int64.ofNat n) = .ok si ∧
    ∀ r ∈ rs, ∀ w ∈ wayMembers r, foundBy ix n p w = none → ∃ a, si.FindLocations w 0 = .ok a

theorem foundBy_length {ix : WayIdx} (hloc : ix.Loc.length < 2 ^ 62) {n : Nat} : ∀ (i : Nat) (id : Int64)
    (ls : List Int64), foundBy ix n i id = some ls → ls.length < 2 ^ 63 := by
  intro i
  induction i with
  | zero => intro id ls h; cases h
  | succ i ih =>
    intro id ls h
    cases hl : foundBy ix n i id with
    | some ls' =>
      rw [foundBy_some hl] at h
      cases h
      exact ih id _ hl
    | none =>
      have h' := h
      unfold foundBy at h'
      rw [hl] at h'
      dsimp only at h'
      split at h'
      · rename_i si hs
        exact answer_length hloc hs id ls h'
      · cases h'

theorem then_file {f : List UInt8} {rs : List Relation} (h : RelationsFit rs) {look : Int64 → Option (List Int64)}
    (hlook : ∀ id ls, look id = some ls → ls.length < 2 ^ 63)
    (hw : IsWords f ((rs.map (relThen look)).flatMap PassRel.words)) : PassFile f (rs.map (relThen look)) := by
  refine ⟨f, [], _, (List.append_nil _).symm, by simp, hw, rfl, fun r hr => ?_⟩
  obtain ⟨r', h3, rfl⟩ := List.mem_map.1 hr
  exact relThen_valid h hlook h3

/-- One pass. -/
theorem pass_any {ix : WayIdx} {rs : List Relation} (hne : rs ≠ [])
    {n i : Nat} {out inp : String} (hio : inp ≠ out) {fs : FS} {file : List UInt8} (hf : Holds fs inp file)
    (hfile : PassFile file (rs.map (relThen (foundBy ix n i)))) :
    ((∃ fs', (rewrite out inp ix (Int64.ofNat i) (Int64.ofNat n)).exec fs = .ok ((), fs')) ↔ PassRuns ix n rs i) := by
  have hnf : file ≠ [] := by
    rintro rfl
    obtain ⟨body, tail, words, e, -, hw, e2, -⟩ := hfile
    obtain ⟨rfl, rfl⟩ := List.append_eq_nil_iff.1 e.symm
    cases rs with
    | nil => exact hne rfl
    | cons r rs =>
      have := isWords_length hw
      rw [e2] at this
      simp only [List.map_cons, List.flatMap_cons, List.length_append, PassRel.words, List.length_cons,
        List.length_nil] at this
      omega
  constructor
  · rintro ⟨fs', h⟩
    have h' := h
    unfold rewrite at h'
    rw [Prog.exec_bind, Prog.exec_lift] at h'
    obtain ⟨⟨si, fs1⟩, e1, -⟩ := Res.bind_eq_ok.1 h'
    obtain ⟨si', hs, e1⟩ := Res.bind_eq_ok.1 e1
    cases e1
    obtain ⟨-, rels, h1, h2⟩ := (C94_succeeds_iff hs hio fs hf).1 ⟨fs', h⟩
    obtain rfl := C94_unique _ _ _ h1 hfile
    refine ⟨si, hs, fun r hrm w hw hnone => ?_⟩
    obtain ⟨a, ha⟩ := h2 _ (List.mem_map_of_mem hrm) (-w) (List.mem_map.2 ⟨w, hw, wayThen_none hnone⟩)
    rw [Int64.neg_neg] at ha
    exact ⟨a, ha⟩
  · rintro ⟨si, hs, h⟩
    refine (C94_succeeds_iff hs hio fs hf).2 ⟨hnf, _, hfile, fun r hrm x hx => ?_⟩
    obtain ⟨r', h3, rfl⟩ := List.mem_map.1 hrm
    obtain ⟨w, hw, hnone, rfl⟩ := pending_mem hx
    rw [Int64.neg_neg]
    exact h r' h3 w hw hnone

/-- All passes: they succeed exactly if each can be made and none of the lookups panics; then the output is the index
of the relations, each way with the locations the first pass that found it gave. -/
theorem passes_any (out : String) {ix : WayIdx} (hloc : ix.Loc.length < 2 ^ 62) {rs : List Relation}
    (hr : RelationsFit rs) (hne : rs ≠ []) {n : Nat} (hn : n < 2 ^ 63) :
    ∀ (left i : Nat) (fs : FS) (file : List UInt8), i + (left + 1) = n → Holds fs (makePassFilename out i n) file →
      PassFile file (rs.map (relThen (foundBy ix n i))) →
      ((∃ fs', (runPasses out ix n (left + 1) i).exec fs = .ok ((), fs')) ↔ ∀ p, i ≤ p → p < n → PassRuns ix n rs p) ∧
      ∀ fs', (runPasses out ix n (left + 1) i).exec fs = .ok ((), fs') →
        ∃ file', Holds fs' out file' ∧ IsRelIndex file' (rs.map (geoOf fun w => (foundBy ix n n w).getD [])) := by
  intro left
  induction left with
  | zero =>
    intro i fs file hi hf hfile
    have hin : i + 1 = n := by omega
    have hrun : (runPasses out ix n (0 + 1) i).exec fs =
        ((rewrite out (makePassFilename out i n) ix (Int64.ofNat i) (Int64.ofNat n)).exec fs).bind fun r =>
          .ok ((), (FsOp.remove (makePassFilename out i n)).run r.2) := by
      unfold runPasses
      rw [if_neg (by omega), Prog.exec_bind]
      rfl
    have hp := pass_any hne (pass_ne_out out i n) hf hfile
    rw [hrun]
    refine ⟨⟨?_, ?_⟩, ?_⟩
    · rintro ⟨fs', h⟩ p h1 h2
      obtain ⟨r1, e1, -⟩ := Res.bind_eq_ok.1 h
      obtain rfl : p = i := by omega
      exact hp.1 ⟨r1.2, e1⟩
    · intro h
      obtain ⟨fs1, e1⟩ := hp.2 (h i (by omega) (by omega))
      exact ⟨_, Res.bind_eq_ok.2 ⟨_, e1, rfl⟩⟩
    · intro fs' h
      obtain ⟨⟨⟨⟩, fs1⟩, e1, e2⟩ := Res.bind_eq_ok.1 h
      cases e2
      obtain ⟨si, hs, hlk⟩ := hp.1 ⟨fs1, e1⟩
      obtain ⟨f', h1, h2⟩ := C94_last hs (by
        have := not_last (i := i) (n := n) hn (by omega)
        rw [decide_eq_false (p := i + 1 < n) (by omega)] at this
        simpa using this) (pass_ne_out out i n) hf e1 hfile
        (look := answer si) (fun r _ w _ a ha => answer_eq ha) (fun id ls h => answer_length hloc hs id ls h) (by
          intro r hrm
          obtain ⟨r', h3, rfl⟩ := List.mem_map.1 hrm
          show 0 ≤ (Int64.ofNat (wayMembers r').length).toInt
          rw [count_back hr h3]
          omega)
      refine ⟨f', ?_, ?_⟩
      · obtain ⟨pos, h1⟩ := h1
        exact ⟨pos, (set_other _ _ (pass_ne_out out i n).symm).trans h1⟩
      · rw [List.map_map] at h2
        have : rs.map ((fun r => (PassRel.settle (answer si) true r).geo) ∘ relThen (foundBy ix n i)) =
            rs.map (geoOf fun w => (foundBy ix n n w).getD []) := by
          refine List.map_congr_left fun r _ => ?_
          show ((relThen (foundBy ix n i) r).settle (answer si) true).geo = _
          rw [settle_last hs, hin]
        rw [← this]
        exact h2
  | succ left ih =>
    intro i fs file hi hf hfile
    have hne' : makePassFilename out i n ≠ makePassFilename out (i + 1) n := fun h => absurd (pass_inj h) (by omega)
    have hrun : (runPasses out ix n (left + 1 + 1) i).exec fs =
        ((rewrite (makePassFilename out (i + 1) n) (makePassFilename out i n) ix (Int64.ofNat i) (Int64.ofNat n)).exec fs).bind
          fun r => (runPasses out ix n (left + 1) (i + 1)).exec ((FsOp.remove (makePassFilename out i n)).run r.2) := by
      conv => lhs; unfold runPasses
      rw [if_pos (by omega), Prog.exec_bind]
      refine congrArg _ (funext fun r => ?_)
      rw [Prog.exec_bind]
      unfold OsRemoveTry
      rw [Prog.exec_emit, Res.ok_bind]
    have hp := pass_any hne hne' hf hfile
    have hnext : ∀ fs1, (rewrite (makePassFilename out (i + 1) n) (makePassFilename out i n) ix (Int64.ofNat i)
        (Int64.ofNat n)).exec fs = .ok ((), fs1) → ∃ file1,
        Holds ((FsOp.remove (makePassFilename out i n)).run fs1) (makePassFilename out (i + 1) n) file1 ∧
        PassFile file1 (rs.map (relThen (foundBy ix n (i + 1)))) := by
      intro fs1 e1
      obtain ⟨si, hs, hlk⟩ := hp.1 ⟨fs1, e1⟩
      obtain ⟨⟨f1, ⟨pos, h1⟩, h2⟩, -⟩ := C94_writes hs hne' hf e1 hfile (look := answer si)
        (fun r _ w _ a ha => answer_eq ha)
      refine ⟨f1, ⟨pos, (set_other _ _ hne'.symm).trans h1⟩, ?_⟩
      refine then_file hr (foundBy_length hloc (i + 1)) ?_
      have e : (rs.map (relThen (foundBy ix n i))).map (PassRel.settle (answer si)
          (!decide (Int64.ofNat i + 1 < Int64.ofNat n))) = rs.map (relThen (foundBy ix n (i + 1))) := by
        rw [not_last hn (by omega), decide_eq_true (p := i + 1 < n) (by omega), List.map_map]
        exact List.map_congr_left fun r _ => settle_then hs r
      rw [← e]
      exact h2
    rw [hrun]
    refine ⟨⟨?_, ?_⟩, ?_⟩
    · rintro ⟨fs', h⟩ p h1 h2
      obtain ⟨⟨⟨⟩, fs1⟩, e1, e2⟩ := Res.bind_eq_ok.1 h
      obtain ⟨f1, g1, g2⟩ := hnext fs1 e1
      rcases Nat.lt_or_ge i p with h3 | h3
      · exact (ih (i + 1) _ f1 (by omega) g1 g2).1.1 ⟨fs', e2⟩ p (by omega) h2
      · obtain rfl : p = i := by omega
        exact hp.1 ⟨fs1, e1⟩
    · intro h
      obtain ⟨fs1, e1⟩ := hp.2 (h i (by omega) (by omega))
      obtain ⟨f1, g1, g2⟩ := hnext fs1 e1
      obtain ⟨fs', e2⟩ := (ih (i + 1) _ f1 (by omega) g1 g2).1.2 fun p h1 h2 => h p (by omega) h2
      exact ⟨fs', Res.bind_eq_ok.2 ⟨_, e1, e2⟩⟩
    · intro fs' h
      obtain ⟨⟨⟨⟩, fs1⟩, e1, e2⟩ := Res.bind_eq_ok.1 h
      obtain ⟨f1, g1, g2⟩ := hnext fs1 e1
      exact (ih (i + 1) _ f1 (by omega) g1 g2).2 fs' e2

/-- What the passes so far say about a way of the relations. -/
theorem foundBy_spec {ix : WayIdx} {n : Nat} {rs : List Relation} {r : Relation} (hr : r ∈ rs) {w : Int64}
    (hw : w ∈ wayMembers r) : ∀ i, (∀ p < i, PassRuns ix n rs p) →
    (∃ ls, foundBy ix n i w = some ls ∧ ∃ p < i, PassFinds ix n p w ls ∧ ∀ q < p, PassMisses ix n q w) ∨
    (foundBy ix n i w = none ∧ ∀ q < i, PassMisses ix n q w) := by
  intro i
  induction i with
  | zero => intro _; exact .inr ⟨rfl, fun q hq => absurd hq (by omega)⟩
  | succ i ih =>
    intro h
    rcases ih fun p hp => h p (by omega) with ⟨ls, h1, p, hp, h2⟩ | ⟨h1, h2⟩
    · exact .inl ⟨ls, foundBy_some h1, p, by omega, h2⟩
    · obtain ⟨si, hs, hl⟩ := h i (by omega)
      obtain ⟨a, ha⟩ := hl r hr w hw h1
      have h3 := (foundBy_none h1 hs).trans (answer_eq ha)
      cases hok : a.ok with
      | true =>
        rw [hok] at h3
        exact .inl ⟨a.locs, h3, i, by omega, ⟨si, a, hs, ha, hok, rfl⟩, h2⟩
      | false =>
        rw [hok] at h3
        refine .inr ⟨h3, fun q hq => ?_⟩
        rcases Nat.lt_or_ge q i with h4 | h4
        · exact h2 q h4
        · obtain rfl : q = i := by omega
          exact ⟨si, a, hs, ha, hok⟩

theorem foundBy_missed {ix : WayIdx} {n : Nat} {w : Int64} : ∀ i, (∀ q < i, PassMisses ix n q w) →
    foundBy ix n i w = none := by
  intro i
  induction i with
  | zero => intro _; rfl
  | succ i ih =>
    intro h
    obtain ⟨si, a, hs, ha, hok⟩ := h i (by omega)
    rw [foundBy_none (ih fun q hq => h q (by omega)) hs, answer_eq ha, hok]
    rfl

theorem any_index_loc {wayFile : List UInt8} {ix : WayIdx} (hloc : ix.Loc.length < 2 ^ 62)
    (hload : NewWayIndex wayFile = .ok ix) (blocks : List (Option PrimitiveBlock))
    (hr : RelationsFit (allRelations blocks)) (hne : allRelations blocks ≠ []) (n : Nat) (hn1 : 1 ≤ n) (hn : n < 2 ^ 63)
    (out wayIndex : String) (hwi : wayIndex ≠ out ∧ ∀ p < n, wayIndex ≠ makePassFilename out p n) (fs : FS)
    (hf : Holds fs wayIndex wayFile) :
    ∃ sent, mapRes work blocks = .ok sent ∧
      ((∃ fs', (relindex out wayIndex n sent).exec fs = .ok ((), fs')) ↔
        ∀ p < n, ∃ si, ix.SubIndexWithScaledPass (Int64.ofNat p) (Int64.ofNat n) = .ok si ∧
          ∀ r ∈ allRelations blocks, ∀ w ∈ wayMembers r, (∀ q < p, PassMisses ix n q w) →
            ∃ a, si.FindLocations w 0 = .ok a) ∧
      ∀ fs', (relindex out wayIndex n sent).exec fs = .ok ((), fs') →
        ∃ file', ∃ locs : Int64 → List Int64, Holds fs' out file' ∧
          IsRelIndex file' ((allRelations blocks).map fun r => ⟨r.ID, (wayMembers r).map fun w => (w, locs w)⟩) ∧
          ∀ r ∈ allRelations blocks, ∀ w ∈ wayMembers r, FirstFound ix n w (locs w) := by
  obtain ⟨sent, fs1, h1, h2, h3, h4⟩ := C43_stream (makePassFilename out 0 n) blocks fs hr.lengths
  refine ⟨sent, h1, ?_⟩
  obtain ⟨pos, hf⟩ := hf
  have hf1 : fs1 wayIndex = some ⟨wayFile, pos⟩ := (h4 wayIndex (hwi.2 0 (by omega))).trans hf
  have hnil : wayFile ≠ [] := by
    rintro rfl
    cases hload
  have hrun : (relindex out wayIndex n sent).exec fs = (runPasses out ix n n 0).exec fs1 := by
    unfold relindex
    rw [Prog.exec_bind, h2, Res.ok_bind, Prog.exec_bind, exec_OsOpen, if_pos (by dsimp only; rw [hf1]; rfl), Res.ok_bind,
      Prog.exec_bind, exec_MMapMap]
    dsimp only
    rw [hf1]
    dsimp only
    rw [if_neg hnil, Res.ok_bind, Prog.exec_bind, Prog.exec_lift, hload]
    rfl
  have hstart : PassFile (Int64SliceAsByteSlice ((allRelations blocks).flatMap unresolvedEntry))
      ((allRelations blocks).map (relThen (foundBy ix n 0))) := by
    refine then_file hr (fun id ls h => by cases h) ?_
    have e : ((allRelations blocks).map (relThen (foundBy ix n 0))).flatMap PassRel.words =
        (allRelations blocks).flatMap unresolvedEntry := by
      rw [List.flatMap_map]
      congr 1
      funext r
      unfold PassRel.words relThen unresolvedEntry
      dsimp only
      congr 2
      rw [List.flatMap_map]
      generalize wayMembers r = ws
      induction ws with
      | nil => rfl
      | cons w ws ih => rw [List.flatMap_cons, List.map_cons, ih]; rfl
    rw [e]
    exact written_words _
  obtain ⟨left, rfl⟩ : ∃ left, n = left + 1 := ⟨n - 1, by omega⟩
  obtain ⟨c1, c2⟩ := passes_any out hloc hr hne hn left 0 fs1 _ (by omega) h3 hstart
  have hiff : (∀ p, 0 ≤ p → p < left + 1 → PassRuns ix (left + 1) (allRelations blocks) p) ↔
      ∀ p < left + 1, ∃ si, ix.SubIndexWithScaledPass (Int64.ofNat p) (Int64.ofNat (left + 1)) = .ok si ∧
          ∀ r ∈ allRelations blocks, ∀ w ∈ wayMembers r, (∀ q < p, PassMisses ix (left + 1) q w) →
            ∃ a, si.FindLocations w 0 = .ok a := by
    constructor
    · intro h p hp
      obtain ⟨si, hs, hl⟩ := h p (by omega) hp
      exact ⟨si, hs, fun r hrm w hw hm => hl r hrm w hw (foundBy_missed p hm)⟩
    · intro h p
      induction p using Nat.strongRecOn with
      | _ p ih =>
        intro _ hp
        obtain ⟨si, hs, hl⟩ := h p hp
        refine ⟨si, hs, fun r hrm w hw hnone => hl r hrm w hw ?_⟩
        rcases foundBy_spec hrm hw p (fun q hq => ih q hq (by omega) (by omega)) with ⟨ls, h5, -⟩ | ⟨-, h5⟩
        · rw [hnone] at h5; cases h5
        · exact h5
  rw [hrun]
  refine ⟨c1.trans hiff, fun fs' h => ?_⟩
  obtain ⟨file', g1, g2⟩ := c2 fs' h
  refine ⟨file', fun w => (foundBy ix (left + 1) (left + 1) w).getD [], g1, g2, fun r hrm w hw => ?_⟩
  have hall := c1.1 ⟨fs', h⟩
  rcases foundBy_spec hrm hw (left + 1) (fun p hp => hall p (by omega) hp) with ⟨ls, h5, p, hp, h6⟩ | ⟨h5, h6⟩
  · dsimp only
    rw [h5]
    exact .inl ⟨p, hp, h6⟩
  · dsimp only
    rw [h5]
    exact .inr ⟨rfl, h6⟩

/-- C103: relindex with whatever way index (that of an unsorted source, or one that was damaged), whatever the number
of passes: it completes exactly if every pass can be made and no lookup of a way that no pass before found panics; and
then the output is a relation index of exactly the relations of the source, in order, each with its way members in
order, each of these with the locations the first pass that found it gave, or none if no pass found it. -/
theorem C103_any_index {wayFile : List UInt8} (hlen : wayFile.length < 2 ^ 62) {ix : WayIdx}
    (hload : NewWayIndex wayFile = .ok ix) (blocks : List (Option PrimitiveBlock))
    (hr : RelationsFit (allRelations blocks)) (hne : allRelations blocks ≠ []) (n : Nat) (hn1 : 1 ≤ n) (hn : n < 2 ^ 63)
    (out wayIndex : String) (hwi : wayIndex ≠ out ∧ ∀ p < n, wayIndex ≠ makePassFilename out p n) (fs : FS)
    (hf : Holds fs wayIndex wayFile) :
    ∃ sent, mapRes work blocks = .ok sent ∧
      ((∃ fs', (relindex out wayIndex n sent).exec fs = .ok ((), fs')) ↔
        ∀ p < n, ∃ si, ix.SubIndexWithScaledPass (Int64.ofNat p) (Int64.ofNat n) = .ok si ∧
          ∀ r ∈ allRelations blocks, ∀ w ∈ wayMembers r, (∀ q < p, PassMisses ix n q w) →
            ∃ a, si.FindLocations w 0 = .ok a) ∧
      ∀ fs', (relindex out wayIndex n sent).exec fs = .ok ((), fs') →
        ∃ file', ∃ locs : Int64 → List Int64, Holds fs' out file' ∧
          IsRelIndex file' ((allRelations blocks).map fun r => ⟨r.ID, (wayMembers r).map fun w => (w, locs w)⟩) ∧
          ∀ r ∈ allRelations blocks, ∀ w ∈ wayMembers r, FirstFound ix n w (locs w) := by
  have hloc : ix.Loc.length < 2 ^ 62 := by
    unfold NewWayIndex at hload
    obtain ⟨w1, -, h⟩ := Res.bind_eq_ok.1 hload
    obtain ⟨w2, -, h⟩ := Res.bind_eq_ok.1 h
    dsimp only at h
    split at h
    · cases h
      dsimp only
      rw [List.length_drop]
      omega
    · cases h
  exact any_index_loc hloc hload blocks hr hne n hn1 hn out wayIndex hwi fs hf

section
open Osm.WayIndexer

theorem finds_any (shift : Int64) (ws : List Way) (h : WaysAnyOrder shift ws) {p n : Int64} {si : SubIdx}
    (hsi : WayIdx.SubIndexWithScaledPass ⟨entries shift 0 ws, locData shift ws, shift⟩ p n = .ok si) (id : Int64) :
    ∃ a, si.FindLocations id 0 = .ok a ∧ (a.ok = true → ∃ x ∈ ws, x.ID = id ∧ a.locs = indexedRefs x) ∧
      (a.ok = false → WaysNeverDown ws → ∀ d ∈ si.Ids, (wId d : Int) ≠ id.toInt) := by
  obtain ⟨m1, m2⟩ := entries_mem shift ws h.ids 0 [] (by simp) (by have := h.space; omega)
  obtain ⟨s1, s2, s3, s4⟩ := sub_any _ _ _ si hsi
  have hu := usable_sub (ix := ⟨entries shift 0 ws, locData shift ws, shift⟩)
    (entries_usable shift _ h) s1 s2 s3
  rcases find_any hu id 0 (by omega) with ⟨d, hdm, hid, p', c, hp', he⟩ | ⟨⟨c, he⟩, hno⟩
  · obtain ⟨w, hw, q1, -, -, q4⟩ := m1 d (s1.subset hdm)
    rw [List.nil_append] at q4
    rw [s2, s3] at he
    dsimp only at he
    rw [q4] at he
    refine ⟨_, he, ?_, fun hf => by cases hf⟩
    intro _
    exact ⟨w, hw, Int64.toInt_inj.1 (by omega), rfl⟩
  · refine ⟨_, he, (fun hf => by cases hf), fun _ hd => ?_⟩
    obtain ⟨t1, t2⟩ := s4 (entries_climb shift ws h.ids hd 0 (by have := h.space; omega))
    exact hno t1 t2

theorem loc_short (shift : Int64) (ws : List Way) (h : WaysAnyOrder shift ws) : (locData shift ws).length < 2 ^ 62 := by
  rw [locData_length]
  exact h.memory

/-- C103: the relation index of a source in any order, with a way index made of a source in any order: if all passes
can be made, relindex completes, and each way member of each relation has either no locations, or those of a way of
the source with that id. -/
theorem C103_unsorted (shift : Int64) (wayBlocks : List (Option PrimitiveBlock))
    (hways : WaysAnyOrder shift (allWays wayBlocks)) (wayIndex : String) (chunks : Nat → Nat) (fs0 fs1 : FS)
    {batches : List (Option IndexElement)} (hwork : workAll shift wayBlocks = .ok batches)
    (hrun : (WayIndexer.Output wayIndex shift chunks never batches).exec fs0 = .ok ((), fs1)) {wayFile : List UInt8}
    (hfile : Holds fs1 wayIndex wayFile) {ix : WayIdx}
    (hload : NewWayIndex wayFile = .ok ix) (blocks : List (Option PrimitiveBlock))
    (hr : RelationsFit (allRelations blocks)) (hne : allRelations blocks ≠ []) (n : Nat) (hn1 : 1 ≤ n) (hn : n < 2 ^ 63)
    (hpass : ∀ p < n, ∃ si, ix.SubIndexWithScaledPass (Int64.ofNat p) (Int64.ofNat n) = .ok si)
    (out : String) (hwi : wayIndex ≠ out ∧ ∀ p < n, wayIndex ≠ makePassFilename out p n) (fs : FS)
    (hf : Holds fs wayIndex wayFile) :
    ∃ sent fs' file', ∃ locs : Int64 → List Int64, mapRes RelIndex.work blocks = .ok sent ∧
      (relindex out wayIndex n sent).exec fs = .ok ((), fs') ∧ Holds fs' out file' ∧
      IsRelIndex file' ((allRelations blocks).map fun r => ⟨r.ID, (wayMembers r).map fun w => (w, locs w)⟩) ∧
      ∀ r ∈ allRelations blocks, ∀ w ∈ wayMembers r,
        locs w = [] ∨ ∃ x ∈ allWays wayBlocks, x.ID = w ∧ locs w = indexedRefs x := by
  obtain ⟨b1, f1, file1, e1, e2, ⟨q1, e3⟩, e4⟩ := output_any shift wayBlocks hways wayIndex chunks fs0
  rw [hwork] at e1
  obtain rfl := Res.ok.inj e1
  rw [hrun] at e2
  obtain rfl := (Prod.mk.inj (Res.ok.inj e2)).2
  obtain ⟨q2, hfile⟩ := hfile
  rw [hfile] at e3
  obtain ⟨rfl, -⟩ := File.mk.inj (Option.some.inj e3)
  rw [hload] at e4
  obtain rfl := Res.ok.inj e4
  obtain ⟨sent, h1, h2, h3⟩ := any_index_loc (loc_short shift _ hways) hload blocks hr hne n hn1 hn out wayIndex hwi fs hf
  obtain ⟨fs', h4⟩ := h2.2 (by
    intro p hp
    obtain ⟨si, hs⟩ := hpass p hp
    refine ⟨si, hs, fun r _ w _ _ => ?_⟩
    obtain ⟨a, ha, -⟩ := finds_any shift _ hways hs w
    exact ⟨a, ha⟩)
  obtain ⟨file', locs, h5, h6, h7⟩ := h3 fs' h4
  refine ⟨sent, fs', file', locs, h1, h4, h5, h6, fun r hrm w hw => ?_⟩
  rcases h7 r hrm w hw with ⟨p, hp, ⟨si, a, hs, ha, hok, hl⟩, -⟩ | ⟨h8, -⟩
  · obtain ⟨a', ha', hsound, -⟩ := finds_any shift _ hways hs w
    rw [ha] at ha'
    obtain rfl := Res.ok.inj ha'
    obtain ⟨x, hx, hid, hl'⟩ := hsound hok
    exact .inr ⟨x, hx, hid, hl ▸ hl'⟩
  · exact .inl h8

/-- C103: if the way ids never go down (a file with all versions of every way) and the passes cover the way index, each
way member that the source has is given the locations of one of its versions; only the others have none. -/
theorem C103_history (shift : Int64) (wayBlocks : List (Option PrimitiveBlock))
    (hways : WaysAnyOrder shift (allWays wayBlocks)) (hd : WaysNeverDown (allWays wayBlocks)) (wayIndex : String)
    (chunks : Nat → Nat) (fs0 fs1 : FS)
    {batches : List (Option IndexElement)} (hwork : workAll shift wayBlocks = .ok batches)
    (hrun : (WayIndexer.Output wayIndex shift chunks never batches).exec fs0 = .ok ((), fs1)) {wayFile : List UInt8}
    (hfile : Holds fs1 wayIndex wayFile) {ix : WayIdx}
    (hload : NewWayIndex wayFile = .ok ix) (blocks : List (Option PrimitiveBlock))
    (hr : RelationsFit (allRelations blocks)) (hne : allRelations blocks ≠ []) (n : Nat) (hn1 : 1 ≤ n) (hn : n < 2 ^ 63)
    (hcover : WayPassesCover ix n)
    (out : String) (hwi : wayIndex ≠ out ∧ ∀ p < n, wayIndex ≠ makePassFilename out p n) (fs : FS)
    (hf : Holds fs wayIndex wayFile) :
    ∃ sent fs' file', ∃ locs : Int64 → List Int64, mapRes RelIndex.work blocks = .ok sent ∧
      (relindex out wayIndex n sent).exec fs = .ok ((), fs') ∧ Holds fs' out file' ∧
      IsRelIndex file' ((allRelations blocks).map fun r => ⟨r.ID, (wayMembers r).map fun w => (w, locs w)⟩) ∧
      ∀ r ∈ allRelations blocks, ∀ w ∈ wayMembers r,
        (∃ x ∈ allWays wayBlocks, x.ID = w ∧ locs w = indexedRefs x) ∨
        (locs w = [] ∧ ∀ x ∈ allWays wayBlocks, x.ID ≠ w) := by
  obtain ⟨b1, f1, file1, e1, e2, ⟨q1, e3⟩, e4⟩ := output_any shift wayBlocks hways wayIndex chunks fs0
  rw [hwork] at e1
  obtain rfl := Res.ok.inj e1
  rw [hrun] at e2
  obtain rfl := (Prod.mk.inj (Res.ok.inj e2)).2
  obtain ⟨q2, hfile⟩ := hfile
  rw [hfile] at e3
  obtain ⟨rfl, -⟩ := File.mk.inj (Option.some.inj e3)
  rw [hload] at e4
  obtain rfl := Res.ok.inj e4
  obtain ⟨hsubs, -⟩ := cover_known hcover
  obtain ⟨sent, h1, h2, h3⟩ := any_index_loc (loc_short shift _ hways) hload blocks hr hne n hn1 hn out wayIndex hwi fs hf
  obtain ⟨m1, m2⟩ := entries_mem shift (allWays wayBlocks) hways.ids 0 [] (by simp) (by have := hways.space; omega)
  obtain ⟨fs', h4⟩ := h2.2 (by
    intro p hp
    obtain ⟨si, hs⟩ := hsubs p hp
    refine ⟨si, hs, fun r _ w _ _ => ?_⟩
    obtain ⟨a, ha, -⟩ := finds_any shift _ hways hs w
    exact ⟨a, ha⟩)
  obtain ⟨file', locs, h5, h6, h7⟩ := h3 fs' h4
  refine ⟨sent, fs', file', locs, h1, h4, h5, h6, fun r hrm w hw => ?_⟩
  rcases h7 r hrm w hw with ⟨p, hp, ⟨si, a, hs, ha, hok, hl⟩, -⟩ | ⟨h8, h9⟩
  · obtain ⟨a', ha', hsound, -⟩ := finds_any shift _ hways hs w
    rw [ha] at ha'
    obtain rfl := Res.ok.inj ha'
    obtain ⟨x, hx, hid, hl'⟩ := hsound hok
    exact .inl ⟨x, hx, hid, hl ▸ hl'⟩
  · refine .inr ⟨h8, fun x hx hid => ?_⟩
    obtain ⟨d, hdm, hdi⟩ := m2 x hx
    obtain ⟨subs, hsub, hcov⟩ := hcover
    obtain ⟨s, hsm, hds⟩ := (hcov d).1 hdm
    obtain ⟨p, hp, hps⟩ := mapRes_back hsub s hsm
    obtain ⟨si, a, hs, ha, hok⟩ := h9 p (List.mem_range.1 hp)
    obtain rfl := Res.ok.inj (hs.symm.trans hps)
    obtain ⟨a', ha', -, hno⟩ := finds_any shift _ hways hs w
    rw [ha] at ha'
    obtain rfl := Res.ok.inj ha'
    exact hno hok hd d hds (by rw [hdi, hid])

/-! ## Examples -/

/-- A relation with ways 8, 3 and 4, and a node. -/
def eightBlock : PrimitiveBlock :=
  ⟨none, none, [⟨none, none, [], [], [⟨7, [], [], [], [8, 5, 3, 4], [1, 0, 1, 1]⟩], []⟩], 100, 1000, 0, 0⟩

theorem eight_fit : RelationsFit (allRelations [some eightBlock]) :=
  ⟨by decide +kernel, by decide +kernel, by decide +kernel⟩

theorem one_cover (shift : Int64) (ws : List Way) (h : WaysAnyOrder shift ws) (hne : ws ≠ []) :
    WayPassesCover ⟨entries shift 0 ws, locData shift ws, shift⟩ 1 := by
  obtain ⟨si, h1, h2⟩ := single_pass_any shift ws h hne
  refine ⟨[si], ?_, fun d => ?_⟩
  · show (WayIdx.SubIndexWithScaledPass _ 0 1 >>= fun y => _) = _
    rw [h1]
    rfl
  · rw [← h2]
    simp

/-- C103: the passes over a way index which the indexer made cover it, whatever the order of the ways, as long as there
are not more of them than bytes in a location block. -/
theorem C103_passes_cover (shift : Int64) (ws : List Way) (h : WaysAnyOrder shift ws) (hne : ws ≠ []) (n : Nat) (hn : 1 ≤ n)
    (hn2 : n ≤ 2 ^ shift.toInt.toNat) : WayPassesCover ⟨entries shift 0 ws, locData shift ws, shift⟩ n := by
  have hp : 2 ^ shift.toInt.toNat < 2 ^ 63 := Nat.pow_lt_pow_right (by omega) (by have := h.range; omega)
  have hsp := h.space
  have hs2 := entries_offsets shift ws h.ids 0 (by omega)
  have hu := entries_usable shift ws h
  have hel : entries shift 0 ws ≠ [] := by
    intro h0
    have := entries_length shift ws 0
    rw [h0] at this
    exact hne (List.length_eq_zero_iff.1 this.symm)
  refine (passes_at ⟨entries shift 0 ws, locData shift ws, shift⟩ hu.range hu.memory hu.starts
    (hs2.imp fun hab => Nat.mul_le_mul_right _ (Nat.le_of_lt hab)) ?_ n hn (by omega)).2
    ⟨(entries shift 0 ws).getLast hel, List.getLast?_eq_some_getLast hel, ?_⟩
  · intro d hd
    obtain ⟨w, ws', rfl⟩ := List.exists_cons_of_ne_nil hne
    simp only [entries, List.head?_cons, Option.some.injEq] at hd
    subst hd
    unfold wStart
    rw [entry_off _ _ (h.ids w (by simp)).2 (by omega), Nat.zero_mul]
  · obtain ⟨w, _, _, _, q3, _⟩ := (entries_mem shift ws h.ids 0 [] (by simp) (by omega)).1 _
      (List.getLast_mem hel)
    show wStart shift _ < (locData shift ws).length / n * n
    unfold wStart
    rw [locData_length]
    have hpos := wayBlocks_pos shift w
    have := Nat.mul_le_mul_right (2 ^ shift.toInt.toNat)
      (show wOffset ((entries shift 0 ws).getLast hel) + 1 ≤ waysBlocks shift ws by omega)
    rw [Nat.add_mul, Nat.one_mul] at this
    have h1 := Nat.div_add_mod (waysBlocks shift ws * 2 ^ shift.toInt.toNat) n
    have h2 := Nat.mod_lt (waysBlocks shift ws * 2 ^ shift.toInt.toNat) (show 0 < n by omega)
    rw [Nat.mul_comm] at h1
    omega

/-- The hypotheses of `C103_history` hold for two versions of way 3, two of way 8, and one pass. -/
example : WaysAnyOrder 3 (allWays historyWays) ∧ WaysNeverDown (allWays historyWays) ∧
    WayPassesCover ⟨entries 3 0 (allWays historyWays), locData 3 (allWays historyWays), 3⟩ 1 ∧
    RelationsFit (allRelations [some eightBlock]) ∧ allRelations [some eightBlock] ≠ [] :=
  have h : WaysAnyOrder 3 (allWays historyWays) := ⟨by decide, by decide +kernel, by decide +kernel, by decide +kernel⟩
  ⟨h, by unfold WaysNeverDown; decide +kernel, one_cover 3 _ h (by decide +kernel), eight_fit, by decide +kernel⟩

/-- C103: the order of the ways matters: with the index of a source in which way 8 comes before way 3, the relation has
no locations for way 8, though the source has them. -/
theorem C103_false (wayIndex : String) (chunks : Nat → Nat) (fs0 : FS) (out : String)
    (hwi : wayIndex ≠ out ∧ wayIndex ≠ makePassFilename out 0 1) :
    ∃ batches fs1 sent fs2 file' l3 l4, workAll 3 downWays = .ok batches ∧
      (WayIndexer.Output wayIndex 3 chunks never batches).exec fs0 = .ok ((), fs1) ∧
      mapRes RelIndex.work [some eightBlock] = .ok sent ∧ (relindex out wayIndex 1 sent).exec fs1 = .ok ((), fs2) ∧
      Holds fs2 out file' ∧ IsRelIndex file' [⟨7, [(8, []), (3, l3), (4, l4)]⟩] ∧
      ∃ x ∈ allWays downWays, x.ID = 8 ∧ indexedRefs x ≠ [] := by
  obtain ⟨bs, fs1, file, h1, h2, h3, h4⟩ := output_any 3 downWays downWays_any wayIndex chunks fs0
  have hs : WayIdx.SubIndexWithScaledPass ⟨entries 3 0 (allWays downWays), locData 3 (allWays downWays), 3⟩ 0 1 =
      .ok ⟨entries 3 0 (allWays downWays), locData 3 (allWays downWays), 3, 3⟩ := by decide +kernel
  obtain ⟨sent, e1, e2, e3⟩ := any_index_loc (by decide +kernel) h4 [some eightBlock] eight_fit (by decide +kernel) 1 (by omega) (by omega)
    out wayIndex ⟨hwi.1, fun p hp => by obtain rfl : p = 0 := by omega
                                        exact hwi.2⟩ fs1 h3
  obtain ⟨fs2, e4⟩ := e2.2 (by
    intro p hp
    obtain rfl : p = 0 := by omega
    refine ⟨_, hs, fun r _ w _ _ => ?_⟩
    obtain ⟨a, ha, -⟩ := finds_any 3 _ downWays_any hs w
    exact ⟨a, ha⟩)
  obtain ⟨file', locs, g1, g2, g3⟩ := e3 fs2 e4
  have h8 : locs 8 = [] := by
    rcases g3 _ (List.mem_cons_self ..) 8 (by decide +kernel) with ⟨p, hp, ⟨si, a, q1, q2, q3, -⟩, -⟩ | ⟨q, -⟩
    · obtain rfl : p = 0 := by omega
      obtain rfl := Res.ok.inj (q1.symm.trans hs)
      have : SubIdx.FindLocations ⟨entries 3 0 (allWays downWays), locData 3 (allWays downWays), 3, 3⟩ 8 0 =
        .ok ⟨[], 0, false, [.missDeferred]⟩ := by unfold SubIdx.FindLocations; rw [if_pos (by decide)]
      rw [this] at q2
      obtain rfl := Res.ok.inj q2
      cases q3
    · exact q
  refine ⟨bs, fs1, sent, fs2, file', locs 3, locs 4, h1, h2, e1, e4, g1, ?_, by decide +kernel⟩
  have e : ((allRelations [some eightBlock]).map fun r => (⟨r.ID, (wayMembers r).map fun w => (w, locs w)⟩ : RelGeo)) =
      [⟨7, [(8, locs 8), (3, locs 3), (4, locs 4)]⟩] := rfl
  rw [e, h8] at g2
  exact g2

end

/-- A way index whose only entry points at locations without an end: way 8 cannot be looked up, and relindex fails. -/
example (out wayIndex : String) (hwi : wayIndex ≠ out ∧ wayIndex ≠ makePassFilename out 0 1) (fs fs' : FS)
    (sent : List (Option (List Int64))) (h1 : mapRes work [some eightBlock] = .ok sent)
    (hf : Holds fs wayIndex (bytesOf [1, 3, 68719476736] ++ [2])) : (relindex out wayIndex 1 sent).exec fs ≠ .ok ((), fs') := by
  intro h
  obtain ⟨sent', e1, e2, -⟩ := C103_any_index (wayFile := bytesOf [1, 3, 68719476736] ++ [2]) (ix := ⟨[68719476736], [2], 3⟩)
    (by decide +kernel) (by decide +kernel) [some eightBlock] eight_fit (by decide +kernel) 1 (by omega) (by omega)
    out wayIndex ⟨hwi.1, fun p hp => by obtain rfl : p = 0 := by omega
                                        exact hwi.2⟩ fs hf
  obtain rfl := Res.ok.inj (h1.symm.trans e1)
  obtain ⟨si, hs, hl⟩ := e2.1 ⟨fs', h⟩ 0 (by omega)
  have hs' : WayIdx.SubIndexWithScaledPass ⟨[68719476736], [2], 3⟩ 0 1 = .ok ⟨[68719476736], [2], 3, 8⟩ := by decide +kernel
  obtain rfl := Res.ok.inj (hs'.symm.trans hs)
  obtain ⟨a, ha⟩ := hl _ (List.mem_cons_self ..) 8 (by decide +kernel) (fun q hq => absurd hq (by omega))
  have : SubIdx.FindLocations ⟨[68719476736], [2], 3, 8⟩ 8 0 = .panic := by decide +kernel
  rw [this] at ha
  cases ha

end Osm.Props
