import Verif.Model.Cost
import Verif.Props.NodeIndexer
import Verif.Props.WayIndex

/-!
# C89: a lookup reads logarithmically many entries
-/

namespace Osm.Props
open Osm Osm.Cost

/-! ## Nodes -/

/-- The search is the one of Model/NodeIndex. -/
theorem nodeSearch_eq (es : List NodeIndex.IndexElement) (id : UInt64) : ∀ fuel lo hi,
    (Cost.Node.search es id fuel lo hi).1 = NodeIndex.search es id fuel lo hi := by
  intro fuel
  induction fuel with
  | zero => intro lo hi; rfl
  | succ fuel ih =>
    intro lo hi
    unfold Cost.Node.search NodeIndex.search
    by_cases h : lo < hi
    · rw [if_pos h, if_pos h]
      dsimp only
      cases he : es[(lo + hi) / 2]? with
      | none => rfl
      | some e =>
        simp only [Res.ofOption, Res.ok_bind]
        split
        · exact ih _ _
        · split
          · rfl
          · exact ih _ _
    · rw [if_neg h, if_neg h]

/-- An interval shorter than `2 ^ k` is searched in `k` rounds. -/
theorem nodeSearch_len (es : List NodeIndex.IndexElement) (id : UInt64) : ∀ fuel lo hi k, hi - lo < 2 ^ k →
    (Cost.Node.search es id fuel lo hi).2.length ≤ k := by
  intro fuel
  induction fuel with
  | zero => intro lo hi k _; exact Nat.zero_le _
  | succ fuel ih =>
    intro lo hi k hk
    unfold Cost.Node.search
    by_cases h : lo < hi
    · rw [if_pos h]
      cases k with
      | zero => simp at hk; omega
      | succ k =>
        have h2 : hi - lo < 2 * 2 ^ k := by rw [Nat.pow_succ] at hk; omega
        dsimp only
        cases he : es[(lo + hi) / 2]? with
        | none => simp
        | some e =>
          dsimp only
          split
          · have := ih lo ((lo + hi) / 2) k (by omega)
            simp only [List.length_cons]; omega
          · split
            · simp
            · have := ih ((lo + hi) / 2 + 1) hi k (by omega)
              simp only [List.length_cons]; omega
    · rw [if_neg h]; simp

/-- Nothing else matters. -/
theorem nodeSearch_only (es es' : List NodeIndex.IndexElement) (id : UInt64) : ∀ fuel lo hi,
    (∀ p ∈ (Cost.Node.search es id fuel lo hi).2, es'[p]? = es[p]?) →
    Cost.Node.search es' id fuel lo hi = Cost.Node.search es id fuel lo hi := by
  intro fuel
  induction fuel with
  | zero => intro lo hi _; rfl
  | succ fuel ih =>
    intro lo hi hp
    unfold Cost.Node.search at hp ⊢
    by_cases h : lo < hi
    · rw [if_pos h] at hp
      rw [if_pos h, if_pos h]
      dsimp only at hp ⊢
      cases he : es[(lo + hi) / 2]? with
      | none =>
        rw [he] at hp
        have h1 := hp ((lo + hi) / 2) (by simp)
        rw [h1, he]
      | some e =>
        rw [he] at hp
        dsimp only at hp
        have h1 : es'[(lo + hi) / 2]? = some e := by
          rw [← he]
          refine hp _ ?_
          split
          · simp
          · split <;> simp
        rw [h1]
        dsimp only
        by_cases c1 : e.compareId id < 0
        · rw [if_pos c1] at hp
          rw [if_pos c1, if_pos c1, ih _ _ fun p hm => hp p (List.mem_cons_of_mem _ hm)]
        · rw [if_neg c1] at hp
          rw [if_neg c1, if_neg c1]
          by_cases c2 : e.compareId id = 0
          · rw [if_pos c2, if_pos c2]
          · rw [if_neg c2] at hp
            rw [if_neg c2, if_neg c2, ih _ _ fun p hm => hp p (List.mem_cons_of_mem _ hm)]
    · rw [if_neg h, if_neg h]

theorem nodeBetween_eq (si : NodeIndex.SubIdx) (id : UInt64) (hint : Int) (lo hi : Nat) :
    (Cost.Node.findBetween si id hint lo hi).1 = si.findBetween id hint lo hi := by
  unfold Cost.Node.findBetween NodeIndex.SubIdx.findBetween
  rw [← nodeSearch_eq]
  dsimp only
  cases (Cost.Node.search si.element id (si.element.length + 1) lo hi).1 with
  | panic => rfl
  | hang => rfl
  | ok p =>
    dsimp only
    rw [Res.ok_bind]
    cases si.element[p]? <;> rfl

theorem nodeBetween_len (si : NodeIndex.SubIdx) (id : UInt64) (hint : Int) (lo hi k : Nat) (h : hi - lo < 2 ^ k) :
    (Cost.Node.findBetween si id hint lo hi).2.length ≤ k + 1 := by
  have hl := nodeSearch_len si.element id (si.element.length + 1) lo hi k h
  unfold Cost.Node.findBetween
  dsimp only
  split
  · dsimp only; omega
  · dsimp only; omega
  · split
    · dsimp only; omega
    · simp only [List.length_append, List.length_cons, List.length_nil]; omega

theorem nodeBetween_only (si si' : NodeIndex.SubIdx) (id : UInt64) (hint : Int) (lo hi : Nat)
    (hl : si'.element.length = si.element.length) (hloc : si'.locations = si.locations)
    (hp : ∀ p ∈ (Cost.Node.findBetween si id hint lo hi).2, si'.element[p]? = si.element[p]?) :
    Cost.Node.findBetween si' id hint lo hi = Cost.Node.findBetween si id hint lo hi := by
  have hs : Cost.Node.search si'.element id (si'.element.length + 1) lo hi =
      Cost.Node.search si.element id (si.element.length + 1) lo hi := by
    rw [hl]
    refine nodeSearch_only _ _ _ _ _ _ fun p hm => hp p ?_
    unfold Cost.Node.findBetween
    dsimp only
    split
    · exact hm
    · exact hm
    · split
      · exact hm
      · exact List.mem_append_left _ hm
  unfold Cost.Node.findBetween at hp ⊢
  rw [hs, hloc]
  dsimp only at hp ⊢
  cases hr : (Cost.Node.search si.element id (si.element.length + 1) lo hi).1 with
  | panic => rfl
  | hang => rfl
  | ok p =>
    rw [hr] at hp
    dsimp only at hp ⊢
    cases he : si.element[p]? with
    | none =>
      have hn : si'.element[p]? = none := by
        rw [List.getElem?_eq_none_iff] at he ⊢; omega
      rw [hn]
    | some e =>
      rw [he] at hp
      have := hp p (by simp)
      rw [this, he]

/-- C89: the positions read belong to the lookup of C28 (the same answer, panic or endless loop). -/
theorem C89_node_same (si : NodeIndex.SubIdx) (id : UInt64) (hint : Int) :
    (Cost.Node.findNode si id hint).1 = si.findNode id hint := by
  unfold Cost.Node.findNode NodeIndex.SubIdx.findNode
  split
  · rfl
  · split
    · split
      · rfl
      · cases si.element[hint.toNat]? with
        | none => rfl
        | some e =>
          simp only [Res.ofOption, Res.ok_bind]
          split
          · exact nodeBetween_eq _ _ _ _ _
          · split
            · rfl
            · exact nodeBetween_eq _ _ _ _ _
    · exact nodeBetween_eq _ _ _ _ _

/-- C89: a lookup in a part of the node index with fewer than `2 ^ k` ranges reads at most `k + 2` of them, whatever the id,
the hint and the ranges. -/
theorem C89_node_reads (si : NodeIndex.SubIdx) (id : UInt64) (hint : Int) (k : Nat) (h : si.element.length < 2 ^ k) :
    (Cost.Node.findNode si id hint).2.length ≤ k + 2 := by
  unfold Cost.Node.findNode
  split
  · exact Nat.zero_le _
  · split
    · rename_i hh
      split
      · exact Nat.zero_le _
      · have h1 : hint.toNat < 2 ^ k := by omega
        cases si.element[hint.toNat]? with
        | none => simp
        | some e =>
          dsimp only
          split
          · have := nodeBetween_len si id hint 0 hint.toNat k (by omega)
            simp only [List.length_cons]; omega
          · split
            · simp
            · have := nodeBetween_len si id hint hint.toNat si.element.length k (by omega)
              simp only [List.length_cons]; omega
    · have := nodeBetween_len si id hint 0 si.element.length k (by omega)
      omega

/-- C89: the positions recorded are all that is read: whatever stands at the other positions, the answer is the same. -/
theorem C89_node_reads_only (si si' : NodeIndex.SubIdx) (id : UInt64) (hint : Int)
    (htop : si'.Top = si.Top) (hloc : si'.locations = si.locations) (hl : si'.element.length = si.element.length)
    (hp : ∀ p ∈ (Cost.Node.findNode si id hint).2, si'.element[p]? = si.element[p]?) :
    si'.findNode id hint = si.findNode id hint := by
  rw [← C89_node_same, ← C89_node_same]
  congr 1
  unfold Cost.Node.findNode at hp ⊢
  rw [htop, hl]
  by_cases c0 : id > si.Top
  · rw [if_pos c0, if_pos c0]
  · rw [if_neg c0] at hp
    rw [if_neg c0, if_neg c0]
    by_cases c1 : hint < si.element.length
    · rw [if_pos c1] at hp
      rw [if_pos c1, if_pos c1]
      by_cases c2 : hint < 0
      · rw [if_pos c2, if_pos c2]
      · rw [if_neg c2] at hp
        rw [if_neg c2, if_neg c2]
        cases he : si.element[hint.toNat]? with
        | none =>
          rw [he] at hp
          have := hp hint.toNat (by simp)
          rw [this, he]
        | some e =>
          rw [he] at hp
          dsimp only at hp
          have h1 : si'.element[hint.toNat]? = some e := by
            rw [← he]
            refine hp _ ?_
            split
            · simp
            · split <;> simp
          rw [h1]
          dsimp only
          by_cases c3 : e.compareId id = -1
          · rw [if_pos c3] at hp
            rw [if_pos c3, if_pos c3,
              nodeBetween_only si si' id hint _ _ hl hloc fun p hm => hp p (List.mem_cons_of_mem _ hm)]
          · rw [if_neg c3] at hp
            rw [if_neg c3, if_neg c3]
            by_cases c4 : e.compareId id = 0
            · rw [if_pos c4, if_pos c4, hloc]
            · rw [if_neg c4] at hp
              rw [if_neg c4, if_neg c4,
                nodeBetween_only si si' id hint _ _ hl hloc fun p hm => hp p (List.mem_cons_of_mem _ hm)]
    · rw [if_neg c1] at hp
      rw [if_neg c1, if_neg c1, nodeBetween_only si si' id hint _ _ hl hloc hp]

/-- The example of C28: three entries are read, and the last bound is met. -/
example : (Cost.Node.findNode exampleSub 7 1).2 = [1, 0, 0] ∧ exampleSub.element.length < 2 ^ 2 ∧
    (Cost.Node.findNode exampleSub 7 1).1 = exampleSub.findNode 7 1 ∧
    (Cost.Node.findNode exampleSub 8 5).2 = [1, 0, 1] := by decide +kernel

/-! ## Ways -/

theorem waySearch_eq (es : List UInt64) (id : Int64) : ∀ fuel lo hi,
    (Cost.Way.search es id fuel lo hi).1 = WayIndex.search es id fuel lo hi := by
  intro fuel
  induction fuel with
  | zero => intro lo hi; rfl
  | succ fuel ih =>
    intro lo hi
    unfold Cost.Way.search WayIndex.search
    by_cases h : lo < hi
    · rw [if_pos h, if_pos h]
      dsimp only
      cases he : es[(lo + hi) / 2]? with
      | none => rfl
      | some e =>
        simp only [Res.ofOption, Res.ok_bind]
        split
        · exact ih _ _
        · split
          · rfl
          · exact ih _ _
    · rw [if_neg h, if_neg h]

theorem waySearch_len (es : List UInt64) (id : Int64) : ∀ fuel lo hi k, hi - lo < 2 ^ k →
    (Cost.Way.search es id fuel lo hi).2.length ≤ k := by
  intro fuel
  induction fuel with
  | zero => intro lo hi k _; exact Nat.zero_le _
  | succ fuel ih =>
    intro lo hi k hk
    unfold Cost.Way.search
    by_cases h : lo < hi
    · rw [if_pos h]
      cases k with
      | zero => simp at hk; omega
      | succ k =>
        have h2 : hi - lo < 2 * 2 ^ k := by rw [Nat.pow_succ] at hk; omega
        dsimp only
        cases he : es[(lo + hi) / 2]? with
        | none => simp
        | some e =>
          dsimp only
          split
          · have := ih lo ((lo + hi) / 2) k (by omega)
            simp only [List.length_cons]; omega
          · split
            · simp
            · have := ih ((lo + hi) / 2 + 1) hi k (by omega)
              simp only [List.length_cons]; omega
    · rw [if_neg h]; simp

theorem waySearch_only (es es' : List UInt64) (id : Int64) : ∀ fuel lo hi,
    (∀ p ∈ (Cost.Way.search es id fuel lo hi).2, es'[p]? = es[p]?) →
    Cost.Way.search es' id fuel lo hi = Cost.Way.search es id fuel lo hi := by
  intro fuel
  induction fuel with
  | zero => intro lo hi _; rfl
  | succ fuel ih =>
    intro lo hi hp
    unfold Cost.Way.search at hp ⊢
    by_cases h : lo < hi
    · rw [if_pos h] at hp
      rw [if_pos h, if_pos h]
      dsimp only at hp ⊢
      cases he : es[(lo + hi) / 2]? with
      | none =>
        rw [he] at hp
        have h1 := hp ((lo + hi) / 2) (by simp)
        rw [h1, he]
      | some e =>
        rw [he] at hp
        dsimp only at hp
        have h1 : es'[(lo + hi) / 2]? = some e := by
          rw [← he]
          refine hp _ ?_
          split
          · simp
          · split <;> simp
        rw [h1]
        dsimp only
        by_cases c1 : id < WayIndex.WayID e
        · rw [if_pos c1] at hp
          rw [if_pos c1, if_pos c1, ih _ _ fun p hm => hp p (List.mem_cons_of_mem _ hm)]
        · rw [if_neg c1] at hp
          rw [if_neg c1, if_neg c1]
          by_cases c2 : id = WayIndex.WayID e
          · rw [if_pos c2, if_pos c2]
          · rw [if_neg c2] at hp
            rw [if_neg c2, if_neg c2, ih _ _ fun p hm => hp p (List.mem_cons_of_mem _ hm)]
    · rw [if_neg h, if_neg h]

theorem wayBetween_eq (si : WayIndex.SubIdx) (id : Int64) (hint : Int) (lo hi : Nat) :
    (Cost.Way.findBetween si id hint lo hi).1 = si.findBetween id hint lo hi := by
  unfold Cost.Way.findBetween WayIndex.SubIdx.findBetween
  rw [← waySearch_eq]
  dsimp only
  cases (Cost.Way.search si.Ids id (si.Ids.length + 1) lo hi).1 with
  | panic => rfl
  | hang => rfl
  | ok p =>
    dsimp only
    rw [Res.ok_bind]
    cases si.Ids[p]? <;> rfl

theorem wayBetween_len (si : WayIndex.SubIdx) (id : Int64) (hint : Int) (lo hi k : Nat) (h : hi - lo < 2 ^ k) :
    (Cost.Way.findBetween si id hint lo hi).2.length ≤ k + 1 := by
  have hl := waySearch_len si.Ids id (si.Ids.length + 1) lo hi k h
  unfold Cost.Way.findBetween
  dsimp only
  split
  · dsimp only; omega
  · dsimp only; omega
  · split
    · dsimp only; omega
    · simp only [List.length_append, List.length_cons, List.length_nil]; omega

theorem decodeAt_only (si si' : WayIndex.SubIdx) (hloc : si'.Loc = si.Loc)
    (hsh : si'.AlignmentShift = si.AlignmentShift) (d : UInt64) : si'.decodeAt d = si.decodeAt d := by
  unfold WayIndex.SubIdx.decodeAt; rw [hloc, hsh]

theorem wayBetween_only (si si' : WayIndex.SubIdx) (id : Int64) (hint : Int) (lo hi : Nat)
    (hl : si'.Ids.length = si.Ids.length) (hloc : si'.Loc = si.Loc) (hsh : si'.AlignmentShift = si.AlignmentShift)
    (hp : ∀ p ∈ (Cost.Way.findBetween si id hint lo hi).2, si'.Ids[p]? = si.Ids[p]?) :
    Cost.Way.findBetween si' id hint lo hi = Cost.Way.findBetween si id hint lo hi := by
  have hs : Cost.Way.search si'.Ids id (si'.Ids.length + 1) lo hi =
      Cost.Way.search si.Ids id (si.Ids.length + 1) lo hi := by
    rw [hl]
    refine waySearch_only _ _ _ _ _ _ fun p hm => hp p ?_
    unfold Cost.Way.findBetween
    dsimp only
    split
    · exact hm
    · exact hm
    · split
      · exact hm
      · exact List.mem_append_left _ hm
  unfold Cost.Way.findBetween at hp ⊢
  rw [hs]
  simp only [decodeAt_only si si' hloc hsh]
  dsimp only at hp ⊢
  cases hr : (Cost.Way.search si.Ids id (si.Ids.length + 1) lo hi).1 with
  | panic => rfl
  | hang => rfl
  | ok p =>
    rw [hr] at hp
    dsimp only at hp ⊢
    cases he : si.Ids[p]? with
    | none =>
      have hn : si'.Ids[p]? = none := by
        rw [List.getElem?_eq_none_iff] at he ⊢; omega
      rw [hn]
    | some e =>
      rw [he] at hp
      have := hp p (by simp)
      rw [this, he]

/-- C89: the positions read belong to the lookup of C38. -/
theorem C89_way_same (si : WayIndex.SubIdx) (id : Int64) (hint : Int) :
    (Cost.Way.FindLocations si id hint).1 = si.FindLocations id hint := by
  unfold Cost.Way.FindLocations WayIndex.SubIdx.FindLocations
  split
  · rfl
  · split
    · split
      · rfl
      · cases si.Ids[hint.toNat]? with
        | none => rfl
        | some e =>
          simp only [Res.ofOption, Res.ok_bind]
          split
          · exact wayBetween_eq _ _ _ _ _
          · split
            · rfl
            · exact wayBetween_eq _ _ _ _ _
    · exact wayBetween_eq _ _ _ _ _

/-- C89: a lookup in a part of the way index with fewer than `2 ^ k` ways reads at most `k + 2` of its entries, whatever the
id, the hint and the entries. -/
theorem C89_way_reads (si : WayIndex.SubIdx) (id : Int64) (hint : Int) (k : Nat) (h : si.Ids.length < 2 ^ k) :
    (Cost.Way.FindLocations si id hint).2.length ≤ k + 2 := by
  unfold Cost.Way.FindLocations
  split
  · exact Nat.zero_le _
  · split
    · rename_i hh
      split
      · exact Nat.zero_le _
      · have h1 : hint.toNat < 2 ^ k := by omega
        cases si.Ids[hint.toNat]? with
        | none => simp
        | some e =>
          dsimp only
          split
          · have := wayBetween_len si id hint 0 hint.toNat k (by omega)
            simp only [List.length_cons]; omega
          · split
            · simp
            · have := wayBetween_len si id hint hint.toNat si.Ids.length k (by omega)
              simp only [List.length_cons]; omega
    · have := wayBetween_len si id hint 0 si.Ids.length k (by omega)
      omega

/-- C89: the positions recorded are all that is read. -/
theorem C89_way_reads_only (si si' : WayIndex.SubIdx) (id : Int64) (hint : Int)
    (htop : si'.Top = si.Top) (hloc : si'.Loc = si.Loc) (hsh : si'.AlignmentShift = si.AlignmentShift)
    (hl : si'.Ids.length = si.Ids.length)
    (hp : ∀ p ∈ (Cost.Way.FindLocations si id hint).2, si'.Ids[p]? = si.Ids[p]?) :
    si'.FindLocations id hint = si.FindLocations id hint := by
  rw [← C89_way_same, ← C89_way_same]
  congr 1
  unfold Cost.Way.FindLocations at hp ⊢
  rw [htop, hl]
  by_cases c0 : id > si.Top
  · rw [if_pos c0, if_pos c0]
  · rw [if_neg c0] at hp
    rw [if_neg c0, if_neg c0]
    by_cases c1 : hint < si.Ids.length
    · rw [if_pos c1] at hp
      rw [if_pos c1, if_pos c1]
      by_cases c2 : hint < 0
      · rw [if_pos c2, if_pos c2]
      · rw [if_neg c2] at hp
        rw [if_neg c2, if_neg c2]
        cases he : si.Ids[hint.toNat]? with
        | none =>
          rw [he] at hp
          have := hp hint.toNat (by simp)
          rw [this, he]
        | some e =>
          rw [he] at hp
          dsimp only at hp
          have h1 : si'.Ids[hint.toNat]? = some e := by
            rw [← he]
            refine hp _ ?_
            split
            · simp
            · split <;> simp
          rw [h1]
          dsimp only
          by_cases c3 : id < WayIndex.WayID e
          · rw [if_pos c3] at hp
            rw [if_pos c3, if_pos c3,
              wayBetween_only si si' id hint _ _ hl hloc hsh fun p hm => hp p (List.mem_cons_of_mem _ hm)]
          · rw [if_neg c3] at hp
            rw [if_neg c3, if_neg c3]
            by_cases c4 : id = WayIndex.WayID e
            · rw [if_pos c4, if_pos c4, decodeAt_only si si' hloc hsh]
            · rw [if_neg c4] at hp
              rw [if_neg c4, if_neg c4,
                wayBetween_only si si' id hint _ _ hl hloc hsh fun p hm => hp p (List.mem_cons_of_mem _ hm)]
    · rw [if_neg c1] at hp
      rw [if_neg c1, if_neg c1, wayBetween_only si si' id hint _ _ hl hloc hsh hp]

/-- The example of C38. -/
example : (Cost.Way.FindLocations exampleWays 9 0).2 = [0, 1, 1] ∧ exampleWays.Ids.length < 2 ^ 2 ∧
    (Cost.Way.FindLocations exampleWays 9 0).1 = exampleWays.FindLocations 9 0 ∧
    (Cost.Way.FindLocations exampleWays 5 0).2 = [0] := by decide +kernel

end Osm.Props
