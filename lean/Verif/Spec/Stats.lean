import Verif.Model.Stats
import Verif.Spec.Rewrite

/-! # Specification vocabulary for the statistics of rewritenodes (C85) -/

namespace Osm.Spec
open Osm Osm.T Osm.Pbf Osm.NodeIndex

/-- The four numbers printed. -/
structure Printed where
  hitHint : UInt64
  hitDefault : UInt64
  missDefault : UInt64
  missDeferred : UInt64
deriving DecidableEq, Repr

/-- The counters of a moment. -/
def Counting.printed (s : Counting) : Printed := ⟨s.hitHint, s.hitDefault, s.missDefault, s.missDeferred⟩

/-- The counters with given values, and goroutines that still have increments to make. -/
def Printed.counting (p : Printed) (todo : List (List Counter)) : Counting :=
  ⟨p.hitHint, p.hitDefault, p.missDeferred, p.missDefault, todo⟩

/-- What may be printed after some passes, given the increments of each pass for each block. In every pass each block
goes to one worker (`dealt` says which blocks each worker got, in its order); the workers make the increments of their
blocks in turn, those of different workers in any interleaving; the next pass starts when all are made. -/
inductive MayPrint : List (List (List Counter)) → Printed → Prop where
  | start : MayPrint [] ⟨0, 0, 0, 0⟩
  | pass {earlier : List (List (List Counter))} {p : Printed} {blocks : List (List Counter)}
      {dealt : List (List (List Counter))} {t : Counting} :
      MayPrint earlier p → dealt.flatten.Perm blocks →
      Counting.Steps (p.counting (dealt.map List.flatten)) t → (∀ g ∈ t.todo, g = []) →
      MayPrint (earlier ++ [blocks]) t.printed

/-- The refs in the ways of a block, in order. -/
def blockRefs (b : PrimitiveBlock) : List Int64 := b.PrimitiveGroup.flatMap fun g => g.Ways.flatMap (·.Refs)

/-- The place of the range that has an id. -/
def rangeOf (es : List IndexElement) (id : Nat) : Option Nat :=
  es.findIdx? fun e => decide (rFirst e ≤ id ∧ id < rFirst e + rCount e)

/-- How the refs of a block count: a ref that is not an id does not; an id after the last of the ranges is deferred; an
id which no range has is missing; an id in the range of the last hit (at first, the first range) is a hint hit; an id in
another range a default hit. -/
def countsOf (es : List IndexElement) (top : Nat) : Nat → List Int64 → List Counter
  | _, [] => []
  | last, r :: rs =>
    if r.toInt < 0 then countsOf es top last rs
    else if top < r.toInt.toNat then .missDeferred :: countsOf es top last rs
    else match rangeOf es r.toInt.toNat with
      | none => .missDefault :: countsOf es top last rs
      | some k => (if k = last then .hitHint else .hitDefault) :: countsOf es top k rs

/-- The counts of a block. -/
def Content.counts (es : List IndexElement) (top : Nat) : Content → List Counter
  | .other _ _ => []
  | .data b => countsOf es top 0 (blockRefs b)

/-- The counts of the passes: each pass finds the refs as the passes before have left them. -/
def passesCounts (locs : List Int64) : List SubIdx → List Content → List (List (List Counter))
  | [], _ => []
  | si :: subs, cs => cs.map (·.counts si.element si.Top.toNat) ::
      passesCounts locs subs (cs.map (·.mapRefs (locate si.element locs)))

/-- How often a counter was incremented. -/
def total (c : Counter) (cs : List (List (List Counter))) : Nat := cs.flatten.flatten.count c

/-- How many refs of a file are ids (and so are looked up). -/
def lookups (cs : List Content) : Nat :=
  (cs.map fun
    | .other _ _ => 0
    | .data b => ((blockRefs b).filter fun r => decide (0 ≤ r.toInt)).length).sum

/-- How many refs the passes look up: each those which the passes before have left as ids. -/
def passesLookups (locs : List Int64) : List SubIdx → List Content → Nat
  | [], _ => 0
  | si :: subs, cs => lookups cs + passesLookups locs subs (cs.map (·.mapRefs (locate si.element locs)))

end Osm.Spec
