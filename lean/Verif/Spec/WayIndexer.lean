import Verif.Spec.WayIndex
import Verif.Spec.Pb
import Verif.Model.WayIndexer

/-!
# Specifications for the way indexer
-/

namespace Osm.Spec
open Osm Osm.T

/-- Consecutive repeats reduced to one. -/
def squeeze {α : Type} [DecidableEq α] : List α → List α
  | [] => []
  | [x] => [x]
  | x :: y :: ys => if x = y then squeeze (y :: ys) else x :: squeeze (y :: ys)

/-- The references of a way without leading zeros and consecutive repeats. -/
def indexedRefs (w : Way) : List Int64 := squeeze (w.Refs.dropWhile (· == 0))

/-- The ways of a block, in order. -/
def sourceWays (pb : PrimitiveBlock) : List Way := pb.PrimitiveGroup.flatMap (·.Ways)

/-- The ways of all blocks. -/
def allWays (blocks : List (Option PrimitiveBlock)) : List Way :=
  blocks.flatMap fun b =>
    match b with
    | none => []
    | some pb => sourceWays pb

/-- Number of location blocks of `2^shift` bytes a way needs: its references as zigzag deltas in base 128, a
zero byte, and at least one byte of padding. -/
def wayBlocks (shift : Int64) (w : Way) : Nat :=
  (Pb.EncodeS64PackedDeltaZero [] (indexedRefs w)).length / 2 ^ shift.toInt.toNat + 1

/-- Number of location blocks of several ways. -/
def waysBlocks (shift : Int64) (ws : List Way) : Nat := (ws.map (wayBlocks shift)).sum

/-- Ways the indexer handles: ids ascending, not negative and below 2^31 ("only allows for a maximum Way ID of
approximately 2 billion"), at most 2^33 location blocks, in a file that fits in memory. -/
structure WaysIndexable (shift : Int64) (ws : List Way) : Prop where
  range : 0 ≤ shift.toInt ∧ shift.toInt < 62
  ids : ∀ w ∈ ws, 0 ≤ w.ID.toInt ∧ w.ID.toInt < 2 ^ 31
  ascending : ws.Pairwise fun a b => a.ID.toInt < b.ID.toInt
  space : waysBlocks shift ws ≤ 2 ^ 33
  memory : waysBlocks shift ws * 2 ^ shift.toInt.toNat < 2 ^ 62

end Osm.Spec
