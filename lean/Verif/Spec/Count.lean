import Verif.Model.Count
import Verif.Spec.Rewrite

/-! # Specification vocabulary for counting (C60, C61) -/

namespace Osm.Spec
open Osm Osm.T Osm.Pbf Osm.Count

/-- `x` is the largest of `xs`. -/
def IsMax (x : UInt64) (xs : List UInt64) : Prop := x ∈ xs ∧ ∀ y ∈ xs, y ≤ x

/-- What updates of the maximum of `v` are among some updates. -/
def maxArgs {V : Type} [DecidableEq V] (v : V) (ops : List (Op V)) : List UInt64 :=
  ops.filterMap fun
    | .setMax w x => if w = v then some x else none
    | .add _ _ => none

/-- What is added to `v`. -/
def addArgs {V : Type} [DecidableEq V] (v : V) (ops : List (Op V)) : List UInt64 :=
  ops.filterMap fun
    | .add w x => if w = v then some x else none
    | .setMax _ _ => none

/-- The groups in a file. -/
def fileGroups (cs : List Content) : List T.PrimitiveGroup :=
  cs.flatMap fun
    | .other _ _ => []
    | .data b => b.PrimitiveGroup

/-- The ids of the nodes of a file. -/
def nodeIds (cs : List Content) : List Int64 :=
  (fileGroups cs).flatMap fun g => match g.Dense with
    | none => []
    | some dn => dn.Id

/-- The ways of a file. -/
def fileWays (cs : List Content) : List Way := (fileGroups cs).flatMap (·.Ways)

/-- The relations of a file. -/
def fileRelations (cs : List Content) : List Relation := (fileGroups cs).flatMap (·.Relations)

/-- The largest of some ids that are not negative, 0 if there are none. -/
def maxId (ids : List Int64) : Nat := (ids.map (·.toInt.toNat)).foldl Nat.max 0

/-- What entitycount is to print for a file. -/
structure Totals where
  blocks : Nat
  nodes : Nat
  ways : Nat
  relations : Nat
  refs : Nat
  maxNode : Nat
  maxWay : Nat
  maxRelation : Nat
  maxRefs : Nat

/-- What there is in a file. -/
def totals (cs : List Content) : Totals where
  blocks := cs.length
  nodes := (nodeIds cs).length
  ways := (fileWays cs).length
  relations := (fileRelations cs).length
  refs := ((fileWays cs).map (·.Refs.length)).sum
  maxNode := maxId (nodeIds cs)
  maxWay := maxId ((fileWays cs).map (·.ID))
  maxRelation := maxId ((fileRelations cs).map (·.ID))
  maxRefs := ((fileWays cs).map (·.Refs.length)).foldl Nat.max 0

/-- All ids in the file are non-negative. -/
def NonNegativeIds (cs : List Content) : Prop :=
  (∀ id ∈ nodeIds cs, 0 ≤ id.toInt) ∧ (∀ w ∈ fileWays cs, 0 ≤ w.ID.toInt) ∧ ∀ r ∈ fileRelations cs, 0 ≤ r.ID.toInt

/-- The numbers fit in 64 bits. -/
def Fit64 (t : Totals) : Prop :=
  t.blocks < 2 ^ 64 ∧ t.nodes < 2 ^ 64 ∧ t.ways < 2 ^ 64 ∧ t.relations < 2 ^ 64 ∧ t.refs < 2 ^ 64

end Osm.Spec
