import Verif.Model.Morton
import Verif.Spec.NodeIndexer
import Verif.Spec.Text

/-!
# Specification: what a dump of a node index should say (C95)
-/

namespace Osm.Spec.Text
open Osm Osm.Spec

/-- The slots of an index, range by range, with what they hold. -/
def slots (ix : NodeIndex.NodeIdx) : List (NodeIndex.IndexElement × Nat × Int64) :=
  ix.elements.flatMap fun e => (List.range (rCount e)).map fun i => (e, i, ix.locations[rOffset e + i]?.getD 0)

/-- What the dump should say about the `i`-th slot of a range, that holds `l`: the location, the coordinates in millionths of
a degree, rounded from the stored ones in units of 10^-7 degrees, the first id of the range, the number of the slot and the
id, all exact. -/
def SlotSays (print search : Bool) : NodeIndex.IndexElement × Nat × Int64 → List NodeSays → Prop
  | (e, i, l), ls => ∃ lng lat : Int,
    ((10 * lng - (Morton.DecodeLocation l.toUInt64).1.toInt).natAbs ≤ 5 ∧
      (10 * lat - (Morton.DecodeLocation l.toUInt64).2.toInt).natAbs ≤ 5) ∧
    ls = (if print then [if l = 0 then .empty else .stored l.toUInt64.toNat lng lat (rFirst e) i (rFirst e + i)] else []) ++
      (if search then [if l = 0 then .notFound else .found l.toUInt64.toNat lng lat] else [])

/-- The position of the node is on Earth, and the numbers it is computed with fit in 64 bits. -/
def OnEarth (pb : T.PrimitiveBlock) (n : SrcNode) : Prop :=
  -(2 ^ 63) ≤ pb.LatOffset.toInt + pb.Granularity.toInt * n.lat.toInt ∧
  pb.LatOffset.toInt + pb.Granularity.toInt * n.lat.toInt < 2 ^ 63 ∧
  -(2 ^ 63) ≤ pb.LonOffset.toInt + pb.Granularity.toInt * n.lon.toInt ∧
  pb.LonOffset.toInt + pb.Granularity.toInt * n.lon.toInt < 2 ^ 63 ∧
  -900000000 ≤ position pb.LatOffset pb.Granularity n.lat ∧ position pb.LatOffset pb.Granularity n.lat ≤ 900000000 ∧
  -1800000000 ≤ position pb.LonOffset pb.Granularity n.lon ∧ position pb.LonOffset pb.Granularity n.lon ≤ 1800000000

end Osm.Spec.Text
