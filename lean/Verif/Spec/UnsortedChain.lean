import Verif.Spec.Unsorted
import Verif.Spec.AnyWayIndex
import Verif.Spec.Programs

/-!
# Specification of the commands one after the other on a source in any order (C104)
-/

namespace Osm.Spec
open Osm Osm.T

/-- Ways that the indexer handles whatever becomes of their refs, as a ref takes ten bytes at most: ids not negative and
below 2^31, not too many refs. -/
structure WaysRoom (shift : Int64) (ws : List Way) : Prop where
  range : 0 ≤ shift.toInt ∧ shift.toInt < 62
  ids : ∀ w ∈ ws, 0 ≤ w.ID.toInt ∧ w.ID.toInt < 2 ^ 31
  space : (ws.map fun w => (10 * w.Refs.length + 1) / 2 ^ shift.toInt.toNat + 1).sum ≤ 2 ^ 33
  memory : (ws.map fun w => (10 * w.Refs.length + 1) / 2 ^ shift.toInt.toNat + 1).sum * 2 ^ shift.toInt.toNat < 2 ^ 62

/-- The locations are the path of a way of the source with that id, each of whose refs was replaced as `P` says: without
leading zeros and consecutive repeats. -/
def PathFrom (P : Int64 → Int64 → Prop) (blocks : List (Option PrimitiveBlock)) (id : Int64) (ls : List Int64) : Prop :=
  ∃ w ∈ allWays blocks, w.ID = id ∧ ∃ refs, Matches P w.Refs refs ∧ ls = squeeze (refs.dropWhile (· == 0))

end Osm.Spec
