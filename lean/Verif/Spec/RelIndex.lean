import Verif.Spec.WayIndex
import Verif.Spec.NodeIndexer
import Verif.Model.RelIndex

/-!
# Specifications for the relation index
-/

namespace Osm.Spec
open Osm Osm.T Osm.WayIndex

/-- The ids of the members of a relation which are ways (member type 1), in member order. -/
def wayMembers (r : Relation) : List Int64 :=
  ((r.MemIDs.zip r.MemberType).filter fun m => m.2 == 1).map (·.1)

/-- The relations of all blocks, in order (`none`: a block which is not "OSMData"). -/
def allRelations (blocks : List (Option PrimitiveBlock)) : List Relation :=
  blocks.flatMap fun b =>
    match b with
    | none => []
    | some pb => pb.PrimitiveGroup.flatMap (·.Relations)

/-- What the first pass writes for a relation: its id, the number of its ways and their negated ids. -/
def unresolvedEntry (r : Relation) : List Int64 :=
  r.ID :: Int64.ofNat (wayMembers r).length :: (wayMembers r).map fun w => -w

/-- What the index holds for a relation: its id, the number of its ways and for each the id, the number of
locations, and the locations. -/
def relationEntry (locs : Int64 → List Int64) (r : Relation) : List Int64 :=
  r.ID :: Int64.ofNat (wayMembers r).length ::
    (wayMembers r).flatMap fun w => w :: Int64.ofNat (locs w).length :: locs w

/-- `locs` are the locations in the way index, none for a way which is not in it. -/
structure Answers (ix : WayIdx) (locs : Int64 → List Int64) : Prop where
  present : ∀ d ∈ ix.Ids, Stored ix.Loc ix.AlignmentShift d = .ok (locs (Int64.ofNat (wId d)))
  absent : ∀ id : Int64, (∀ d ∈ ix.Ids, (wId d : Int) ≠ id.toInt) → locs id = []

/-- One of `n` passes over the way index contains a way. -/
def FoundInPass (ix : WayIdx) (n : Nat) (id : Int64) : Prop :=
  ∃ p < n, ∃ si, ix.SubIndexWithScaledPass (Int64.ofNat p) (Int64.ofNat n) = .ok si ∧
    ∃ d ∈ si.Ids, (wId d : Int) = id.toInt

/-- Relations as in a source file: as many member types as members, way ids positive; everything fits in
memory. -/
structure RelationsOk (locs : Int64 → List Int64) (rs : List Relation) : Prop where
  lengths : ∀ r ∈ rs, r.MemIDs.length = r.MemberType.length
  ids : ∀ r ∈ rs, ∀ w ∈ wayMembers r, 0 < w.toInt
  memory : ∀ r ∈ rs, r.MemIDs.length < 2 ^ 62
  sizes : ∀ w, (locs w).length < 2 ^ 62

end Osm.Spec
