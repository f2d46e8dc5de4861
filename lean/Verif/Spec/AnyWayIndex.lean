import Verif.Spec.RelIndex

/-!
# Specification of relindex with whatever way index (C103)

The passes are tried one after the other; the first one that finds a way decides.
-/

namespace Osm.Spec
open Osm Osm.T Osm.WayIndex

/-- Pass `p` of `n` over the index finds the way, with these locations. -/
def PassFinds (ix : WayIdx) (n p : Nat) (w : Int64) (ls : List Int64) : Prop :=
  ∃ si a, ix.SubIndexWithScaledPass (Int64.ofNat p) (Int64.ofNat n) = .ok si ∧ si.FindLocations w 0 = .ok a ∧
    a.ok = true ∧ a.locs = ls

/-- Pass `p` of `n` over the index does not find the way. -/
def PassMisses (ix : WayIdx) (n p : Nat) (w : Int64) : Prop :=
  ∃ si a, ix.SubIndexWithScaledPass (Int64.ofNat p) (Int64.ofNat n) = .ok si ∧ si.FindLocations w 0 = .ok a ∧
    a.ok = false

/-- What `n` passes say about a way: what the first of them that finds it says, or no locations if none does. -/
def FirstFound (ix : WayIdx) (n : Nat) (w : Int64) (ls : List Int64) : Prop :=
  (∃ p < n, PassFinds ix n p w ls ∧ ∀ q < p, PassMisses ix n q w) ∨ (ls = [] ∧ ∀ q < n, PassMisses ix n q w)

/-- The relations of a source that can be indexed at all: as many member types as members, way ids positive, not more
members than fit in memory. -/
structure RelationsFit (rs : List Relation) : Prop where
  lengths : ∀ r ∈ rs, r.MemIDs.length = r.MemberType.length
  ids : ∀ r ∈ rs, ∀ w ∈ wayMembers r, 0 < w.toInt
  memory : ∀ r ∈ rs, r.MemIDs.length < 2 ^ 62

end Osm.Spec
