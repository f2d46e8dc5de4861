import Verif.Spec.NodeIndexer
import Verif.Spec.WayIndexer
import Verif.Spec.Rewrite

/-!
# Specification: sources whose entities are in any order, and may repeat

History files hold every version of a node; files put together from several extracts are not sorted.
-/

namespace Osm.Spec
open Osm Osm.T

/-- As `Indexable`, with the ids in any order, and repeated at will. -/
structure AnyOrder (blocks : List (Option PrimitiveBlock)) : Prop where
  complete : ∀ pb, some pb ∈ blocks → DenseComplete pb
  ids : ∀ x ∈ allNodes blocks, 2 ≤ x.2.id.toInt
  blockSize : ∀ pb, some pb ∈ blocks → (sourceNodes pb).length < 2 ^ 23
  total : (allNodes blocks).length ≤ 2 ^ 39

/-- The ids never go down: sorted, but an id may occur more than once (several versions of a node). -/
def NeverDown (blocks : List (Option PrimitiveBlock)) : Prop :=
  (allNodes blocks).Pairwise fun a b => a.2.id.toInt ≤ b.2.id.toInt

/-- A node of the source has this id and this encoded location. -/
def NodeAt (blocks : List (Option PrimitiveBlock)) (id : Nat) (l : Int64) : Prop :=
  ∃ x ∈ allNodes blocks, x.2.id.toInt = id ∧ NodeIndexer.nodeLocation x.1 x.2.lat x.2.lon = .ok l

/-- As `WaysIndexable`, with the ids in any order, and repeated at will. -/
structure WaysAnyOrder (shift : Int64) (ws : List Way) : Prop where
  range : 0 ≤ shift.toInt ∧ shift.toInt < 62
  ids : ∀ w ∈ ws, 0 ≤ w.ID.toInt ∧ w.ID.toInt < 2 ^ 31
  space : waysBlocks shift ws ≤ 2 ^ 33
  memory : waysBlocks shift ws * 2 ^ shift.toInt.toNat < 2 ^ 62

/-- The way ids never go down. -/
def WaysNeverDown (ws : List Way) : Prop := ws.Pairwise fun a b => a.ID.toInt ≤ b.ID.toInt

/-! ## Files that differ in refs only -/

/-- Two ways that differ only in their refs, each of which is related to the one in its place. -/
def WayButRefs (P : Int64 → Int64 → Prop) (w w' : Way) : Prop := ∃ rs, Matches P w.Refs rs ∧ w' = { w with Refs := rs }

/-- The same for groups. -/
def GroupButRefs (P : Int64 → Int64 → Prop) (g g' : T.PrimitiveGroup) : Prop :=
  ∃ ws, Matches (WayButRefs P) g.Ways ws ∧ g' = { g with Ways := ws }

/-- The same for blocks. -/
def BlockButRefs (P : Int64 → Int64 → Prop) (b b' : PrimitiveBlock) : Prop :=
  ∃ gs, Matches (GroupButRefs P) b.PrimitiveGroup gs ∧ b' = { b with PrimitiveGroup := gs }

/-- The same for whatever is in a block of a file. -/
inductive ButRefs (P : Int64 → Int64 → Prop) : Content → Content → Prop where
  | other (kind : GoStr) (bytes : List UInt8) : ButRefs P (.other kind bytes) (.other kind bytes)
  | data (b b' : PrimitiveBlock) : BlockButRefs P b b' → ButRefs P (.data b) (.data b')

/-- What may become of a ref: it stays, or is replaced by the location of a node of the source with that id. -/
def MaybeLocated (blocks : List (Option PrimitiveBlock)) (r r' : Int64) : Prop :=
  r' = r ∨ (0 ≤ r.toInt ∧ NodeAt blocks r.toInt.toNat r')

/-- What becomes of a ref when everything is found: if the source has nodes with that id, it is replaced by the
location of one of them; else it stays. -/
def Located (blocks : List (Option PrimitiveBlock)) (r r' : Int64) : Prop :=
  (0 ≤ r.toInt ∧ NodeAt blocks r.toInt.toNat r') ∨ (r' = r ∧ ∀ x ∈ allNodes blocks, x.2.id ≠ r)

end Osm.Spec
