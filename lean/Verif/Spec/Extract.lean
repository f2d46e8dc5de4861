import Verif.Spec.Hl

/-! # What the entities in a block are (C65, C70) -/

namespace Osm.Spec
open Osm Osm.T

/-- The string with a number in a block. -/
def strAt (b : PrimitiveBlock) (id : UInt32) : Option GoStr := b.StringTable.bind fun st => st.S[id.toNat]?

/-- The tags that the numbers of keys and values stand for; if a key is repeated, the last one counts. -/
def TagsAre (b : PrimitiveBlock) (ks vs : List UInt32) (m : TagMap) : Prop :=
  ∃ ps : List (GoStr × GoStr), ks.map (strAt b) = ps.map (fun p => some p.1) ∧
    vs.map (strAt b) = ps.map (fun p => some p.2) ∧ IsMap m ∧ ∀ k, m.lookup k = ps.reverse.lookup k

/-- A node of a dense section: its numbers there, and the node. Coordinates are offset + granularity * value, in 64 bits. -/
structure NodeIs (b : PrimitiveBlock) (id lat lon : Int64) (kvs : List (Int32 × Int32)) (n : HLNode) : Prop where
  id : n.Id = id.toUInt64
  tags : TagsAre b (kvs.map (·.1.toUInt32)) (kvs.map (·.2.toUInt32)) n.Tags
  lat : n.Lat.toInt = (b.LatOffset.toInt + b.Granularity.toInt * lat.toInt).bmod (2 ^ 64)
  lon : n.Lon.toInt = (b.LonOffset.toInt + b.Granularity.toInt * lon.toInt).bmod (2 ^ 64)

/-- The keys and values of the nodes of a dense section, one list for each node. -/
def KeyValsAre (dn : DenseNodes) (gs : List (List (Int32 × Int32))) : Prop :=
  gs.length = dn.Id.length ∧
  ((dn.KeyVals = [] ∧ ∀ g ∈ gs, g = []) ∨ (dn.KeyVals = kvStream gs ∧ ∀ g ∈ gs, ∀ p ∈ g, p.1 ≠ 0))

/-- The nodes of a dense section. -/
def DenseAre (b : PrimitiveBlock) (dn : DenseNodes) (ns : List HLNode) : Prop :=
  ns.length = dn.Id.length ∧ ∃ gs, KeyValsAre dn gs ∧
    ∀ (i : Nat) (n : HLNode), ns[i]? = some n → ∃ id lat lon g, dn.Id[i]? = some id ∧ dn.Lat[i]? = some lat ∧
      dn.Lon[i]? = some lon ∧ gs[i]? = some g ∧ NodeIs b id lat lon g n

/-- The nodes of a group. -/
def GroupNodesAre (b : PrimitiveBlock) (g : T.PrimitiveGroup) (ns : List HLNode) : Prop :=
  match g.Dense with
  | none => ns = []
  | some dn => DenseAre b dn ns

/-- The nodes of a block, in order. -/
def NodesAre (b : PrimitiveBlock) (ns : List HLNode) : Prop :=
  ∃ nss, Each (GroupNodesAre b) b.PrimitiveGroup nss ∧ ns = nss.flatten

/-- A way of a block. -/
structure WayIs (b : PrimitiveBlock) (w : Way) (h : HLWay) : Prop where
  id : h.Id = w.ID
  tags : TagsAre b w.Keys w.Vals h.Tags
  nodes : h.Nodes = w.Refs.map (·.toUInt64)

/-- The ways of a block, in order. -/
def WaysAre (b : PrimitiveBlock) (ws : List HLWay) : Prop := Each (WayIs b) (b.PrimitiveGroup.flatMap (·.Ways)) ws

/-- A relation of a block. -/
structure RelationIs (b : PrimitiveBlock) (r : Relation) (h : HLRelation) : Prop where
  id : h.Id = r.ID
  tags : TagsAre b r.Keys r.Vals h.Tags
  roles : r.RolesSID.map (fun s => strAt b s.toUInt32) = h.Roles.map some
  members : h.Members = r.MemIDs
  types : h.MemberType = r.MemberType.map (·.toInt64)

/-- The relations of a block, in order. -/
def RelationsAre (b : PrimitiveBlock) (rs : List HLRelation) : Prop :=
  Each (RelationIs b) (b.PrimitiveGroup.flatMap (·.Relations)) rs

/-- As many keys as values, all of them strings of the block. -/
def KeysOk (b : PrimitiveBlock) (ks vs : List UInt32) : Prop :=
  ks.length = vs.length ∧ ∀ k ∈ ks ++ vs, (strAt b k).isSome

/-- A block that makes sense: as many latitudes, longitudes and lists of tags as nodes, as many values as keys, and all
strings exist. -/
structure Sound (b : PrimitiveBlock) : Prop where
  dense : ∀ g ∈ b.PrimitiveGroup, ∀ dn, g.Dense = some dn → dn.Lat.length = dn.Id.length ∧ dn.Lon.length = dn.Id.length ∧
    ∃ gs, KeyValsAre dn gs ∧ ∀ g ∈ gs, KeysOk b (g.map (·.1.toUInt32)) (g.map (·.2.toUInt32))
  ways : ∀ g ∈ b.PrimitiveGroup, ∀ w ∈ g.Ways, KeysOk b w.Keys w.Vals
  relations : ∀ g ∈ b.PrimitiveGroup, ∀ r ∈ g.Relations, KeysOk b r.Keys r.Vals ∧
    ∀ s ∈ r.RolesSID, (strAt b s.toUInt32).isSome

end Osm.Spec
