import Verif.Model.Hl

/-!
# Specifications for block assembly
-/

namespace Osm.Spec
open Osm Osm.T

/-- Element by element relation of two lists of the same length. -/
def Each {α β : Type} (R : α → β → Prop) : List α → List β → Prop
  | [], [] => True
  | a :: as, b :: bs => R a b ∧ Each R as bs
  | _, _ => False

/-- The strings of a tag map. -/
def tagStrings (m : TagMap) : List GoStr := m.flatMap fun e => [e.1, e.2]

/-- All the strings a block has to mention: tags of nodes, ways and relations, and roles. -/
def blockStrings (ns : List HLNode) (ws : List HLWay) (rs : List HLRelation) : List GoStr :=
  ns.flatMap (fun n => tagStrings n.Tags) ++
  (ws.flatMap (fun w => tagStrings w.Tags) ++
   rs.flatMap (fun r => tagStrings r.Tags ++ r.Roles))

/-- A Go map has each key once. -/
def IsMap (m : TagMap) : Prop := (m.map (·.1)).Nodup

/-- Every tag map in the input is a map. -/
def TagsAreMaps (ns : List HLNode) (ws : List HLWay) (rs : List HLRelation) : Prop :=
  (∀ n ∈ ns, IsMap n.Tags) ∧ (∀ w ∈ ws, IsMap w.Tags) ∧ (∀ r ∈ rs, IsMap r.Tags)

/-- The same map: the same entries, in whatever order. -/
def SameTags (a b : TagMap) : Prop := a.Perm b

/-- The same node up to truncation of the coordinates toward zero to multiples of 100. -/
def NodeSurvives (n n' : HLNode) : Prop :=
  n'.Id = n.Id ∧ SameTags n'.Tags n.Tags ∧
  n'.Lat.toInt = n.Lat.toInt.tdiv 100 * 100 ∧ n'.Lon.toInt = n.Lon.toInt.tdiv 100 * 100

/-- The same way. -/
def WaySurvives (w w' : HLWay) : Prop :=
  w'.Id = w.Id ∧ SameTags w'.Tags w.Tags ∧ w'.Nodes = w.Nodes

/-- The same relation. -/
def RelationSurvives (r r' : HLRelation) : Prop :=
  r'.Id = r.Id ∧ SameTags r'.Tags r.Tags ∧ r'.Roles = r.Roles ∧ r'.Members = r.Members ∧
  r'.MemberType = r.MemberType

/-- The same node with its tag map iterated in another order. -/
def NodeReordered (n n' : HLNode) : Prop :=
  SameTags n'.Tags n.Tags ∧ n'.Id = n.Id ∧ n'.Lat = n.Lat ∧ n'.Lon = n.Lon
/-- The same way with its tag map iterated in another order. -/
def WayReordered (w w' : HLWay) : Prop :=
  SameTags w'.Tags w.Tags ∧ w'.Id = w.Id ∧ w'.Nodes = w.Nodes
/-- The same relation with its tag map iterated in another order. -/
def RelationReordered (r r' : HLRelation) : Prop :=
  SameTags r'.Tags r.Tags ∧ r'.Id = r.Id ∧ r'.Roles = r.Roles ∧ r'.Members = r.Members ∧
  r'.MemberType = r.MemberType

/-- The key/value stream of dense nodes: per node its key, value, key, value, …, then 0. -/
def kvStream (gs : List (List (Int32 × Int32))) : List Int32 :=
  gs.flatMap fun g => (g.flatMap fun p => [p.1, p.2]) ++ [0]

/-- `a` comes before `b` in a table for the additions `xs`: more additions, or as many and smaller bytes. -/
def Before (xs : List GoStr) (a b : GoStr) : Prop :=
  xs.count b < xs.count a ∨ (xs.count a = xs.count b ∧ a < b)

/-- No tag of these nodes has as its key the string at index 0 of the block's table. -/
def NoKeyAtZero (ns : List HLNode) (b : PrimitiveBlock) : Prop :=
  ∀ st, b.StringTable = some st → ∀ n ∈ ns, ∀ tag ∈ n.Tags, st.S[0]? ≠ some tag.1

/-- The builder after adding some strings. -/
def added (xs : List GoStr) : Builder := xs.foldl Builder.AddString NewStringTableBuilder

/-- Asking for the key/values of several nodes in turn. -/
def askAll (dn : DenseNodes) : KVCache → List Nat → Res (List (List UInt32 × List UInt32))
  | _, [] => .ok []
  | c, i :: is => do
    let (kv, c) ← dn.GetKeyVals c i
    let rest ← askAll dn c is
    .ok (kv :: rest)

end Osm.Spec
