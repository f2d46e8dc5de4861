import Verif.Model.TagFilter
import Verif.Spec.Rewrite
import Verif.Spec.Hl

/-! # Specification vocabulary for tag filtering (C49, C50) -/

namespace Osm.Spec
open Osm Osm.T Osm.Pbf

/-- Keys that are dropped. -/
def droppedKeys : List String := [
  "3dshapes:ggmodelk", "AND_nosr_r", "OBJTYPE", "OPPDATERIN", "SK53_bulk:load", "accuracy:meters", "addr:city:simc",
  "addr:street:sym_ul", "attribution", "building:ruian:type", "building:usage:pl", "building:use:pl",
  "chicago:building_id", "comment", "created_by", "dcgis:gis_id", "dibavod:id", "fixme", "gst:feat_id", "import",
  "import_uuid", "lojic:bgnum", "maaamet:ETAK", "massgis:way_id", "note", "nycdoitt:bin", "odbl", "odbl:note",
  "project:eurosha_2012", "raba:id", "ref:FR:FANTOIR", "ref:UrbIS", "ref:ruian", "ref:ruian:addr", "source",
  "source_ref", "statscan:rbuid", "sub_sea:type", "teryt:simc", "uir_adr:ADRESA_KOD", "waterway:type"]

/-- Prefixes of keys that are dropped. -/
def droppedPrefixes : List String := [
  "CLC:", "KSJ2:", "LINZ2OSM:", "LINZ:", "NHD:", "WroclawGIS:", "canvec:", "geobase:", "gnis:", "it:fvg:", "kms:",
  "linz2osm:", "mvdgis:", "naptan:", "ngbe:", "nhd:", "note:", "osak:", "source:", "tiger:", "yh:"]

/-- The bytes of an ASCII string. -/
def asciiBytes (s : String) : GoStr := s.toList.map fun c => UInt8.ofNat c.toNat

/-- A tag whose key is neither dropped nor starts with a dropped prefix. -/
def Wanted (k : GoStr) : Prop :=
  (∀ d ∈ droppedKeys, k ≠ asciiBytes d) ∧ ∀ p ∈ droppedPrefixes, ¬ asciiBytes p <+: k

instance (k : GoStr) : Decidable (Wanted k) := inferInstanceAs (Decidable (_ ∧ _))

/-- The wanted tags. -/
def wantedTags (m : TagMap) : TagMap := m.filter fun e => Wanted e.1

/-- The nodes that have a wanted tag, each with its wanted tags. -/
def wantedNodes (ns : List HLNode) : List HLNode :=
  (ns.filter fun n => ∃ e ∈ n.Tags, Wanted e.1).map fun n => { n with Tags := wantedTags n.Tags }

/-- What a block is about: uninterpreted bytes, or nodes, ways and relations. -/
inductive Item where
  | other (kind : GoStr) (bytes : List UInt8)
  | entities (ns : List HLNode) (ws : List HLWay) (rs : List HLRelation)

/-- The entities in a block. -/
def IsItem : Content → Item → Prop
  | .other k bs, .other k' bs' => k' = k ∧ bs' = bs
  | .data b, .entities ns ws rs => b.ToNodes = .ok ns ∧ b.ToWays = .ok ws ∧ b.ToRelations = .ok rs
  | _, _ => False

/-- What is left of a block: nothing if no entity is left. -/
def Item.wanted : Item → Option Item
  | .other k bs => some (.other k bs)
  | .entities ns ws rs =>
    if wantedNodes ns = [] ∧ ws = [] ∧ rs = [] then none else some (.entities (wantedNodes ns) ws rs)

/-- A block has the nodes, ways and relations of an item (the nodes' coordinates in multiples of 100). For the nodes:
if no tag and no role in the block is the empty string, and more exactly, iff no tag of a node has as its key the string
at index 0 of the block's string table. -/
def Shows : Item → Content → Prop
  | .other k bs, c => c = .other k bs
  | .entities ns ws rs, c => ∃ b, c = .data b ∧
    ([] ∉ blockStrings ns ws rs → ∃ ns', b.ToNodes = .ok ns' ∧ Each NodeSurvives ns ns') ∧
    ((∃ ns', b.ToNodes = .ok ns' ∧ Each NodeSurvives ns ns') ↔ NoKeyAtZero ns b) ∧
    (∃ ws', b.ToWays = .ok ws' ∧ Each WaySurvives ws ws') ∧
    (∃ rs', b.ToRelations = .ok rs' ∧ Each RelationSurvives rs rs')

/-- The strings of an item can be numbered with 32 bits. -/
def Item.FewStrings : Item → Prop
  | .other _ _ => True
  | .entities ns ws rs => (blockStrings (wantedNodes ns) ws rs).length < 2 ^ 32

/-- The nodes of an item. -/
def Item.nodes : Item → Nat
  | .other _ _ => 0
  | .entities ns _ _ => ns.length

/-- The nodes left of an item. -/
def Item.kept : Item → Nat
  | .other _ _ => 0
  | .entities ns _ _ => (wantedNodes ns).length

end Osm.Spec

namespace Osm.Spec
open Osm Osm.T Osm.Pbf

/-- Room for a way in a block (an index or a ref takes at most ten bytes). -/
def hlWayRoom (w : HLWay) : Nat := 20 * w.Tags.length + 10 * w.Nodes.length + 100

/-- Room for a relation. -/
def hlRelationRoom (r : HLRelation) : Nat :=
  20 * r.Tags.length + 10 * r.Roles.length + 10 * r.Members.length + 10 * r.MemberType.length + 200

/-- Room for nodes. -/
def hlNodesRoom (ns : List HLNode) : Nat := (ns.map fun n => 20 * n.Tags.length + 50).sum + 150

/-- Room for a string table. -/
def stringsRoom (xs : List GoStr) : Nat := (xs.map fun s => s.length + 20).sum + 50

/-- Entities for which a block has room. -/
def Roomy (ns : List HLNode) (ws : List HLWay) (rs : List HLRelation) : Prop :=
  ns.length ≤ 200000 ∧ (∀ w ∈ ws, hlWayRoom w ≤ 16384) ∧
  (∀ r ∈ rs, 10 * r.Tags.length < 16384 ∧ hlRelationRoom r ≤ 2097152) ∧
  hlNodesRoom ns + (ws.map hlWayRoom).sum + (rs.map hlRelationRoom).sum + stringsRoom (blockStrings ns ws rs) + 300 < 2 ^ 28

/-- What is left of an item has room in a block. -/
def Item.Roomy : Item → Prop
  | .other _ _ => True
  | .entities ns ws rs => Spec.Roomy (wantedNodes ns) ws rs

end Osm.Spec
