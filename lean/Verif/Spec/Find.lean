import Verif.Model.Find
import Verif.Spec.Extract
import Verif.Spec.Rewrite

/-! # Specification vocabulary for the search (C65) -/

namespace Osm.Spec
open Osm Osm.T Osm.Find

/-- The id of an entity as an unsigned number. -/
def entityId : Entity → UInt64
  | .node n => n.Id
  | .way w => w.Id.toUInt64
  | .relation r => r.Id.toUInt64

/-- The entities of a block: its nodes, then its ways, then its relations, each in order. -/
def EntitiesAre (b : PrimitiveBlock) (es : List Entity) : Prop :=
  ∃ ns ws rs, NodesAre b ns ∧ WaysAre b ws ∧ RelationsAre b rs ∧
    es = ns.map .node ++ ws.map .way ++ rs.map .relation

/-- The entities of what is in a block of a file. -/
def ContentEntities : Content → List Entity → Prop
  | .other _ _, es => es = []
  | .data b, es => EntitiesAre b es

/-- Those that are requested. -/
def requested (ids : List UInt64) (es : List Entity) : List Entity := es.filter fun e => ids.contains (entityId e)

/-- All data blocks of a file are sound. -/
def SoundFile (cs : List Content) : Prop := ∀ b, Content.data b ∈ cs → Sound b

end Osm.Spec
