import Verif.Model.Rewrite
import Verif.Spec.NodeIndex
import Verif.Spec.Raw
import Verif.Spec.Messages

/-! # Specification vocabulary for rewritten files (C46–C48) -/

namespace Osm.Spec
open Osm Osm.T Osm.Pbf Osm.NodeIndex

/-- The (non-zero) location which an index holds for an id. -/
def knownLoc (es : List IndexElement) (locs : List Int64) (id : Nat) : Option Int64 :=
  es.findSome? fun e =>
    if rFirst e ≤ id ∧ id < rFirst e + rCount e then (locs[rOffset e + (id - rFirst e)]?).filter (· ≠ 0) else none

/-- What becomes of a ref: the location of the node if the ref is an id the index knows, else the ref itself. -/
def locate (es : List IndexElement) (locs : List Int64) (r : Int64) : Int64 :=
  if 0 ≤ r then (knownLoc es locs r.toInt.toNat).getD r else r

/-- A block with its ways' refs changed, and nothing else. -/
def mapRefs (f : Int64 → Int64) (b : PrimitiveBlock) : PrimitiveBlock :=
  { b with PrimitiveGroup := b.PrimitiveGroup.map fun g =>
    { g with Ways := g.Ways.map fun w => { w with Refs := w.Refs.map f } } }

/-- Whatever follows the bytes in memory, and however zlib delivers its data into whatever buffer: the bytes are a
block that reads as `c` with the options `o` (apart from what follows its raw sections in memory). -/
def Reads (inflate : Inflate) (o : PBReader) (bytes : List UInt8) (c : PrimitiveBlock) : Prop :=
  ∀ (i : Nat) (spare : List UInt8) (sched : Sched), (Slice.mk bytes spare).Fits → sched.pooled.length < 2 ^ 63 →
    ∃ raw pb, rawOf inflate sched ⟨i, ⟨bytes, spare⟩, osmData⟩ = .ok raw ∧ ReadPrimitiveBlock o raw = .ok pb ∧
      trimBlock pb = c

/-- What is in a block: uninterpreted bytes, or a primitive block. -/
inductive Content where
  | other (kind : GoStr) (bytes : List UInt8)
  | data (b : PrimitiveBlock)

/-- A change of the refs in a block. -/
def Content.mapRefs (f : Int64 → Int64) : Content → Content
  | .other kind bytes => .other kind bytes
  | .data b => .data (Spec.mapRefs f b)

/-- The content of a block. -/
def HasContent (inflate : Inflate) (o : PBReader) (kind : GoStr) (bytes : List UInt8) : Content → Prop
  | .other k bs => kind = k ∧ bytes = bs ∧ kind ≠ osmData
  | .data b => kind = osmData ∧ Reads inflate o bytes b

/-- Element by element. -/
inductive Matches {α β : Type} (R : α → β → Prop) : List α → List β → Prop where
  | nil : Matches R [] []
  | cons {a b as bs} : R a b → Matches R as bs → Matches R (a :: as) (b :: bs)

/-- The ways decoded, everything else as it stands in the file. -/
def waysDecoded : PBReader := ⟨true, true, false, true⟩

/-- Nodes, ways and relations decoded, the string table as it stands in the file. -/
def entitiesDecoded : PBReader := ⟨true, false, false, false⟩

/-- A file whose blocks have the given contents. -/
def FileHas (inflate : Inflate) (o : PBReader) (file : List UInt8) (cs : List Content) : Prop :=
  ∃ bs, split file = .ok bs ∧ Matches (fun b c => HasContent inflate o b.Kind b.Data.bytes c) bs cs

/-- All the (non-zero) locations in an index are negative, as encoded locations are (C26). -/
def NegativeLocs (locs : List Int64) : Prop := ∀ l ∈ locs, l ≠ 0 → l < 0

end Osm.Spec

namespace Osm.Spec
open Osm Osm.T Osm.Pbf Osm.NodeIndex

/-- Room for a way, whatever its refs are replaced by (a ref takes at most ten bytes). -/
def wayRoom (w : Way) : Nat := sizeU32 w.Keys + sizeU32 w.Vals + 10 * w.Refs.length + 100

/-- Room for a group whose nodes and relations are kept raw. -/
def groupRoom (g : T.PrimitiveGroup) : Nat :=
  (optBytes g.RawDense).length + (g.Ways.map wayRoom).sum + (g.RawRelations.map fun r => r.bytes.length + 20).sum + 50

/-- Room for a block whose string table, nodes and relations are kept raw. -/
def blockRoom (b : PrimitiveBlock) : Nat :=
  (optBytes b.StringTableRaw).length + (b.PrimitiveGroup.map groupRoom).sum + 200

/-- A block that can be written whatever its refs are replaced by: no way takes more than 16384 bytes then, and the
block less than 256 MiB. -/
def Small (b : PrimitiveBlock) : Prop :=
  (∀ g ∈ b.PrimitiveGroup, ∀ w ∈ g.Ways, wayRoom w ≤ 16384) ∧ blockRoom b < 2 ^ 28

/-- The same for all blocks of a file, of which there are less than 2^31. -/
def SmallFile (cs : List Content) : Prop :=
  (∀ b, Content.data b ∈ cs → Small b) ∧ cs.length < 2 ^ 31

end Osm.Spec
