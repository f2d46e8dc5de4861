import Verif.Model.Programs
import Verif.Spec.Rewrite
import Verif.Spec.NodeIndexer
import Verif.Spec.WayIndexer
import Verif.Spec.RelIndex

/-! # Specification vocabulary for runs of the commands one after the other (C69) -/

namespace Osm.Spec
open Osm Osm.T Osm.Pbf

/-- What is in a block of a source file: nothing of interest (`none`: a block which is not "OSMData"), or a primitive
block. The bytes are meant on their own, whatever follows them in memory. -/
inductive SourceBlock (inflate : Inflate) : Block → Option PrimitiveBlock → Prop where
  | other (b : Block) : b.Kind ≠ osmData → SourceBlock inflate b none
  | data (b : Block) (blob : Blob) (payload : List UInt8) (full : PrimitiveBlock) : b.Kind = osmData →
      ReadBlob ⟨b.Data.bytes, []⟩ = .ok blob → Payload inflate blob payload →
      ReadPrimitiveBlock readAll ⟨payload, []⟩ = .ok full → SourceBlock inflate b (some full)

/-- A source file with its blocks, in order. -/
def Source (inflate : Inflate) (file : List UInt8) (blocks : List (Option PrimitiveBlock)) : Prop :=
  ∃ bs, split file = .ok bs ∧ Matches (SourceBlock inflate) bs blocks

/-- `f` replaces the id of every node of the source by the node's encoded location, and nothing else. -/
structure Locates (blocks : List (Option PrimitiveBlock)) (f : Int64 → Int64) : Prop where
  node : ∀ x ∈ allNodes blocks, NodeIndexer.nodeLocation x.1 x.2.lat x.2.lon = .ok (f x.2.id)
  other : ∀ r, (∀ x ∈ allNodes blocks, x.2.id ≠ r) → f r = r

/-- A way with its refs replaced. -/
def relocate (f : Int64 → Int64) (w : Way) : Way := { w with Refs := w.Refs.map f }

/-- The path of a way of the source: its refs with the nodes' ids replaced by locations, without leading zeros and
consecutive repeats. None if there is no such way. -/
def pathOf (blocks : List (Option PrimitiveBlock)) (f : Int64 → Int64) (id : Int64) : List Int64 :=
  match (allWays blocks).find? (fun w => w.ID == id) with
  | some w => indexedRefs (relocate f w)
  | none => []

/-- The files of the four runs are all different. -/
def Names (n : Nat) (src nix rew wix rix : String) : Prop :=
  [src, nix, nix ++ ".loc.tmp", rew, wix, wix ++ ".loc.tmp", rix].Nodup ∧
  ∀ p < n, RelIndex.makePassFilename rix p n ∉ [src, wix]

end Osm.Spec
