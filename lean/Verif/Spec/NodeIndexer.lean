import Verif.Spec.NodeIndex
import Verif.Model.NodeIndexer

/-!
# Specifications for the node indexer
-/

namespace Osm.Spec
open Osm Osm.T

/-- A node of the source as the block stores it: id, latitude and longitude in the block's units. -/
structure SrcNode where
  id : Int64
  lat : Int64
  lon : Int64
deriving DecidableEq, Repr

/-- The nodes of one dense section. -/
def denseSource (dn : DenseNodes) : List SrcNode :=
  (dn.Id.zip (dn.Lat.zip dn.Lon)).map fun x => ⟨x.1, x.2.1, x.2.2⟩

/-- The nodes of a block, in order. -/
def sourceNodes (pb : PrimitiveBlock) : List SrcNode :=
  pb.PrimitiveGroup.flatMap fun pg =>
    match pg.Dense with
    | none => []
    | some dn => denseSource dn

/-- Every node of the block has a latitude and a longitude. -/
def DenseComplete (pb : PrimitiveBlock) : Prop :=
  ∀ pg ∈ pb.PrimitiveGroup, ∀ dn, pg.Dense = some dn →
    dn.Lat.length = dn.Id.length ∧ dn.Lon.length = dn.Id.length

/-- The nodes of all blocks, each with its block. -/
def allNodes (blocks : List (Option PrimitiveBlock)) : List (PrimitiveBlock × SrcNode) :=
  blocks.flatMap fun b =>
    match b with
    | none => []
    | some pb => (sourceNodes pb).map fun n => (pb, n)

/-- The position of a node, in ten-millionths of a degree: `1e-9 * (offset + granularity * value)` degrees
(OSM PBF definition), truncated. -/
def position (offset : Int64) (granularity : Int32) (v : Int64) : Int :=
  (offset.toInt + granularity.toInt * v.toInt).tdiv 100

/-- Blocks the node indexer handles: every node has both coordinates, ids strictly ascend over the whole
input and are at least 2, no block has 2^23 nodes (the OSM format allows 8000), and there are at most 2^39
nodes. -/
structure Indexable (blocks : List (Option PrimitiveBlock)) : Prop where
  complete : ∀ pb, some pb ∈ blocks → DenseComplete pb
  ascending : (allNodes blocks).Pairwise fun a b => a.2.id.toInt < b.2.id.toInt
  ids : ∀ x ∈ allNodes blocks, 2 ≤ x.2.id.toInt
  blockSize : ∀ pb, some pb ∈ blocks → (sourceNodes pb).length < 2 ^ 23
  total : (allNodes blocks).length ≤ 2 ^ 39

/-- The file holds these bytes. -/
def Holds (fs : FS) (f : String) (bs : List UInt8) : Prop := ∃ pos, fs f = some ⟨bs, pos⟩

/-- Reads that each return all they can (up to the buffer's size). -/
def greedy : Nat → Nat := fun _ => 1048576
/-- A context that is never cancelled. -/
def never : Nat → Bool := fun _ => false

end Osm.Spec
