import Verif.Model.Rewrite
import Verif.Model.Hl

/-!
# Model of cmd/tagfilter

The state setters (progress display) are not modelled, except for the counters of kept and dropped nodes and of filler
blocks. A node's tag map is changed in place (`node` is a pointer); here the changed node is returned.
-/

namespace Osm.TagFilter
open Osm Osm.Pb Osm.T Osm.Pbf

/-- The bytes of an ASCII string literal. -/
def ascii (s : String) : GoStr := s.toList.map fun c => UInt8.ofNat c.toNat

/-- cmd/tagfilter/tagfilterer/tagfilterer_worker.go:14-56 -/
def deleteTags : List GoStr := [
  "note", "source", "source_ref", "attribution", "comment", "fixme", "created_by", "odbl", "odbl:note",
  "project:eurosha_2012", "ref:UrbIS", "accuracy:meters", "sub_sea:type", "waterway:type", "statscan:rbuid",
  "ref:ruian:addr", "ref:ruian", "building:ruian:type", "dibavod:id", "uir_adr:ADRESA_KOD", "gst:feat_id",
  "maaamet:ETAK", "ref:FR:FANTOIR", "3dshapes:ggmodelk", "AND_nosr_r", "OPPDATERIN", "addr:city:simc",
  "addr:street:sym_ul", "building:usage:pl", "building:use:pl", "teryt:simc", "raba:id", "dcgis:gis_id",
  "nycdoitt:bin", "chicago:building_id", "lojic:bgnum", "massgis:way_id", "import", "import_uuid", "OBJTYPE",
  "SK53_bulk:load"].map ascii

/-- cmd/tagfilter/tagfilterer/tagfilterer_worker.go:58-81 -/
def deletePrefixes : List GoStr := [
  "note:", "source:", "CLC:", "geobase:", "canvec:", "geobase:", "osak:", "kms:", "ngbe:", "it:fvg:", "KSJ2:", "yh:",
  "LINZ2OSM:", "linz2osm:", "LINZ:", "WroclawGIS:", "naptan:", "tiger:", "gnis:", "NHD:", "nhd:", "mvdgis:"].map ascii

/-- The first loop of cmd/tagfilter/tagfilterer/tagfilterer_worker.go:86-90: whether it ends without returning false. -/
def noTag (s : GoStr) : List GoStr → Bool
  | [] => true
  | f :: fs => if f = s then false else noTag s fs

/-- The second loop, cmd/tagfilter/tagfilterer/tagfilterer_worker.go:91-95. -/
def noPrefix (s : GoStr) : List GoStr → Bool
  | [] => true
  | p :: ps => if p.isPrefixOf s then false else noPrefix s ps

/-- cmd/tagfilter/tagfilterer/tagfilterer_worker.go:85-97 -/
def keepTag (s : GoStr) : Bool := if noTag s deleteTags then noPrefix s deletePrefixes else false

/-- `delete(m, k)`. -/
def delete (m : TagMap) (k : GoStr) : TagMap := m.filter fun e => e.1 ≠ k

/-- cmd/tagfilter/tagfilterer/tagfilterer_worker.go:154-158: the loop over the keys of the map, in whatever order;
deleting the entry just visited does not affect the others. `ks` are the keys not yet visited. -/
def deleteUnwanted : List GoStr → TagMap → TagMap
  | [], m => m
  | k :: ks, m => deleteUnwanted ks (if !keepTag k then delete m k else m)

/-- What the loop of cmd/tagfilter/tagfilterer/tagfilterer_worker.go:150-166 leaves. -/
structure Filtered where
  nodes : List HLNode
  idx : Nat
  localKept : UInt64
  localDropped : UInt64
deriving DecidableEq

/-- One iteration of cmd/tagfilter/tagfilterer/tagfilterer_worker.go:153-166: `nodes[idx] = node` overwrites an element
of the slice being iterated (already visited). -/
def filterStep (st : Filtered) (n : HLNode) : Res Filtered :=
  if n.Tags.length > 0 then
    if st.idx < st.nodes.length then
      .ok ⟨st.nodes.set st.idx n, st.idx + 1, st.localKept + 1, st.localDropped⟩
    else .panic
  else .ok ⟨st.nodes, st.idx, st.localKept, st.localDropped + 1⟩

/-- cmd/tagfilter/tagfilterer/tagfilterer_worker.go:153-166: iterations `i … i+left-1`. -/
def filterLoop : Nat → Nat → Filtered → Res Filtered
  | 0, _, st => .ok st
  | left + 1, i, st => do
    let n ← Res.ofOption st.nodes[i]?
    let st ← filterStep st { n with Tags := deleteUnwanted (n.Tags.map (·.1)) n.Tags }
    filterLoop left (i + 1) st

/-- cmd/tagfilter/tagfilterer/tagfilterer_worker.go:145-167: the loop and `nodes = nodes[:idx]`. -/
def filterNodes (ns : List HLNode) : Res Filtered := do
  let st ← filterLoop ns.length 0 ⟨ns, 0, 0, 0⟩
  .ok { st with nodes := st.nodes.take st.idx }

/-- cmd/tagfilter/tagfilterer/tagfilterer_worker.go:83 -/
def nodesToBuffer : Nat := 0

/-- cmd/tagfilter/tagfilterer/tagfilterer_worker.go:119-124 -/
def reader : PBReader := ⟨false, false, false, false⟩

/-- The blob type of a block that is not written, tagfilterer_worker.go:109: "Filler". -/
def filler : GoStr := ascii "Filler"

/-- What one iteration of the worker does: the block sent, what it adds to the counters, and the nodes held back. -/
structure Sent where
  msg : Rewrite.Out
  kept : UInt64
  dropped : UInt64
  pending : List HLNode

/-- cmd/tagfilter/tagfilterer/tagfilterer_worker.go:173-178 -/
def assemble (pending nodes : List HLNode) (ws : List HLWay) (rs : List HLRelation) : Res PrimitiveBlock :=
  if nodesToBuffer = 0 then MakePrimitiveBlock nodes ws rs else MakePrimitiveBlock pending ws rs

/-- cmd/tagfilter/tagfilterer/tagfilterer_worker.go:172-194: sending on the filtered nodes, the ways and the relations
of a block, or a filler. -/
def send (pending : List HLNode) (f : Filtered) (ws : List HLWay) (rs : List HLRelation) : Res Sent :=
  if f.nodes.length + pending.length > nodesToBuffer ∨ ws.length > 0 ∨ rs.length > 0 then do
    let pb ← assemble pending f.nodes ws rs
    let blob ← Blob.zero.Write (some pb.Write) []
    .ok ⟨(osmData, blob), f.localKept, f.localDropped, if nodesToBuffer > 0 then f.nodes else pending⟩
  else .ok ⟨(filler, []), f.localKept, f.localDropped, pending ++ f.nodes⟩

/-- cmd/tagfilter/tagfilterer/tagfilterer_worker.go:145-194: a block once decoded. -/
def filterBlock (pending : List HLNode) (pb : PrimitiveBlock) : Res Sent := do
  let ns ← pb.ToNodes
  let ws ← pb.ToWays
  let rs ← pb.ToRelations
  let f ← filterNodes ns
  send pending f ws rs

/-- cmd/tagfilter/tagfilterer/tagfilterer_worker.go:129-194: one iteration of the worker. -/
def filterIter (inflate : Inflate) (sched : Block → Sched) (pending : List HLNode) (b : Block) : Res Sent :=
  if b.Kind ≠ osmData then .ok ⟨(b.Kind, b.Data.bytes), 0, 0, pending⟩
  else do
    let raw ← rawOf inflate (sched b) b
    let pb ← ReadPrimitiveBlock reader raw
    filterBlock pending pb

/-- cmd/tagfilter/tagfilterer/tagfilterer_worker.go:126-207: a worker that gets the given blocks, one after the other:
what it sends, and the panic at the end if nodes are still held back. -/
def filterWorker (inflate : Inflate) (sched : Block → Sched) : List HLNode → List Block → Res (List Sent)
  | pending, [] => if pending.length > 0 then .panic else .ok []
  | pending, b :: bs => do
    let s ← filterIter inflate sched pending b
    let rest ← filterWorker inflate sched s.pending bs
    .ok (s :: rest)

/-- What a worker sends for a block when it holds nothing back (theorem `C50_never_pending`: it never does). -/
def filterWork (inflate : Inflate) (sched : Block → Sched) (b : Block) : Res Rewrite.Out := do
  let s ← filterIter inflate sched [] b
  .ok s.msg

/-- cmd/tagfilter/tagfilterer/tagfilterer_writer.go:20-46: the loop over the blocks received, with the count of
fillers. -/
def writeLoop (f : String) : Nat → List Rewrite.Out → Prog Nat
  | fillers, [] => .pure fillers
  | fillers, (kind, blob) :: xs =>
    if kind = filler then writeLoop f (fillers + 1) xs
    else do
      FWrite f (Rewrite.frameHeader kind blob)
      FWrite f blob
      writeLoop f fillers xs

/-- cmd/tagfilter/tagfilterer/tagfilterer_writer.go:15-48 on the blocks it receives. -/
def output (f : String) (xs : List Rewrite.Out) : Prog Nat := do
  OsCreate f
  writeLoop f 0 xs

/-- cmd/tagfilter/tagfilter.go:30-36: the concurrent run over the content of a file. -/
def filterCfg (inflate : Inflate) (sched : Block → Sched) (file : List UInt8) : Cfg Rewrite.Out where
  file := file
  work := filterWork inflate sched
  hasWriter := true
  write _ := .ok ()
  finish _ := .ok ()

/-- cmd/tagfilter/tagfilter.go:18-46 for a run that is not cancelled; as for `Rewrite.pass`, the blocks that reach the
writer are those which the workers make of the blocks of the file, in file order (theorem `C49_any_schedule`). -/
def tagfilter (inflate : Inflate) (sched : Block → Sched) (inp out : String) : Prog Nat := do
  OsOpen inp
  let m ← MMapMap inp
  let bs ← Prog.lift (split m)
  let xs ← Prog.lift (mapRes (filterWork inflate sched) bs)
  output out xs

end Osm.TagFilter
