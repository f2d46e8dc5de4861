import Verif.Model.NodeIndex
import Verif.Model.Morton
import Verif.Model.T

/-!
# Model of cmd/nodeindex/indexer

The state setters (progress display) are not modelled, nor `FClose`, whose only effect is to release the
descriptor.
-/

namespace Osm.NodeIndexer
open Osm Osm.T Osm.NodeIndex

/-- cmd/nodeindex/indexer/nodeindexer.go:8-11 -/
structure IndexRange where
  first : UInt64
  last : UInt64
deriving DecidableEq, Repr

/-- cmd/nodeindex/indexer/nodeindexer.go:13-16 -/
structure ElementBatch where
  ranges : List IndexRange
  locations : List Int64
deriving DecidableEq, Repr

/-- cmd/nodeindex/indexer/nodeindexer_worker.go:17 -/
def notAssigned : UInt64 := 0xffffffffffffffff

/-- The variables of cmd/nodeindex/indexer/nodeindexer_worker.go:48-52. -/
structure State where
  ranges : List IndexRange
  locs : List Int64
  firstId : UInt64
  lastId : UInt64
deriving DecidableEq, Repr

/-- cmd/nodeindex/indexer/nodeindexer_worker.go:48-52 -/
def State.init : State := ⟨[], [], notAssigned, notAssigned⟩

/-- cmd/nodeindex/indexer/nodeindexer_worker.go:66-71, 83-88: close the current range. -/
def State.flush (st : State) : List IndexRange :=
  if st.firstId ≠ notAssigned then st.ranges ++ [⟨st.firstId, st.lastId⟩] else st.ranges

/-- cmd/nodeindex/indexer/nodeindexer_worker.go:59-75 -/
def State.addId (st : State) (uid : UInt64) : State :=
  if uid = st.lastId + 1 then { st with lastId := uid }
  else if uid = st.lastId + 2 then { st with locs := st.locs ++ [0], lastId := uid }
  else { st with ranges := st.flush, firstId := uid, lastId := uid }

/-- cmd/nodeindex/indexer/nodeindexer_worker.go:77-78: int64 arithmetic wraps, division truncates toward
zero, the conversion to int32 keeps the low 32 bits. -/
def coordinate (offset : Int64) (granularity : Int32) (v : Int64) : Int32 :=
  ((offset + granularity.toInt64 * v) / 100).toInt32

/-- cmd/nodeindex/indexer/nodeindexer_worker.go:77-79 -/
def nodeLocation (pb : PrimitiveBlock) (lat lon : Int64) : Res Int64 :=
  Morton.location (coordinate pb.LonOffset pb.Granularity lon) (coordinate pb.LatOffset pb.Granularity lat)

/-- One iteration of cmd/nodeindex/indexer/nodeindexer_worker.go:58-80. -/
def addNode (pb : PrimitiveBlock) (dn : DenseNodes) (st : State) (idx : Nat) (id : Int64) : Res State := do
  let st := st.addId id.toUInt64
  let lat ← Res.ofOption dn.Lat[idx]?
  let lon ← Res.ofOption dn.Lon[idx]?
  let l ← nodeLocation pb lat lon
  .ok { st with locs := st.locs ++ [l] }

/-- cmd/nodeindex/indexer/nodeindexer_worker.go:58-80 -/
def addNodes (pb : PrimitiveBlock) (dn : DenseNodes) : State → Nat → List Int64 → Res State
  | st, _, [] => .ok st
  | st, idx, id :: ids => do
    let st ← addNode pb dn st idx id
    addNodes pb dn st (idx + 1) ids

/-- cmd/nodeindex/indexer/nodeindexer_worker.go:54-81, one group. -/
def addGroup (pb : PrimitiveBlock) (st : State) (pg : T.PrimitiveGroup) : Res State :=
  match pg.Dense with
  | none => .ok st
  | some dn => addNodes pb dn st 0 dn.Id

/-- cmd/nodeindex/indexer/nodeindexer_worker.go:48-103: what is sent for a block. `none` stands for a
block of type "Filler". -/
def indexBlock (pb : PrimitiveBlock) : Res (Option ElementBatch) := do
  let st ← foldRes (addGroup pb) State.init pb.PrimitiveGroup
  .ok (if st.flush = [] then none else some ⟨st.flush, st.locs⟩)

/-- cmd/nodeindex/indexer/nodeindexer_worker.go:33-110 once the blob is decoded (`none`: a block which is not
"OSMData", passed on as it is, and ignored by the writer like a "Filler"). -/
def work : Option PrimitiveBlock → Res (Option ElementBatch)
  | none => .ok none
  | some pb => indexBlock pb

/-- cmd/nodeindex/indexer/nodeindexer_writer.go:33-42: the words for a batch's ranges, from the given
`lastLocationIndex`, and the new one. -/
def batchWords : UInt64 → List IndexRange → Res (List UInt64 × UInt64)
  | last, [] => .ok ([], last)
  | last, r :: rs => do
    let itemCount := r.last - r.first + 1
    let co ← NewCountOffset itemCount last
    let (ws, last') ← batchWords (last + itemCount) rs
    .ok (r.first :: co :: ws, last')

/-- cmd/nodeindex/indexer/nodeindexer_writer.go:27-48: the loop over the received blocks (`none`: one which
is not "IndexData"); returns `indexElementCount`. -/
def writeBatches (idx loc : String) : UInt64 → UInt64 → List (Option ElementBatch) → Prog UInt64
  | count, _, [] => .pure count
  | count, last, none :: bs => writeBatches idx loc count last bs
  | count, last, some b :: bs => do
    let ws ← Prog.lift (batchWords last b.ranges)
    FWriteSliceU64 idx ws.1
    FWriteSliceI64 loc b.locations
    writeBatches idx loc (count + UInt64.ofNat b.ranges.length) ws.2 bs

/-- cmd/nodeindex/indexer/nodeindexer_writer.go:15-70, up to the final write; `sched` and `cancelled` as in
`copyLoop`. Returns `indexElementCount`. -/
def outputBody (out : String) (sched : Nat → Nat) (cancelled : Nat → Bool)
    (blocks : List (Option ElementBatch)) : Prog UInt64 := do
  OsCreate out
  OsCreate (out ++ ".loc.tmp")
  FWriteSliceI64 out [0, 0]
  let count ← writeBatches out (out ++ ".loc.tmp") 0 0 blocks
  FSeekStart (out ++ ".loc.tmp")
  copyAll out (out ++ ".loc.tmp") sched cancelled
  OsRemove (out ++ ".loc.tmp")
  FSeekStart out
  Prog.pure count

/-- cmd/nodeindex/indexer/nodeindexer_writer.go:14-72 -/
def Output (out : String) (sched : Nat → Nat) (cancelled : Nat → Bool)
    (blocks : List (Option ElementBatch)) : Prog Unit := do
  let count ← outputBody out sched cancelled blocks
  FWriteSliceU64 out [Version.toUInt64, count]

end Osm.NodeIndexer
