import Verif.Model.WayIndex
import Verif.Model.T

/-!
# Model of cmd/wayindex/wayindexer

The state setters (progress display) are not modelled, nor `FClose`.
-/

namespace Osm.WayIndexer
open Osm Osm.Pb Osm.T Osm.WayIndex

/-- cmd/wayindex/wayindexer/wayindexer_worker.go:17-19; `bytes.Repeat` panics on a negative count, `%` on a
zero divisor; `amt-len%amt` wraps. -/
def padToAlignment (b : List UInt8) (amt : Int) : Res (List UInt8) :=
  if amt = 0 then .panic
  else
    let n := goInt (amt - (b.length : Int).tmod amt)
    if n < 0 then .panic else .ok (b ++ List.replicate n.toNat 0)

/-- cmd/wayindex/wayindexer/wayindexer_worker.go:61-70: the filtered references (`outputLocations[:idx]`). -/
def filterRefs : Int64 → List Int64 → List Int64
  | _, [] => []
  | last, ref :: refs => if ref ≠ last then ref :: filterRefs ref refs else filterRefs last refs

/-- `int64(len(b)) >> s`: panics on a negative shift, 0 from 64 on. -/
def lenShr (len : Nat) (s : Int64) : Res Int64 :=
  if s < 0 then .panic else .ok (Int64.ofNat (len / 2 ^ s.toInt.toNat))

/-- cmd/wayindex/wayindexer/wayindexer.go:9-12 -/
structure IndexElement where
  blocks : List UInt64
  locations : List UInt8
deriving DecidableEq, Repr

/-- cmd/wayindex/wayindexer/wayindexer_worker.go:57-75, one way. -/
def addWay (shift : Int64) (amt : Int64) (st : IndexElement) (w : Way) : Res IndexElement := do
  let o ← lenShr st.locations.length shift
  let d ← MakeIndexData w.ID o
  let locs ← padToAlignment (st.locations ++ EncodeS64PackedDeltaZero [] (filterRefs 0 w.Refs)) amt.toInt
  .ok ⟨st.blocks ++ [d], locs⟩

/-- cmd/wayindex/wayindexer/wayindexer_worker.go:53-91: what is sent for a block (`none`: "Filler"). -/
def indexBlock (shift amt : Int64) (pb : PrimitiveBlock) : Res (Option IndexElement) := do
  let st ← foldRes (fun st (pg : T.PrimitiveGroup) => foldRes (addWay shift amt) st pg.Ways) ⟨[], []⟩
    pb.PrimitiveGroup
  .ok (if st.blocks = [] then none else some st)

/-- cmd/wayindex/wayindexer/wayindexer_worker.go:37-98 once the blob is decoded (`none`: a block which is not
"OSMData", passed on and ignored by the writer). -/
def work (shift amt : Int64) : Option PrimitiveBlock → Res (Option IndexElement)
  | none => .ok none
  | some pb => indexBlock shift amt pb

/-- cmd/wayindex/wayindexer/wayindexer_worker.go:29-98: one worker over the blocks it receives. -/
def workAll (shift : Int64) (blocks : List (Option PrimitiveBlock)) : Res (List (Option IndexElement)) := do
  let amt ← goShl 1 shift
  mapRes (work shift amt) blocks

/-- cmd/wayindex/wayindexer/wayindexer_writer.go:38-46 -/
def batchWords (locationLength : Int64) (blocks : List UInt64) : Res (List UInt64) :=
  mapRes (fun b => MakeIndexData (WayID b) (Offset b + locationLength)) blocks

/-- cmd/wayindex/wayindexer/wayindexer_writer.go:30-52: the loop over the received blocks; returns
`indexBlockCount`. -/
def writeBatches (idx loc : String) (shift : Int64) : Int64 → Int64 → List (Option IndexElement) → Prog Int64
  | count, _, [] => .pure count
  | count, len, none :: bs => writeBatches idx loc shift count len bs
  | count, len, some b :: bs => do
    let ws ← Prog.lift (batchWords len b.blocks)
    FWriteSliceU64 idx ws
    FWrite loc b.locations
    let n ← Prog.lift (lenShr b.locations.length shift)
    writeBatches idx loc shift (count + Int64.ofNat b.blocks.length) (len + n) bs

/-- cmd/wayindex/wayindexer/wayindexer_writer.go:18-76, up to the final write. (Line 56 also shifts by
`locationAlignmentShift`, only to display progress.) -/
def outputBody (out : String) (shift : Int64) (sched : Nat → Nat) (cancelled : Nat → Bool)
    (blocks : List (Option IndexElement)) : Prog Int64 := do
  OsCreate out
  OsCreate (out ++ ".loc.tmp")
  FWriteSliceI64 out [0, 0]
  let count ← writeBatches out (out ++ ".loc.tmp") shift 0 0 blocks
  FSeekStart (out ++ ".loc.tmp")
  copyAll out (out ++ ".loc.tmp") sched cancelled
  OsRemove (out ++ ".loc.tmp")
  FSeekStart out
  Prog.pure count

/-- cmd/wayindex/wayindexer/wayindexer_writer.go:14-81 -/
def Output (out : String) (shift : Int64) (sched : Nat → Nat) (cancelled : Nat → Bool)
    (blocks : List (Option IndexElement)) : Prog Unit := do
  let count ← outputBody out shift sched cancelled blocks
  FWriteSliceI64 out [count, shift]

end Osm.WayIndexer
