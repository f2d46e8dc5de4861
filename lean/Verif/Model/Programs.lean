import Verif.Model.Rewrite
import Verif.Model.NodeIndexer
import Verif.Model.WayIndexer

/-!
# Model of the commands nodeindex, wayindex and relindex, from input file to output file

Arguments, the user interface, `system.Setup`, timing and printing are not modelled, and no run is cancelled. The blocks
that reach the writer are those which the workers make of the blocks of the file, in file order: that is what every
schedule of `ProcessFileAsync` delivers (theorem `C69_any_schedule`). The writer creates its files while the workers read
theirs; they are different files.
-/

namespace Osm.Programs
open Osm Osm.Pb Osm.T Osm.Pbf

/-- The first lines of every worker (nodeindexer_worker.go:33-46, wayindexer_worker.go:38-51, relindexer_worker.go:29-42):
a block of another kind is passed on (`none`), else it is decoded. (The writers ignore blocks which are not of their own
type; `ProcessFileAsync` has already rejected kinds other than "OSMHeader" and "OSMData".) -/
def decodeBlock (inflate : Inflate) (sched : Block → Sched) (o : PBReader) (b : Block) : Res (Option PrimitiveBlock) :=
  if b.Kind ≠ osmData then .ok none
  else do
    let raw ← rawOf inflate (sched b) b
    let pb ← ReadPrimitiveBlock o raw
    .ok (some pb)

/-- What a worker sends for a block, if it decodes with the options `o` and does `work` with the result. -/
def blockWork {O : Type} (inflate : Inflate) (sched : Block → Sched) (o : PBReader) (work : Option PrimitiveBlock → Res O)
    (b : Block) : Res O := do
  let pb ← decodeBlock inflate sched o b
  work pb

/-- internal/pbf/process.go:61-152 run to the end, without cancellation. -/
def process {O : Type} (work : Block → Res O) (inp : String) (output : List O → Prog Unit) : Prog Unit := do
  OsOpen inp
  let m ← MMapMap inp
  let bs ← Prog.lift (split m)
  let xs ← Prog.lift (mapRes work bs)
  output xs

/-- The concurrent run. -/
def cfg {O : Type} (work : Block → Res O) (file : List UInt8) : Cfg O where
  file := file
  work := work
  hasWriter := true
  write _ := .ok ()
  finish _ := .ok ()

/-- cmd/nodeindex/indexer/nodeindexer_worker.go:21-25 -/
def nodeReader : PBReader := ⟨true, false, true, true⟩
/-- cmd/wayindex/wayindexer/wayindexer_worker.go:23-27 -/
def wayReader : PBReader := ⟨true, true, false, true⟩
/-- cmd/relindex/relindexerinit/relindexer_worker.go:16-21 -/
def relReader : PBReader := ⟨false, true, true, false⟩

/-- cmd/nodeindex/nodeindex.go:18-43. `chunks` is how the copy of the locations is delivered (see `copyLoop`). -/
def nodeindex (inflate : Inflate) (sched : Block → Sched) (chunks : Nat → Nat) (inp out : String) : Prog Unit :=
  process (blockWork inflate sched nodeReader NodeIndexer.work) inp (NodeIndexer.Output out chunks fun _ => false)

/-- cmd/wayindex/wayindexer/wayindexer_worker.go:29-98. The block size is computed once per worker there, not per block. -/
def wayWork (shift : Int64) (pb : Option PrimitiveBlock) : Res (Option WayIndexer.IndexElement) := do
  let amt ← WayIndex.goShl 1 shift
  WayIndexer.work shift amt pb

/-- cmd/wayindex/wayindex.go:18-43 -/
def wayindex (inflate : Inflate) (sched : Block → Sched) (chunks : Nat → Nat) (shift : Int64) (inp out : String) :
    Prog Unit :=
  process (blockWork inflate sched wayReader (wayWork shift)) inp (WayIndexer.Output out shift chunks fun _ => false)

/-- cmd/relindex/relindex.go:95-149 -/
def relindex (inflate : Inflate) (sched : Block → Sched) (passes : Nat) (inp wayIndex out : String) : Prog Unit :=
  process (blockWork inflate sched relReader RelIndex.work) inp fun sent => RelIndex.relindex out wayIndex passes sent

end Osm.Programs
