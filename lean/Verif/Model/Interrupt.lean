import Verif.Model.Programs
import Verif.Model.TagFilter

/-!
# Model of cancelled and interrupted runs of the commands

The user interface cancels the context (`cancel`, passed to `ui.NewUI`). `processFileWork` then stops handing blocks to
the workers (process.go:127-131) and everything handed over before is still processed and written (`C57_nothing_lost`); the
writers of the indexers also stop copying (`copyLoop`). No command checks the context anywhere else.
-/

namespace Osm.Interrupt
open Osm Osm.Pb Osm.T Osm.Pbf

/-- internal/pbf/process.go:127-135: the blocks handed to the workers; `none`: the run is not cancelled (in time), `some k`:
it is, and `k` blocks were handed over. -/
def handed {α : Type} (cut : Option Nat) (bs : List α) : List α :=
  match cut with
  | none => bs
  | some k => bs.take k

/-- internal/pbf/process.go:61-152, as `Programs.process`, with cancellation. Simplification: the part of the file behind
the blocks handed over is also split into blocks (so this is for files which consist of blocks). -/
def process {α O : Type} (cut : Option Nat) (work : Block → Res O) (inp : String) (output : List O → Prog α) : Prog α := do
  OsOpen inp
  let m ← MMapMap inp
  let bs ← Prog.lift (split m)
  let xs ← Prog.lift (mapRes work (handed cut bs))
  output xs

/-- cmd/decompress/decompress.go:17-43 -/
def decompress (inflate : Inflate) (sched : Block → Sched) (cut : Option Nat) (inp out : String) : Prog Unit :=
  process cut (decompressWork inflate sched) inp (decompressOutput out)

/-- cmd/tagfilter/tagfilter.go:18-46 -/
def tagfilter (inflate : Inflate) (sched : Block → Sched) (cut : Option Nat) (inp out : String) : Prog Nat :=
  process cut (TagFilter.filterWork inflate sched) inp (TagFilter.output out)

/-- cmd/nodeindex/nodeindex.go:18-43. `copyCancelled k`: what the k-th check of the context while copying says. -/
def nodeindex (inflate : Inflate) (sched : Block → Sched) (cut : Option Nat) (chunks : Nat → Nat)
    (copyCancelled : Nat → Bool) (inp out : String) : Prog Unit :=
  process cut (Programs.blockWork inflate sched Programs.nodeReader NodeIndexer.work) inp
    (NodeIndexer.Output out chunks copyCancelled)

/-- cmd/wayindex/wayindex.go:18-43 -/
def wayindex (inflate : Inflate) (sched : Block → Sched) (cut : Option Nat) (chunks : Nat → Nat)
    (copyCancelled : Nat → Bool) (shift : Int64) (inp out : String) : Prog Unit :=
  process cut (Programs.blockWork inflate sched Programs.wayReader (Programs.wayWork shift)) inp
    (WayIndexer.Output out shift chunks copyCancelled)

/-- cmd/relindex/relindex.go:95-149: only the first part looks at the context. -/
def relindex (inflate : Inflate) (sched : Block → Sched) (cut : Option Nat) (passes : Nat) (inp wayIndex out : String) :
    Prog Unit :=
  process cut (Programs.blockWork inflate sched Programs.relReader RelIndex.work) inp
    fun sent => RelIndex.relindex out wayIndex passes sent

/-- cmd/rewritenodes/rewritenodes.go:66-78: one pass. -/
def rewritePass (inflate : Inflate) (sched : Block → Sched) (cut : Option Nat) (si : NodeIndex.SubIdx) (inp out : String) :
    Prog Unit :=
  process cut (Rewrite.rewriteWork inflate sched si) inp (Rewrite.output out)

/-- cmd/rewritenodes/rewritenodes.go:49-80, as `Rewrite.runPasses`: a cancelled pass does not end the loop. `cuts i`: when
pass `i` is cut short (once the context is cancelled each later pass is cut, after any number of blocks: the `select` in
process.go:127-131 chooses at random if a worker is waiting). -/
def rewritePasses (inflate : Inflate) (scheds : Nat → Block → Sched) (cuts : Nat → Option Nat) (ix : NodeIndex.NodeIdx)
    (inp out : String) (n : Nat) : Nat → Nat → Prog Unit
  | 0, _ => .pure ()
  | left + 1, i => do
    Rewrite.removeOld out n i
    let si ← Prog.lift (ix.SubIndex (UInt64.ofNat i) (UInt64.ofNat n))
    rewritePass inflate (scheds i) (cuts i) si (Rewrite.passInput inp out n i) (Rewrite.passOutput out n i)
    rewritePasses inflate scheds cuts ix inp out n left (i + 1)

/-- cmd/rewritenodes/rewritenodes.go:34-84 -/
def rewritenodes (inflate : Inflate) (scheds : Nat → Block → Sched) (cuts : Nat → Option Nat) (memory : Option UInt64)
    (inp index out : String) : Prog Unit := do
  OsOpen index
  let m ← MMapMap index
  let ix ← Prog.lift (NodeIndex.NewNodeIndex m)
  let passes ← Prog.lift (NodeIndex.passCount ix memory)
  rewritePasses inflate scheds cuts ix inp out passes.toNat passes.toNat 0
  Rewrite.removeLast out passes.toNat

/-- nodeindexer_writer.go:15-52 and wayindexer_writer.go:15-57 on the batches received so far: the writer up to its next
receive. -/
def nodeLoop (out : String) (blocks : List (Option NodeIndexer.ElementBatch)) : Prog UInt64 := do
  OsCreate out
  OsCreate (out ++ ".loc.tmp")
  FWriteSliceI64 out [0, 0]
  NodeIndexer.writeBatches out (out ++ ".loc.tmp") 0 0 blocks

/-- See `nodeLoop`. -/
def wayLoop (out : String) (shift : Int64) (blocks : List (Option WayIndexer.IndexElement)) : Prog Int64 := do
  OsCreate out
  OsCreate (out ++ ".loc.tmp")
  FWriteSliceI64 out [0, 0]
  WayIndexer.writeBatches out (out ++ ".loc.tmp") shift 0 0 blocks

end Osm.Interrupt
