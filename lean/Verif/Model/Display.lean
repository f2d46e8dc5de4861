import Verif.Model.NodeIndexer
import Verif.Model.WayIndexer

/-!
# Model of the displayed state of workers and writers

A worker (or writer) announces what it does in variables which only it writes, with `sync/atomic`; the goroutine of the
user interface reads them, one atomic load after another, when it redraws. The atomic operations are sequentially
consistent (The Go Memory Model), so a run is the list of the worker's steps, and a redraw reads its variables at moments
`τ 0 ≤ τ 1 ≤ …` (numbers of steps done). A line is a value here; its text is in Model/TextLines.
The steps which are no writes of such variables are kept as far as they say what the worker really does.
-/

namespace Osm.Display
open Osm

/-- The variables of the `state` packages (cmd/*/*/state/*.go). -/
inductive Var where
  | state | block | way | ways | kept | dropped | filler | copied | total
deriving DecidableEq, Repr

/-- What there is to say about a worker or writer. -/
inductive What where
  | waiting | passing | decoding | decompressing | processing | encoding | sending
  | writing | writingLocations | copying | finalizing
deriving DecidableEq, Repr

/-- A block handed to a worker or writer: whether it is one of the kind it works on, its number, the number of its ways
(cmd/rewritenodes), the numbers of nodes kept and dropped and whether anything is left (cmd/tagfilter), and the number of
index entries made of it (cmd/nodeindex and cmd/wayindex). -/
structure In where
  data : Bool
  index : UInt64
  ways : Nat := 0
  kept : UInt64 := 0
  dropped : UInt64 := 0
  remains : Bool := false
  entries : Nat := 0
deriving DecidableEq, Repr

/-- A step: a block comes out of the channel, a variable is written (`atomic.StoreUint64`, `atomic.AddUint64`), or the
worker does something (with the block of that number). -/
inductive Event where
  | receive (b : In)
  | store (v : Var) (x : UInt64)
  | add (v : Var) (x : UInt64)
  | act (w : What) (index : Option UInt64)
deriving DecidableEq, Repr

/-- The values of the variables. -/
abbrev Mem := Var → UInt64

/-- `sync/atomic` -/
def apply (m : Mem) : Event → Mem
  | .store v x => fun u => if u = v then x else m u
  | .add v x => fun u => if u = v then m v + x else m u
  | _ => m

/-- The variables after the given steps; a new `state.Worker{}` or `state.Writer{}` is all zero. -/
def after (es : List Event) : Mem := es.foldl apply fun _ => 0

/-- A line shown: what, the number of the block, the further numbers. -/
structure Line where
  what : What
  block : Option UInt64 := none
  numbers : List UInt64 := []
deriving DecidableEq, Repr

/-! ## Setters -/

/-- cmd/*/*/state/state_worker.go and state_writer.go: `SetCurrentState` -/
def SetCurrentState (s : UInt64) : List Event := [.store .state s]

/-- `SetStateDecodeBlock` (cmd/nodeindex/indexer/state/state_worker.go:27-30, the same for wayindex and relindex),
`SetStateDecoding` (cmd/rewritenodes/rewriter/state/state_worker.go:33-36, cmd/tagfilter/tagfilterer/state/state_worker.go:33-36),
`SetDecodingBlob` (cmd/decompress/decompressor/state/state_worker.go:28-31), `SetStateWriting`
(cmd/rewritenodes/rewriter/state/state_writer.go:25-28, cmd/tagfilter/tagfilterer/state/state_writer.go:26-29,
cmd/relindex/relindexerinit/state/state_writer.go:27-30), `SetWritingBlock` (cmd/decompress/decompressor/state/state_writer.go:25-28)
and `SetStateWritingIndex` (cmd/nodeindex/indexer/state/state_writer.go:30-33, the same for wayindex): the state is 1 in all
of them. -/
def SetBlock (block : UInt64) : List Event := [.store .block block, .store .state 1]

/-- cmd/rewritenodes/rewriter/state/state_worker.go:38-42 -/
def SetStateWorking (wayCount : Nat) : List Event :=
  [.store .ways (UInt64.ofNat wayCount), .store .way 0, .store .state 2]

/-- cmd/rewritenodes/rewriter/state/state_worker.go:44-46 -/
def NextWay : List Event := [.add .way 1]

/-- cmd/nodeindex/indexer/state/state_writer.go:35-38, cmd/wayindex/wayindexer/state/state_writer.go:35-38 -/
def SetStateCopyLocations (sz : UInt64) : List Event := [.store .total sz, .store .state 3]

/-! ## Workers -/

/-- cmd/nodeindex/indexer/nodeindexer_worker.go:32-109, cmd/wayindex/wayindexer/wayindexer_worker.go:37-97 and
cmd/relindex/relindexerinit/relindexer_worker.go:28-76: one round of the loop. -/
def indexRound (b : In) : List Event :=
  if !b.data then [.receive b, .act .passing none, .act .waiting none]
  else [.receive b] ++ SetBlock b.index ++ [.act .decoding (some b.index)] ++
    SetCurrentState 2 ++ [.act .processing (some b.index)] ++
    SetCurrentState 3 ++ [.act .sending (some b.index)] ++
    SetCurrentState 0 ++ [.act .waiting none]

/-- cmd/nodeindex/indexer/nodeindexer_worker.go:31-110, cmd/wayindex/wayindexer/wayindexer_worker.go:36-98 and
cmd/relindex/relindexerinit/relindexer_worker.go:27-77 -/
def indexWorker (blocks : List In) : List Event :=
  SetCurrentState 0 ++ [.act .waiting none] ++ blocks.flatMap indexRound

/-- cmd/decompress/decompressor/decompressor_worker.go:22-59: one round of the loop. -/
def decompressRound (b : In) : List Event :=
  [.receive b] ++ SetBlock b.index ++ [.act .decoding (some b.index)] ++
    SetCurrentState 2 ++ [.act .decompressing (some b.index)] ++
    SetCurrentState 3 ++ [.act .encoding (some b.index)] ++
    SetCurrentState 4 ++ [.act .sending (some b.index)] ++
    SetCurrentState 0 ++ [.act .waiting none]

/-- cmd/decompress/decompressor/decompressor_worker.go:16-60 -/
def decompressWorker (blocks : List In) : List Event :=
  [.act .waiting none] ++ blocks.flatMap decompressRound

/-- cmd/tagfilter/tagfilterer/tagfilterer_worker.go:99-103 -/
def sendBlock (index : UInt64) : List Event :=
  SetCurrentState 4 ++ [.act .sending (some index)] ++ SetCurrentState 0 ++ [.act .waiting none]

/-- cmd/tagfilter/tagfilterer/tagfilterer_worker.go:128-195: one round of the loop. -/
def tagfilterRound (b : In) : List Event :=
  if !b.data then [.receive b] ++ sendBlock b.index
  else [.receive b] ++ SetBlock b.index ++ [.act .decoding (some b.index)] ++
    SetCurrentState 2 ++ [.act .processing (some b.index), .add .kept b.kept, .add .dropped b.dropped] ++
    (if b.remains then SetCurrentState 3 ++ [.act .encoding (some b.index)] else []) ++ sendBlock b.index

/-- cmd/tagfilter/tagfilterer/tagfilterer_worker.go:126-207 -/
def tagfilterWorker (blocks : List In) : List Event :=
  [.act .waiting none] ++ blocks.flatMap tagfilterRound

/-- cmd/rewritenodes/rewriter/noderewriter_worker.go:27-91: one round of the loop. -/
def rewriteRound (b : In) : List Event :=
  if !b.data then [.receive b, .act .passing none, .act .waiting none]
  else [.receive b] ++ SetBlock b.index ++ [.act .decoding (some b.index)] ++
    (if b.ways = 0 then []
     else SetStateWorking b.ways ++
       (List.replicate b.ways (NextWay ++ [.act .processing (some b.index)])).flatten) ++
    SetCurrentState 3 ++ [.act .sending (some b.index)] ++
    SetCurrentState 0 ++ [.act .waiting none]

/-- cmd/rewritenodes/rewriter/noderewriter_worker.go:27-92 -/
def rewriteWorker (blocks : List In) : List Event :=
  [.act .waiting none] ++ blocks.flatMap rewriteRound

/-! ## Writers -/

/-- cmd/decompress/decompressor/decompressor_writer.go:16-20: one round of the loop. -/
def decompressWriteRound (b : In) : List Event :=
  [.receive b] ++ SetBlock b.index ++ [.act .writing (some b.index)] ++ SetCurrentState 0 ++ [.act .waiting none]

/-- cmd/decompress/decompressor/decompressor_writer.go:14-20 -/
def decompressWriter (blocks : List In) : List Event :=
  SetCurrentState 0 ++ [.act .waiting none] ++ blocks.flatMap decompressWriteRound

/-- cmd/relindex/relindexerinit/relindexer_writer.go:16-23: one round of the loop. -/
def relWriteRound (b : In) : List Event :=
  if !b.data then [.receive b, .act .waiting none]
  else [.receive b] ++ SetBlock b.index ++ [.act .writing (some b.index)] ++ SetCurrentState 0 ++ [.act .waiting none]

/-- cmd/relindex/relindexerinit/relindexer_writer.go:15-23 -/
def relWriter (blocks : List In) : List Event :=
  SetCurrentState 0 ++ [.act .waiting none] ++ blocks.flatMap relWriteRound

/-- cmd/rewritenodes/rewriter/noderewriter_writer.go:20-40: one round of the loop. -/
def rewriteWriteRound (b : In) : List Event :=
  [.receive b] ++ SetBlock b.index ++ [.act .writing (some b.index)] ++ SetCurrentState 0 ++ [.act .waiting none]

/-- cmd/rewritenodes/rewriter/noderewriter_writer.go:20-40 -/
def rewriteWriter (blocks : List In) : List Event :=
  [.act .waiting none] ++ blocks.flatMap rewriteWriteRound

/-- cmd/tagfilter/tagfilterer/tagfilterer_writer.go:20-46: one round of the loop. -/
def tagfilterWriteRound (b : In) : List Event :=
  if !b.data then [.receive b, .add .filler 1, .act .waiting none]
  else [.receive b] ++ SetBlock b.index ++ [.act .writing (some b.index)] ++ SetCurrentState 0 ++ [.act .waiting none]

/-- cmd/tagfilter/tagfilterer/tagfilterer_writer.go:20-46; `data`: the block is no "Filler". -/
def tagfilterWriter (blocks : List In) : List Event :=
  [.act .waiting none] ++ blocks.flatMap tagfilterWriteRound

/-- cmd/nodeindex/indexer/nodeindexer_writer.go:50-68 and cmd/wayindex/wayindexer/wayindexer_writer.go:56-75; `chunks`: how
many bytes each `FCopy` copied (until it copied none, or the run was cancelled). -/
def copyEvents (total : UInt64) (chunks : List Nat) : List Event :=
  SetStateCopyLocations total ++ [.act .copying none] ++
    chunks.flatMap (fun n => [.add .copied (UInt64.ofNat n), .act .copying none]) ++
    SetCurrentState 4 ++ [.act .finalizing none]

/-- cmd/nodeindex/indexer/nodeindexer_writer.go:27-48: one round of the loop. -/
def nodeWriteRound (b : In) : List Event :=
  if !b.data then [.receive b, .act .waiting none]
  else [.receive b] ++ SetBlock (UInt64.ofNat b.entries) ++ [.act .writing (some b.index)] ++
    SetCurrentState 2 ++ [.act .writingLocations (some b.index)] ++ SetCurrentState 0 ++ [.act .waiting none]

/-- cmd/nodeindex/indexer/nodeindexer_writer.go:26-68 -/
def nodeWriter (blocks : List In) (total : UInt64) (chunks : List Nat) : List Event :=
  SetCurrentState 0 ++ [.act .waiting none] ++
    blocks.flatMap nodeWriteRound ++ copyEvents total chunks

/-- cmd/wayindex/wayindexer/wayindexer_writer.go:30-52: one round of the loop. -/
def wayWriteRound (b : In) : List Event :=
  if !b.data then [.receive b, .act .waiting none]
  else [.receive b] ++ SetBlock (UInt64.ofNat b.entries) ++ [.act .writing (some b.index)] ++
    SetCurrentState 0 ++ [.act .waiting none]

/-- cmd/wayindex/wayindexer/wayindexer_writer.go:29-75 -/
def wayWriter (blocks : List In) (total : UInt64) (chunks : List Nat) : List Event :=
  SetCurrentState 0 ++ [.act .waiting none] ++
    blocks.flatMap wayWriteRound ++ copyEvents total chunks

/-- cmd/nodeindex/indexer/nodeindexer_writer.go:23, 34-43, 51: `8 * lastLocationIndex` after the given batches. -/
def nodeTotal (batches : List (Option NodeIndexer.ElementBatch)) : UInt64 :=
  8 * (batches.flatMap fun b => match b with
    | none => []
    | some e => e.ranges).foldl (fun (last : UInt64) (r : NodeIndexer.IndexRange) => last + (r.last - r.first + 1)) 0

/-- cmd/wayindex/wayindexer/wayindexer_writer.go:24-25, 49: `locationLength` after the given elements. -/
def wayLength (shift : Int64) : Int64 → List (Option WayIndexer.IndexElement) → Res Int64
  | len, [] => .ok len
  | len, none :: es => wayLength shift len es
  | len, some e :: es => do
    let n ← WayIndexer.lenShr e.locations.length shift
    wayLength shift (len + n) es

/-- cmd/wayindex/wayindexer/wayindexer_writer.go:56 with cmd/wayindex/wayindexer/state/state_writer.go:35-36:
`uint64(locationLength << locationAlignmentShift)`. -/
def wayTotal (shift : Int64) (elements : List (Option WayIndexer.IndexElement)) : Res UInt64 := do
  let len ← wayLength shift 0 elements
  let t ← WayIndex.goShl len shift
  .ok t.toUInt64

/-! ## Widgets: `m k` are the variables at the moment of the `k`-th load. `none`: the text is left as it was. -/

/-- cmd/nodeindex/indexer/widget/widget_state_worker.go:26-37 (the same for wayindex and relindex) -/
def indexWorkerLine (m : Nat → Mem) : Option Line :=
  match (m 0 .state).toNat with
  | 0 => some { what := .waiting }
  | 1 => some { what := .decoding, block := some (m 1 .block) }
  | 2 => some { what := .processing, block := some (m 1 .block) }
  | 3 => some { what := .sending, block := some (m 1 .block) }
  | _ => none

/-- cmd/decompress/decompressor/widget/widget_state_worker.go:26-39 -/
def decompressWorkerLine (m : Nat → Mem) : Option Line :=
  match (m 0 .state).toNat with
  | 0 => some { what := .waiting }
  | 1 => some { what := .decoding, block := some (m 1 .block) }
  | 2 => some { what := .decompressing, block := some (m 1 .block) }
  | 3 => some { what := .encoding, block := some (m 1 .block) }
  | 4 => some { what := .sending, block := some (m 1 .block) }
  | _ => none

/-- cmd/tagfilter/tagfilterer/widget/widget_state_worker.go:26-39 -/
def tagfilterWorkerLine (m : Nat → Mem) : Option Line :=
  match (m 0 .state).toNat with
  | 0 => some { what := .waiting }
  | 1 => some { what := .decoding, block := some (m 1 .block), numbers := [m 2 .kept, m 3 .dropped] }
  | 2 => some { what := .processing, block := some (m 1 .block), numbers := [m 2 .kept, m 3 .dropped] }
  | 3 => some { what := .encoding, block := some (m 1 .block), numbers := [m 2 .kept, m 3 .dropped] }
  | 4 => some { what := .sending, block := some (m 1 .block), numbers := [m 2 .kept, m 3 .dropped] }
  | _ => none

/-- cmd/rewritenodes/rewriter/widget/widget_state_worker.go:27-51 -/
def rewriteWorkerLine (m : Nat → Mem) : Option Line :=
  match (m 0 .state).toNat with
  | 0 => some { what := .waiting }
  | 1 => some { what := .decoding, block := some (m 1 .block) }
  | 2 => some { what := .processing, block := some (m 3 .block), numbers := [m 1 .way, m 2 .ways] }
  | 3 => some { what := .sending, block := some (m 1 .block) }
  | _ => none

/-- cmd/decompress/decompressor/widget/widget_state_writer.go:26-34, cmd/rewritenodes/rewriter/widget/widget_state_writer.go:26-34
and cmd/relindex/relindexerinit/widget/widget_state_writer.go:26-33 -/
def blockWriterLine (m : Nat → Mem) : Option Line :=
  match (m 0 .state).toNat with
  | 0 => some { what := .waiting }
  | 1 => some { what := .writing, block := some (m 1 .block) }
  | _ => none

/-- cmd/tagfilter/tagfilterer/widget/widget_state_writer.go:26-33: "dropped %d/%d blocks" -/
def tagfilterWriterLine (m : Nat → Mem) : Option Line :=
  match (m 0 .state).toNat with
  | 0 => some { what := .waiting, numbers := [m 1 .filler, m 2 .block] }
  | 1 => some { what := .writing, numbers := [m 1 .filler, m 2 .block] }
  | _ => none

/-- cmd/nodeindex/indexer/widget/widget_state_writer.go:27-45 (the same for wayindex) -/
def indexWriterLine (m : Nat → Mem) : Option Line :=
  match (m 0 .state).toNat with
  | 0 => some { what := .waiting }
  | 1 => some { what := .writing, block := some (m 1 .block) }
  | 2 => some { what := .writingLocations }
  | 3 => some { what := .copying, numbers := [m 1 .copied, m 2 .total] }
  | 4 => some { what := .finalizing }
  | _ => none

end Osm.Display
