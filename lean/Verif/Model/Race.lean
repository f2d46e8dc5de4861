import Verif.Model.Pbf
import Verif.Spec.Race

/-!
# Model of the memory accesses and the synchronization of ProcessFileAsync

The goroutines of `Model/Pbf.lean`, with a record of the events of the Go memory model (`Spec/Race.lean`): which goroutine
sends, receives, closes, waits, and which memory it accesses. The steps of the pipeline record the synchronization; memory
accesses are steps of their own, that a goroutine may make as often as it likes while it is in the part of its code that
makes them. That allows more executions than the program has, and forgets some of what orders them (the position of an
access within an iteration, the mutex of the tracker, the context).

The state words of workers and writers (cmd/*/*/state/*.go) and the list of the tracker (internal/tracker) share no memory
with this; they are in `Model/RaceTracker.lean`. Not included: the terminal library's own memory.
-/

namespace Osm.Race
open Osm Osm.T Osm.Pbf Osm.Spec.Race

/-- The goroutines. -/
inductive Thread where
  /-- The one that calls `ProcessFileAsync` and `Wait`: `main()` of a command. -/
  | caller
  /-- internal/pbf/process.go:61-152: `processFileWork`. -/
  | main
  /-- internal/pbf/process.go:94-97, the `k`-th. -/
  | worker (k : Nat)
  /-- internal/pbf/process.go:87. -/
  | reorder
  /-- internal/pbf/process.go:80-83. -/
  | writer
  /-- The event loop of the terminal library, which updates the widgets. -/
  | ui
deriving DecidableEq

/-- Memory. -/
inductive Loc where
  /-- The bytes of the mapped input file. Unmapping them is a write. -/
  | input
  /-- What the caller hands to all workers and the writer: an index, a set of ids, the options. -/
  | given
  /-- What a worker sends for the `m`-th block, and everything reachable from there. -/
  | result (m : Nat)
  /-- The counters of entitycount and blockcount, and the statistics of an index. -/
  | total (v : Nat)
  /-- What only one goroutine uses: its local variables, the reorderer's map, the writer's files. -/
  | own (t : Thread)
  /-- `pfs.max` -/
  | size
  /-- `pfs.at` -/
  | position
  /-- `pfs.currentState` -/
  | state
  /-- The memory of a pooled buffer, internal/pool/bytebuffer.go. -/
  | buffer (n : Nat)
deriving DecidableEq

/-- Channels, wait groups and pooled buffers. -/
inductive Obj where
  /-- `chInputBlobs` -/
  | blocks
  /-- `chReorderBlobs` -/
  | results
  /-- `chOutputBlobs` -/
  | ordered
  /-- `pfs.done` -/
  | finished
  /-- The event queue of the terminal. -/
  | events
  /-- `wgWorker` -/
  | workers
  /-- `wgReorder` -/
  | reorder
  /-- `wgWriter` -/
  | writer
  /-- A buffer that goes through the pool. -/
  | buffer (n : Nat)
deriving DecidableEq

abbrev Ev := Event Thread Loc Obj
abbrev Trace := List Ev

variable {O : Type}

/-- The steps of `Pbf.Step'` with the synchronization that they consist of. -/
inductive Moves (c : Cfg O) : St O → Trace → St O → Prop where
  | cancel {s} : s.cancelled = false → Moves c s [] { s with cancelled := true }
  | load {s size} : s.main = .load → s.pos < c.file.length → headerSize c.file s.pos = .ok size →
      Moves c s [] { s with main := .header size, pos := s.pos + 4 }
  | loadPanic {s} : s.main = .load → s.pos < c.file.length → headerSize c.file s.pos = .panic →
      Moves c s [] { s with crashed := true }
  | loadEnd {s} : s.main = .load → ¬ s.pos < c.file.length → Moves c s [] { s with main := .closeIn }
  | header {s size bh} : s.main = .header size → readHeader c.file s.pos size = .ok bh →
      Moves c s [] { s with main := .data bh, pos := s.pos + size }
  | headerPanic {s size} : s.main = .header size → readHeader c.file s.pos size = .panic →
      Moves c s [] { s with crashed := true }
  | data {s bh b} : s.main = .data bh → readData c.file s.pos s.index bh = .ok b →
      Moves c s [] { s with main := .send b (dataSize bh) }
  | dataPanic {s bh} : s.main = .data bh → readData c.file s.pos s.index bh = .panic →
      Moves c s [] { s with crashed := true }
  /-- internal/pbf/process.go:130: the worker at this place in the list receives. -/
  | handOver {s b size l1 t l2} : s.main = .send b size → s.workers = l1 ++ ⟨.idle, t⟩ :: l2 →
      Moves c s [⟨.main, .send .blocks⟩, ⟨.worker l1.length, .recv .blocks⟩]
        { s with main := .load, pos := s.pos + size, index := s.index + 1,
                 workers := l1 ++ ⟨.busy b, t ++ [b]⟩ :: l2, sent := s.sent ++ [b] }
  | abort {s b size} : s.main = .send b size → s.cancelled = true → Moves c s [] { s with main := .closeIn }
  /-- internal/pbf/process.go:139 -/
  | closeIn {s} : s.main = .closeIn →
      Moves c s [⟨.main, .close .blocks⟩] { s with main := .waitWorkers, inClosed := true }
  /-- internal/pbf/process.go:140 -/
  | workersDone {s} : s.main = .waitWorkers → (∀ w ∈ s.workers, w.pc = .exited) →
      Moves c s [⟨.main, .wait .workers⟩] { s with main := if c.hasWriter then .closeReorder else .unmap }
  /-- internal/pbf/process.go:142 -/
  | closeReorder {s} : s.main = .closeReorder →
      Moves c s [⟨.main, .close .results⟩] { s with main := .waitReorder, reorderClosed := true }
  /-- internal/pbf/process.go:143 -/
  | reorderDone {s} : s.main = .waitReorder → s.reorder = .exited →
      Moves c s [⟨.main, .wait .reorder⟩] { s with main := .closeOut }
  /-- internal/pbf/process.go:146 -/
  | closeOut {s} : s.main = .closeOut →
      Moves c s [⟨.main, .close .ordered⟩] { s with main := .waitWriter, outClosed := true }
  /-- internal/pbf/process.go:147 -/
  | writerDone {s} : s.main = .waitWriter → s.writer = .exited →
      Moves c s [⟨.main, .wait .writer⟩] { s with main := .unmap }
  /-- internal/pbf/process.go:149-151 -/
  | unmap {s} : s.main = .unmap →
      Moves c s [⟨.main, .write .input⟩, ⟨.main, .close .finished⟩] { s with main := .done, mapped := false }
  | work {s b t l1 l2 o} : s.workers = l1 ++ ⟨.busy b, t⟩ :: l2 → c.work b = .ok o →
      Moves c s [] { s with workers := l1 ++ ⟨if c.hasWriter then .sending b.Index o else .idle, t⟩ :: l2 }
  | workPanic {s b t l1 l2} : s.workers = l1 ++ ⟨.busy b, t⟩ :: l2 → c.work b = .panic →
      Moves c s [] { s with crashed := true }
  /-- internal/pbf/process.go:95-96 -/
  | workerExit {s t l1 l2} : s.workers = l1 ++ ⟨.idle, t⟩ :: l2 → s.inClosed = true →
      Moves c s [⟨.worker l1.length, .recvClosed .blocks⟩, ⟨.worker l1.length, .done .workers⟩]
        { s with workers := l1 ++ ⟨.exited, t⟩ :: l2 }
  /-- internal/pbf/reorder.go:20 -/
  | toReorder {s i o t l1 l2 rob next} : s.workers = l1 ++ ⟨.sending i o, t⟩ :: l2 →
      s.reorder = .recv rob next →
      Moves c s [⟨.worker l1.length, .send .results⟩, ⟨.reorder, .recv .results⟩]
        { s with workers := l1 ++ ⟨.idle, t⟩ :: l2, reorder := .check (rob.insert i o) next,
                 seen := s.seen ++ [(i, o)] }
  | popSome {s rob next o rob'} : s.reorder = .check rob next → rob.pop next = some (o, rob') →
      Moves c s [] { s with reorder := .send rob' (next + 1) o }
  | popNone {s rob next} : s.reorder = .check rob next → rob.pop next = none →
      Moves c s [] { s with reorder := .recv rob next }
  /-- internal/pbf/reorder.go:24 -/
  | toWriter {s rob next o} : s.reorder = .send rob next o → s.writer = .recv →
      Moves c s [⟨.reorder, .send .ordered⟩, ⟨.writer, .recv .ordered⟩]
        { s with reorder := .check rob next, writer := .busy, got := s.got ++ [o] }
  /-- internal/pbf/reorder.go:20, 30 -/
  | reorderExit {s rob next} : s.reorder = .recv rob next → s.reorderClosed = true → rob.length = 0 →
      Moves c s [⟨.reorder, .recvClosed .results⟩, ⟨.reorder, .done .reorder⟩] { s with reorder := .exited }
  | reorderPanic {s rob next} : s.reorder = .recv rob next → s.reorderClosed = true → rob.length ≠ 0 →
      Moves c s [] { s with crashed := true }
  | write {s} : s.writer = .busy → c.write s.got = .ok () → Moves c s [] { s with writer := .recv }
  | writePanic {s} : s.writer = .busy → c.write s.got = .panic → Moves c s [] { s with crashed := true }
  /-- internal/pbf/process.go:81-82 -/
  | writerExit {s} : s.writer = .recv → s.outClosed = true → c.finish s.got = .ok () →
      Moves c s [⟨.writer, .recvClosed .ordered⟩, ⟨.writer, .done .writer⟩] { s with writer := .exited }
  | writerExitPanic {s} : s.writer = .recv → s.outClosed = true → c.finish s.got = .panic →
      Moves c s [] { s with crashed := true }

/-- A run, with its events. -/
structure Run (O : Type) where
  pipe : St O
  /-- `processFileWork` has got to internal/pbf/process.go:102. -/
  ready : Bool
  /-- The widgets are shown: `ReplaceWidgets` has run in the terminal's goroutine. -/
  shown : Bool
  /-- The terminal's goroutine has last seen a state other than `ProcessFileStateInitializing`. -/
  saw : Bool
  /-- `Wait` has returned. -/
  waited : Bool
  /-- The buffers in the pool. -/
  pool : List Nat
  /-- Which worker has which buffers. -/
  held : List (Nat × Nat)
  /-- The buffers made so far. -/
  fresh : Nat
  trace : Trace

/-- The pipeline's goroutines that have been started and not ended. -/
def Alive (s : St O) : Thread → Prop
  | .main => s.main ≠ .done
  | .worker k => ∃ w, s.workers[k]? = some w ∧ w.pc ≠ .exited
  | .reorder => s.reorder ≠ .exited
  | .writer => s.writer ≠ .exited
  | _ => False

/-- The memory accesses that the goroutines make. -/
inductive Touches (r : Run O) : Thread → Act Thread Loc Obj → Prop where
  /-- Whoever is running uses its own memory. -/
  | ownRead {t} : Alive r.pipe t ∨ t = .caller ∨ t = .ui → Touches r t (.read (.own t))
  | ownWrite {t} : Alive r.pipe t ∨ t = .caller ∨ t = .ui → Touches r t (.write (.own t))
  /-- internal/pbf/process.go:109, 112 -/
  | headerRead : r.ready = true → r.pipe.main ≠ .unmap → r.pipe.main ≠ .done → Touches r .main (.read .input)
  /-- Workers decode the blocks they got, or pass them on. -/
  | workerInput {k} : Alive r.pipe (.worker k) → Touches r (.worker k) (.read .input)
  /-- Writers write blocks that were passed on (noderewriter_writer.go:38, tagfilterer_writer.go:43). -/
  | writerInput : Alive r.pipe .writer → Touches r .writer (.read .input)
  /-- `ix.FindNode` (noderewriter_worker.go:68), the id sets and options of the other workers. -/
  | workerGiven {k} : Alive r.pipe (.worker k) → Touches r (.worker k) (.read .given)
  | writerGiven : Alive r.pipe .writer → Touches r .writer (.read .given)
  | callerGiven : Touches r .caller (.read .given)
  /-- A worker builds its answer. -/
  | buildRead {k w b} : r.pipe.workers[k]? = some w → w.pc = .busy b → Touches r (.worker k) (.read (.result b.Index))
  | buildWrite {k w b} : r.pipe.workers[k]? = some w → w.pc = .busy b → Touches r (.worker k) (.write (.result b.Index))
  /-- The writer uses what it has received. -/
  | useRead {m} : Alive r.pipe .writer → m < r.pipe.got.length → Touches r .writer (.read (.result m))
  | useWrite {m} : Alive r.pipe .writer → m < r.pipe.got.length → Touches r .writer (.write (.result m))
  /-- cmd/entitycount/entitycount.go:17-21, 82-90; cmd/blockcount/blockcount.go:20; nodesubindex.go:32, 45, 67, 71, 97. -/
  | countRead {k v} : Alive r.pipe (.worker k) → Touches r (.worker k) (.atomicRead (.total v))
  | countWrite {k v} : Alive r.pipe (.worker k) → Touches r (.worker k) (.atomicWrite (.total v))
  /-- A worker decodes into a buffer from the pool, and reads it (internal/t/blob.go:76-94). -/
  | bufferRead {k n} : Alive r.pipe (.worker k) → (k, n) ∈ r.held → Touches r (.worker k) (.read (.buffer n))
  | bufferWrite {k n} : Alive r.pipe (.worker k) → (k, n) ∈ r.held → Touches r (.worker k) (.write (.buffer n))
  /-- internal/pbf/process.go:107, 109, 112, 121: `pfs.at`, by the goroutine that writes it. -/
  | positionRead : r.ready = true → r.pipe.main ≠ .done → Touches r .main (.read .position)
  /-- internal/pbf/process.go:110, 113, 134 -/
  | positionWrite : r.ready = true → r.pipe.main ≠ .done → Touches r .main (.atomicWrite .position)
  /-- internal/pbf/process.go:107 -/
  | sizeRead : r.ready = true → r.pipe.main ≠ .done → Touches r .main (.read .size)
  /-- internal/pbf/process.go:108, 125, 138: `SetState`. -/
  | stateWrite : r.ready = true → r.pipe.main ≠ .done → Touches r .main (.atomicWrite .state)
  /-- internal/ui/widget/widget_pass_progress.go:35, widget_process_state.go:36 -/
  | uiPosition : r.shown = true → Touches r .ui (.atomicRead .position)
  /-- internal/ui/widget/widget_process_state.go:28-37: not before another state than `Initializing` was seen. -/
  | uiSize : r.shown = true → r.saw = true → Touches r .ui (.read .size)
  /-- After `Wait`: entitycount.go:111-115, rewritenodes.go:88-90 (`PrintStats`, `Close`), the next pass. -/
  | laterRead {l} : r.waited = true → (∀ n, l ≠ .buffer n) → l ≠ .size → l ≠ .position → l ≠ .state → l ≠ .own .ui →
      Touches r .caller (.read l)
  | laterWrite {l} : r.waited = true → (∀ n, l ≠ .buffer n) → l ≠ .size → l ≠ .position → l ≠ .state → l ≠ .own .ui →
      Touches r .caller (.write l)

/-- The state has been stored. Only `processFileWork` stores it, and never `Initializing`. -/
def stored (tr : Trace) : Bool := tr.any fun e => decide (e.act = .atomicWrite .state)

/-- The steps of a run. `passWidget`: the command shows `PassProgress` (only rewritenodes does, rewritenodes.go:74), which
looks at the size of the file whatever the state is. -/
inductive RStep (c : Cfg O) (passWidget : Bool) : Run O → Run O → Prop where
  /-- A step of the pipeline. Before internal/pbf/process.go:102 `processFileWork` does not get on. -/
  | pipe {r evs s'} : Moves c r.pipe evs s' → (r.ready = true ∨ s'.main = r.pipe.main) →
      RStep c passWidget r { r with pipe := s', trace := r.trace ++ evs }
  /-- internal/pbf/process.go:100-101 -/
  | setup {r} : r.ready = false →
      RStep c passWidget r
        { r with ready := true, trace := r.trace ++ [⟨.main, .atomicWrite .position⟩, ⟨.main, .write .size⟩] }
  /-- A memory access. -/
  | touch {r t a} : Touches r t a → RStep c passWidget r { r with trace := r.trace ++ [⟨t, a⟩] }
  /-- internal/ui/ui.go:103-116: the caller puts the widgets into the event queue, the terminal's goroutine takes them. -/
  | attach {r} : r.shown = false →
      RStep c passWidget r
        { r with shown := true, trace := r.trace ++ [⟨.caller, .send .events⟩, ⟨.ui, .recv .events⟩] }
  /-- internal/ui/widget/widget_process_state.go:28 -/
  | look {r} : r.shown = true →
      RStep c passWidget r { r with saw := stored r.trace, trace := r.trace ++ [⟨.ui, .atomicRead .state⟩] }
  /-- internal/ui/widget/widget_pass_progress.go:35 -/
  | passSize {r} : passWidget = true → r.shown = true →
      RStep c passWidget r { r with trace := r.trace ++ [⟨.ui, .read .size⟩] }
  /-- internal/pbf/process.go:53-55 -/
  | wait {r} : r.pipe.main = .done → r.waited = false →
      RStep c passWidget r { r with waited := true, trace := r.trace ++ [⟨.caller, .recvClosed .finished⟩] }
  /-- internal/pool/bytebuffer.go:33: a buffer from the pool. -/
  | getPooled {r k p1 n p2} : Alive r.pipe (.worker k) → r.pool = p1 ++ n :: p2 →
      RStep c passWidget r { r with pool := p1 ++ p2, held := (k, n) :: r.held,
                                    trace := r.trace ++ [⟨.worker k, .get (.buffer n)⟩] }
  /-- internal/pool/bytebuffer.go:20-22, 36: a new buffer. -/
  | getNew {r k} : Alive r.pipe (.worker k) →
      RStep c passWidget r { r with fresh := r.fresh + 1, held := (k, r.fresh) :: r.held }
  /-- internal/pool/bytebuffer.go:47 -/
  | put {r k h1 n h2} : Alive r.pipe (.worker k) → r.held = h1 ++ (k, n) :: h2 →
      RStep c passWidget r { r with pool := n :: r.pool, held := h1 ++ h2,
                                    trace := r.trace ++ [⟨.worker k, .put (.buffer n)⟩] }
  /-- The garbage collector empties the pool. -/
  | evict {r p1 n p2} : r.pool = p1 ++ n :: p2 → RStep c passWidget r { r with pool := p1 ++ p2 }

/-- internal/pbf/process.go:90-98: the workers are started. -/
def startWorkers (n : Nat) : Trace :=
  (List.range n).flatMap fun k => [⟨.main, .go (.worker k)⟩, ⟨.worker k, .start⟩]

/-- internal/pbf/process.go:77-88 -/
def startWriter : Trace := [⟨.main, .go .writer⟩, ⟨.writer, .start⟩, ⟨.main, .go .reorder⟩, ⟨.reorder, .start⟩]

/-- internal/pbf/process.go:161-172, 68-98: everything is started, after the caller made the accesses `before`. -/
def opening (c : Cfg O) (workers : Nat) (before : Trace) : Trace :=
  before ++ [⟨.caller, .write .state⟩, ⟨.caller, .go .main⟩, ⟨.main, .start⟩, ⟨.main, .write .input⟩]
    ++ (if c.hasWriter then startWriter else []) ++ startWorkers workers

/-- What the caller may do before it calls `ProcessFileAsync`: use what it hands over, the totals and its own memory. -/
def Prepares (before : Trace) : Prop :=
  ∀ e ∈ before, e.thread = .caller ∧ ∃ l, (l = .given ∨ (∃ v, l = .total v) ∨ l = .own .caller) ∧
    (e.act = .read l ∨ e.act = .write l)

/-- The beginning of a run. -/
def Run.init (c : Cfg O) (workers : Nat) (before : Trace) : Run O where
  pipe := St.init c workers
  ready := false
  shown := false
  saw := false
  waited := false
  pool := []
  held := []
  fresh := 0
  trace := opening c workers before

/-- All runs. -/
inductive Reachable (c : Cfg O) (passWidget : Bool) (workers : Nat) : Run O → Prop where
  | init {before} : Prepares before → Reachable c passWidget workers (Run.init c workers before)
  | step {r r'} : Reachable c passWidget workers r → r.pipe.crashed = false → RStep c passWidget r r' →
      Reachable c passWidget workers r'

end Osm.Race
