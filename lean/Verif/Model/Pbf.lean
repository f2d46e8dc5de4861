import Verif.Model.T

/-!
# Model of internal/pbf/process.go and internal/pbf/reorder.go

The split of a file into blocks, the reorderer, and the goroutines of `ProcessFileAsync` as a transition
system: one transition per channel operation, wait or local computation, interleaved arbitrarily. All
channels are unbuffered, so a send and its receive are one transition. A panic in any goroutine ends the
process (`crashed`).

Simplifications: block indices are `Nat` (a block takes at least four bytes, so the `uint64` counter cannot
wrap); the UI's state word (`SetState`) is left out; the position `at` is advanced over a block's data in the
same transition that hands the block over (process.go:127-134 does it just after).
-/

namespace Osm.Pbf
open Osm Osm.Pb Osm.T

/-- "OSMHeader" -/
def osmHeader : GoStr := [79, 83, 77, 72, 101, 97, 100, 101, 114]
/-- "OSMData" -/
def osmData : GoStr := [79, 83, 77, 68, 97, 116, 97]

/-- internal/pbf/process.go:13-17, for blocks read from the file (`BlobType` is `Kind`). -/
structure Block where
  Index : Nat
  Data : Slice
  Kind : GoStr
deriving DecidableEq, Repr

/-- `binary.BigEndian.Uint32` -/
def beWord (b0 b1 b2 b3 : UInt8) : UInt32 :=
  b3.toUInt32 ||| b2.toUInt32 <<< 8 ||| b1.toUInt32 <<< 16 ||| b0.toUInt32 <<< 24

/-- internal/pbf/process.go:109: the size of the blob header at `pos`. -/
def headerSize (file : List UInt8) (pos : Nat) : Res Nat :=
  match file.drop pos with
  | b0 :: b1 :: b2 :: b3 :: _ => .ok (beWord b0 b1 b2 b3).toNat
  | _ => .panic

/-- internal/pbf/process.go:112-117: the blob header of `size` bytes at `pos`. The mapping's capacity is its
length. -/
def readHeader (file : List UInt8) (pos size : Nat) : Res BlobHeader := do
  let buf ← (Slice.full file).sub pos ((pos + size) % 2 ^ 64 : Nat)
  let bh ← ReadBlobHeader buf
  if bh.Kind ≠ osmHeader ∧ bh.Kind ≠ osmData then .panic else .ok bh

/-- `uint64(bh.DataSize)`: a negative size becomes huge. -/
def dataSize (bh : BlobHeader) : Nat := bh.DataSize.toInt64.toUInt64.toNat

/-- internal/pbf/process.go:119-123: the block whose data is at `pos`. -/
def readData (file : List UInt8) (pos i : Nat) (bh : BlobHeader) : Res Block := do
  let buf ← (Slice.full file).sub pos ((pos + dataSize bh) % 2 ^ 64 : Nat)
  .ok ⟨i, buf, bh.Kind⟩

/-- One round of internal/pbf/process.go:107-135 without the hand-over: the block at `pos` and the position
behind it. -/
def nextBlock (file : List UInt8) (pos i : Nat) : Res (Block × Nat) := do
  let size ← headerSize file pos
  let bh ← readHeader file (pos + 4) size
  let b ← readData file (pos + 4 + size) i bh
  .ok (b, pos + 4 + size + dataSize bh)

/-- internal/pbf/process.go:107-135 run to the end of the file: all its blocks. `fuel` bounds the rounds. -/
def splitLoop (file : List UInt8) : Nat → Nat → Nat → Res (List Block)
  | 0, _, _ => .hang
  | fuel + 1, pos, i =>
    if pos < file.length then do
      let r ← nextBlock file pos i
      let bs ← splitLoop file fuel r.2 (i + 1)
      .ok (r.1 :: bs)
    else .ok []

/-- internal/pbf/process.go:68-69, 100-135: the blocks of a file. An empty file cannot be mapped. -/
def split (file : List UInt8) : Res (List Block) :=
  if file = [] then .panic else splitLoop file (file.length + 1) 0 0

/-- The `blobHeaderBuf` of cmd/rewritenodes/rewriter/noderewriter_writer.go:27-35 (the same lines are
tagfilterer_writer.go:32-40 and decompressor_worker.go:39-43), followed by the blob: one block as written to a
file. The four bytes reserved in front are overwritten with the size of the header. -/
def frame (kind : GoStr) (blob : List UInt8) : List UInt8 :=
  let bh : BlobHeader := ⟨kind, (UInt32.ofNat blob.length).toInt32⟩
  let buf := bh.Write [0, 0, 0, 0]
  be32 (UInt32.ofNat (buf.length - 4)) ++ buf.drop 4 ++ blob

/-! ## reorder.go -/

section
variable {O : Type}

/-- A Go `map[uint64]Block`: the blocks held by the reorderer, keyed by index. -/
abbrev Held (O : Type) := List (Nat × O)

/-- internal/pbf/reorder.go:21: `rob[b.Index] = b` -/
def Held.insert (rob : Held O) (i : Nat) (o : O) : Held O := (i, o) :: rob.filter (fun p => !(p.1 == i))

/-- internal/pbf/reorder.go:9-15 -/
def Held.pop (rob : Held O) (k : Nat) : Option (O × Held O) :=
  match rob.lookup k with
  | some o => some (o, rob.filter (fun p => !(p.1 == k)))
  | none => none

/-- internal/pbf/reorder.go:22-25: the blocks sent on, and what is left. Each round removes one block, so
`fuel` = number of blocks held + 1 suffices. -/
def drain : Nat → Held O → Nat → List O × Held O × Nat
  | 0, rob, next => ([], rob, next)
  | fuel + 1, rob, next =>
    match rob.pop next with
    | none => ([], rob, next)
    | some (o, rob') =>
      let r := drain fuel rob' (next + 1)
      (o :: r.1, r.2)

/-- internal/pbf/reorder.go:20-26 on the blocks received in order: the blocks sent, and the final map. -/
def reorderLoop : Held O → Nat → List (Nat × O) → List O × Held O
  | rob, _, [] => ([], rob)
  | rob, next, (i, o) :: arrivals =>
    let r := drain ((rob.insert i o).length + 1) (rob.insert i o) next
    let rest := reorderLoop r.2.1 r.2.2 arrivals
    (r.1 ++ rest.1, rest.2)

/-- internal/pbf/reorder.go:17-31: the blocks sent on, and whether it returned or panicked when its input was
closed. -/
def reorder (arrivals : List (Nat × O)) : List O × Res Unit :=
  let r := reorderLoop [] 0 arrivals
  (r.1, if r.2.length ≠ 0 then .panic else .ok ())

/-! ## The goroutines of processFileWork -/

/-- What the caller of `ProcessFileAsync` supplies. -/
structure Cfg (O : Type) where
  /-- The content of the input file. -/
  file : List UInt8
  /-- What a worker does with one block: the payload it sends (workers send exactly one block per block, with
  the same index; without a writer they send nothing and the payload is ignored). -/
  work : Block → Res O
  /-- `writeStep != nil` -/
  hasWriter : Bool
  /-- What the writer does with the last block of those it received. -/
  write : List O → Res Unit
  /-- What the writer does when its input is closed. -/
  finish : List O → Res Unit

/-- Where `processFileWork` is. -/
inductive Main where
  /-- process.go:107-109 -/
  | load
  /-- process.go:112 -/
  | header (size : Nat)
  /-- process.go:119-123 -/
  | data (bh : BlobHeader)
  /-- process.go:127-131 -/
  | send (b : Block) (size : Nat)
  /-- process.go:139 -/
  | closeIn
  /-- process.go:140 -/
  | waitWorkers
  /-- process.go:142 -/
  | closeReorder
  /-- process.go:143 -/
  | waitReorder
  /-- process.go:146 -/
  | closeOut
  /-- process.go:147 -/
  | waitWriter
  /-- process.go:149 -/
  | unmap
  /-- process.go:150-151: `pfs.done` is closed; `Wait` returns. -/
  | done
deriving DecidableEq

/-- Where a worker is. -/
inductive WorkerPc (O : Type) where
  /-- Waiting for a block. -/
  | idle
  /-- Working on a block. -/
  | busy (b : Block)
  /-- Sending its result. -/
  | sending (i : Nat) (o : O)
  /-- Returned, and `wgWorker.Done()`. -/
  | exited
deriving DecidableEq

/-- A worker, with the blocks it has received so far. -/
structure Worker (O : Type) where
  pc : WorkerPc O
  took : List Block

/-- Where the reorderer is. -/
inductive ReorderPc (O : Type) where
  /-- reorder.go:20, waiting for a block. -/
  | recv (rob : Held O) (next : Nat)
  /-- reorder.go:22, about to pop. -/
  | check (rob : Held O) (next : Nat)
  /-- reorder.go:24, sending a block (`next` is already increased). -/
  | send (rob : Held O) (next : Nat) (o : O)
  /-- Returned. -/
  | exited

/-- Where the writer is. -/
inductive WriterPc where
  /-- Waiting for a block. -/
  | recv
  /-- Handling a block. -/
  | busy
  /-- Returned. -/
  | exited
deriving DecidableEq

/-- The state of a run. -/
structure St (O : Type) where
  main : Main
  /-- `pfs.at` -/
  pos : Nat
  /-- `blobIndex` -/
  index : Nat
  /-- The context is cancelled. -/
  cancelled : Bool
  inClosed : Bool
  reorderClosed : Bool
  outClosed : Bool
  /-- The input file is still mapped. -/
  mapped : Bool
  workers : List (Worker O)
  reorder : ReorderPc O
  writer : WriterPc
  /-- What the writer received. -/
  got : List O
  /-- Bookkeeping, not part of the program's state: the blocks handed to workers so far. -/
  sent : List Block
  /-- Bookkeeping: the results received by the reorderer so far. -/
  seen : List (Nat × O)
  /-- Some goroutine panicked. -/
  crashed : Bool

/-- process.go:68-101: everything is started. Without a writer the two optional goroutines do not exist
(`exited`). An empty file cannot be mapped: `MMapMap` panics (internal/iio/wrappers.go). -/
def St.init (c : Cfg O) (workers : Nat) : St O where
  main := .load
  pos := 0
  index := 0
  cancelled := false
  inClosed := false
  reorderClosed := false
  outClosed := false
  mapped := true
  workers := List.replicate workers ⟨.idle, []⟩
  reorder := if c.hasWriter then .recv [] 0 else .exited
  writer := if c.hasWriter then .recv else .exited
  got := []
  sent := []
  seen := []
  crashed := decide (c.file = [])

/-- One transition of a run that has not crashed. -/
inductive Step' (c : Cfg O) : St O → St O → Prop where
  /-- The environment cancels the context. -/
  | cancel {s} : s.cancelled = false → Step' c s { s with cancelled := true }
  /-- process.go:107-110 -/
  | load {s size} : s.main = .load → s.pos < c.file.length → headerSize c.file s.pos = .ok size →
      Step' c s { s with main := .header size, pos := s.pos + 4 }
  | loadPanic {s} : s.main = .load → s.pos < c.file.length → headerSize c.file s.pos = .panic →
      Step' c s { s with crashed := true }
  /-- process.go:107, 135: the end of the file. -/
  | loadEnd {s} : s.main = .load → ¬ s.pos < c.file.length → Step' c s { s with main := .closeIn }
  /-- process.go:112-117 -/
  | header {s size bh} : s.main = .header size → readHeader c.file s.pos size = .ok bh →
      Step' c s { s with main := .data bh, pos := s.pos + size }
  | headerPanic {s size} : s.main = .header size → readHeader c.file s.pos size = .panic →
      Step' c s { s with crashed := true }
  /-- process.go:119-123 -/
  | data {s bh b} : s.main = .data bh → readData c.file s.pos s.index bh = .ok b →
      Step' c s { s with main := .send b (dataSize bh) }
  | dataPanic {s bh} : s.main = .data bh → readData c.file s.pos s.index bh = .panic →
      Step' c s { s with crashed := true }
  /-- process.go:130-134: a worker receives the block. -/
  | handOver {s b size l1 t l2} : s.main = .send b size → s.workers = l1 ++ ⟨.idle, t⟩ :: l2 →
      Step' c s { s with main := .load, pos := s.pos + size, index := s.index + 1,
                         workers := l1 ++ ⟨.busy b, t ++ [b]⟩ :: l2, sent := s.sent ++ [b] }
  /-- process.go:128-129 -/
  | abort {s b size} : s.main = .send b size → s.cancelled = true → Step' c s { s with main := .closeIn }
  /-- process.go:139 -/
  | closeIn {s} : s.main = .closeIn → Step' c s { s with main := .waitWorkers, inClosed := true }
  /-- process.go:140-141 -/
  | workersDone {s} : s.main = .waitWorkers → (∀ w ∈ s.workers, w.pc = .exited) →
      Step' c s { s with main := if c.hasWriter then .closeReorder else .unmap }
  /-- process.go:142 -/
  | closeReorder {s} : s.main = .closeReorder →
      Step' c s { s with main := .waitReorder, reorderClosed := true }
  /-- process.go:143 -/
  | reorderDone {s} : s.main = .waitReorder → s.reorder = .exited → Step' c s { s with main := .closeOut }
  /-- process.go:146 -/
  | closeOut {s} : s.main = .closeOut → Step' c s { s with main := .waitWriter, outClosed := true }
  /-- process.go:147 -/
  | writerDone {s} : s.main = .waitWriter → s.writer = .exited → Step' c s { s with main := .unmap }
  /-- process.go:149-151 -/
  | unmap {s} : s.main = .unmap → Step' c s { s with main := .done, mapped := false }
  /-- A worker finishes a block. -/
  | work {s b t l1 l2 o} : s.workers = l1 ++ ⟨.busy b, t⟩ :: l2 → c.work b = .ok o →
      Step' c s { s with workers :=
        l1 ++ ⟨if c.hasWriter then .sending b.Index o else .idle, t⟩ :: l2 }
  | workPanic {s b t l1 l2} : s.workers = l1 ++ ⟨.busy b, t⟩ :: l2 → c.work b = .panic →
      Step' c s { s with crashed := true }
  /-- A worker's `range` ends. -/
  | workerExit {s t l1 l2} : s.workers = l1 ++ ⟨.idle, t⟩ :: l2 → s.inClosed = true →
      Step' c s { s with workers := l1 ++ ⟨.exited, t⟩ :: l2 }
  /-- reorder.go:20-21: the reorderer receives a result. -/
  | toReorder {s i o t l1 l2 rob next} : s.workers = l1 ++ ⟨.sending i o, t⟩ :: l2 →
      s.reorder = .recv rob next →
      Step' c s { s with workers := l1 ++ ⟨.idle, t⟩ :: l2, reorder := .check (rob.insert i o) next,
                         seen := s.seen ++ [(i, o)] }
  /-- reorder.go:22-23 -/
  | popSome {s rob next o rob'} : s.reorder = .check rob next → rob.pop next = some (o, rob') →
      Step' c s { s with reorder := .send rob' (next + 1) o }
  | popNone {s rob next} : s.reorder = .check rob next → rob.pop next = none →
      Step' c s { s with reorder := .recv rob next }
  /-- reorder.go:24: the writer receives a result. -/
  | toWriter {s rob next o} : s.reorder = .send rob next o → s.writer = .recv →
      Step' c s { s with reorder := .check rob next, writer := .busy, got := s.got ++ [o] }
  /-- reorder.go:20, 30: the input is closed. -/
  | reorderExit {s rob next} : s.reorder = .recv rob next → s.reorderClosed = true → rob.length = 0 →
      Step' c s { s with reorder := .exited }
  /-- reorder.go:27-29 -/
  | reorderPanic {s rob next} : s.reorder = .recv rob next → s.reorderClosed = true → rob.length ≠ 0 →
      Step' c s { s with crashed := true }
  /-- The writer finishes a block. -/
  | write {s} : s.writer = .busy → c.write s.got = .ok () → Step' c s { s with writer := .recv }
  | writePanic {s} : s.writer = .busy → c.write s.got = .panic → Step' c s { s with crashed := true }
  /-- The writer's `range` ends. -/
  | writerExit {s} : s.writer = .recv → s.outClosed = true → c.finish s.got = .ok () →
      Step' c s { s with writer := .exited }
  | writerExitPanic {s} : s.writer = .recv → s.outClosed = true → c.finish s.got = .panic →
      Step' c s { s with crashed := true }

/-- One transition: nothing happens after a crash. -/
def Step (c : Cfg O) (s s' : St O) : Prop := s.crashed = false ∧ Step' c s s'

/-- `n` transitions. -/
inductive Steps (c : Cfg O) : Nat → St O → St O → Prop where
  | refl {s} : Steps c 0 s s
  | step {n s s' s''} : Steps c n s s' → Step c s' s'' → Steps c (n + 1) s s''

/-- The states of all runs with the given number of workers. -/
def Reachable (c : Cfg O) (workers : Nat) (s : St O) : Prop := ∃ n, Steps c n (St.init c workers) s

end

end Osm.Pbf
