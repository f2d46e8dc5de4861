import Verif.Model.Pool
import Verif.Model.Raw

/-!
# Model of the workers of a command, sharing one memory

`Model/Pbf.lean` lets a worker compute its answer in a single step, as a function of the block, with the content of the
pooled buffer and the chunks of zlib given from outside. Here the workers of `ProcessFileAsync` share the buffer pool of
internal/pool/bytebuffer.go and the memory behind it: they get a buffer, let zlib write into it piece by piece, read it
byte by byte while the others go on, and give it back. The pipeline around them (reading the file, reordering, writing) is
that of `Model/Pbf.lean`.

The input file is mapped and nobody writes to it, so slices of it are values here. What a worker builds (the decoded block,
the answer) is its own.
-/

namespace Osm.Shared
open Osm Osm.T Osm.Pbf Osm.Pool

/-- A computation which reads memory one byte at a time, each address depending on what was read before. -/
inductive Reader (O : Type) where
  | done (r : Res O)
  | byte (i : Nat) (k : UInt8 → Reader O)

/-- What a reader computes if nothing changes while it reads. Reading beyond the capacity panics. -/
def Reader.run {O : Type} (mem : List UInt8) : Reader O → Res O
  | .done r => r
  | .byte i k =>
    match mem[i]? with
    | some x => (k x).run mem
    | none => .panic

/-- What a command's worker does. -/
structure Cmd (O : Type) where
  inflate : Inflate
  /-- The answer for blocks which are passed on without a look at their data. -/
  direct : Block → Option (Res O)
  /-- How it reads the raw data of a block, given its length and capacity, and what it makes of it. -/
  read : Block → Nat → Nat → Reader O

section
variable {O : Type}

/-- How a worker begins with a block. -/
inductive Start (O : Type) where
  /-- Without raw data. -/
  | result (r : Res O)
  /-- internal/t/blob.go:60-61 -/
  | raw (s : Slice)
  /-- internal/t/blob.go:62-63 and 69-75: what the stream will deliver, and the declared size. -/
  | zlib (stream : List UInt8) (size : Int32)

/-- `ReadBlob` and internal/t/blob.go:59-76, up to the call of `Get`. -/
def Cmd.start (c : Cmd O) (b : Block) : Start O :=
  match c.direct b with
  | some r => .result r
  | none =>
    match ReadBlob b.Data with
    | .panic => .result .panic
    | .hang => .result .hang
    | .ok blob =>
      match blob.Raw, blob.ZLibData with
      | some r, _ => .raw r
      | none, some z =>
        match c.inflate z.bytes, blob.RawSize with
        | some stream, some size => .zlib stream size
        | _, _ => .result .panic
      | none, none => .result .panic

/-- internal/t/blob.go:76: `uint64(*b.RawSize)` -/
def sizeOf (size : Int32) : UInt64 := size.toInt64.toUInt64

/-- What a worker reads. -/
inductive Src where
  /-- A slice of the input. -/
  | input (s : Slice)
  /-- A buffer out of the pool. -/
  | buffer (bb : BorrowedBuffer)

/-- Where a worker is in its work on a block (`b`). -/
inductive Task (O : Type) where
  /-- It has not begun, or has nothing to do. -/
  | none
  /-- internal/pool/bytebuffer.go:28 -/
  | load (b : Block) (stream : List UInt8) (size : Int32)
  /-- internal/pool/bytebuffer.go:30 -/
  | store (b : Block) (stream : List UInt8) (size : Int32)
  /-- internal/pool/bytebuffer.go:33 -/
  | get (b : Block) (stream : List UInt8) (size : Int32)
  /-- internal/pool/bytebuffer.go:34 -/
  | check (b : Block) (stream : List UInt8) (size : Int32) (buf : Buf)
  /-- internal/t/blob.go:81: `left` is what the stream has still to deliver. -/
  | inflate (b : Block) (bb : BorrowedBuffer) (left : List UInt8) (remaining : Int) (start : Nat)
  /-- Reading the raw data. -/
  | read (b : Block) (src : Src) (rd : Reader O)
  /-- The answer is computed; the buffer is not yet given back. -/
  | release (src : Src)

/-- The pipeline, the pool, the memory, and what each worker is doing. -/
structure St (O : Type) where
  pipe : Pbf.St O
  defSize : UInt64
  pool : List Buf
  /-- The number of arrays allocated so far. -/
  fresh : Nat
  /-- What is in an allocated array, up to its capacity. -/
  content : Mem → List UInt8
  tasks : List (Task O)
  /-- Bookkeeping, not part of the program's state: what the workers have answered so far. -/
  answers : List (Block × O)

/-- What can be read from a source. -/
def St.bytes (s : St O) : Src → List UInt8
  | .input sl => sl.bytes ++ sl.spare
  | .buffer bb => s.content bb.mem

/-- What is in memory after an array of `n` zeros was allocated. -/
def St.alloc (s : St O) (n : Nat) : Mem → List UInt8 :=
  fun x => if x = .heap s.fresh then List.replicate n 0 else s.content x

/-- Something panics. -/
def St.crash (s : St O) : St O := { s with pipe := { s.pipe with crashed := true } }

/-- The pipeline without the work itself: as long as a worker works, the pipeline sees nothing of it. -/
def waiting (p : Cfg O) : Cfg O := { p with work := fun _ => .hang }

/-- The pipeline after a worker has finished a block: it sends its answer, or goes on if there is no writer. -/
def answered (p : Cfg O) (s : Pbf.St O) (l1 l2 : List (Worker O)) (b : Block) (t : List Block) (o : O) : Pbf.St O :=
  { s with workers := l1 ++ ⟨if p.hasWriter then .sending b.Index o else .idle, t⟩ :: l2 }

/-- `Read`: how many bytes are delivered. -/
def delivered (call : ReadCall) (cap start left : Nat) : Nat := min (call.n + 1) (min (cap - start) left)

/-- What `Read` does to the buffer. -/
def filled (buf left : List UInt8) (start n : Nat) : List UInt8 := buf.take start ++ left.take n ++ buf.drop (start + n)

/-- Whether `Read` returns an error: it has delivered everything. -/
def failed (call : ReadCall) (left' : List UInt8) (n : Nat) : Bool := left'.isEmpty && (call.early || n == 0)

/-- One step. `p` is the pipeline (its `work` is not used). -/
inductive Step (c : Cmd O) (p : Cfg O) : St O → St O → Prop where
  /-- A step of the pipeline: reading, handing over, reordering, writing, closing, cancelling. -/
  | pipe {s s'} : Step' (waiting p) s.pipe s' → Step c p s { s with pipe := s' }
  /-- A block that needs no raw data. -/
  | answer {s l1 l2 b t k1 k2 o} : s.pipe.workers = l1 ++ ⟨.busy b, t⟩ :: l2 → s.tasks = k1 ++ .none :: k2 →
      k1.length = l1.length → c.start b = .result (.ok o) →
      Step c p s { s with pipe := answered p s.pipe l1 l2 b t o, answers := s.answers ++ [(b, o)] }
  | answerPanic {s l1 l2 b t k1 k2} : s.pipe.workers = l1 ++ ⟨.busy b, t⟩ :: l2 → s.tasks = k1 ++ .none :: k2 →
      k1.length = l1.length → c.start b = .result .panic → Step c p s s.crash
  /-- internal/t/blob.go:60-61: `NonBorrowedBuffer` -/
  | raw {s l1 l2 b t k1 k2 sl} : s.pipe.workers = l1 ++ ⟨.busy b, t⟩ :: l2 → s.tasks = k1 ++ .none :: k2 →
      k1.length = l1.length → c.start b = .raw sl →
      Step c p s { s with tasks := k1 ++ .read b (.input sl) (c.read b sl.bytes.length (sl.bytes ++ sl.spare).length) :: k2 }
  /-- internal/t/blob.go:76: `Get` is called. -/
  | call {s l1 l2 b t k1 k2 stream size} : s.pipe.workers = l1 ++ ⟨.busy b, t⟩ :: l2 → s.tasks = k1 ++ .none :: k2 →
      k1.length = l1.length → c.start b = .zlib stream size →
      Step c p s { s with tasks := k1 ++ .load b stream size :: k2 }
  /-- internal/pool/bytebuffer.go:28 -/
  | load {s k1 k2 b stream size} : s.tasks = k1 ++ .load b stream size :: k2 →
      Step c p s { s with tasks := k1 ++ (if larger (sizeOf size) s.defSize then .store b stream size
        else .get b stream size) :: k2 }
  /-- internal/pool/bytebuffer.go:30 -/
  | store {s k1 k2 b stream size} : s.tasks = k1 ++ .store b stream size :: k2 →
      Step c p s { s with defSize := sizeOf size, tasks := k1 ++ .get b stream size :: k2 }
  /-- internal/pool/bytebuffer.go:33, an element of the pool. -/
  | getPooled {s k1 k2 b stream size p1 p2 buf} : s.tasks = k1 ++ .get b stream size :: k2 → s.pool = p1 ++ buf :: p2 →
      Step c p s { s with pool := p1 ++ p2, tasks := k1 ++ .check b stream size buf :: k2 }
  /-- internal/pool/bytebuffer.go:33, 20-22: `New` -/
  | getNew {s k1 k2 b stream size} : s.tasks = k1 ++ .get b stream size :: k2 → s.defSize.toNat < 2 ^ 63 →
      Step c p s { s with fresh := s.fresh + 1,
                          content := s.alloc s.defSize.toNat,
                          tasks := k1 ++ .check b stream size ⟨.heap s.fresh, s.defSize.toNat⟩ :: k2 }
  | getNewPanic {s k1 k2 b stream size} : s.tasks = k1 ++ .get b stream size :: k2 → ¬ s.defSize.toNat < 2 ^ 63 →
      Step c p s s.crash
  /-- internal/pool/bytebuffer.go:34-42: another buffer is made. -/
  | grow {s k1 k2 b stream size buf bb} : s.tasks = k1 ++ .check b stream size buf :: k2 →
      tooSmall buf (sizeOf size) = true → borrow ⟨.heap s.fresh, (sizeOf size).toNat⟩ (sizeOf size) = .ok bb →
      Step c p s { s with fresh := s.fresh + 1,
                          content := s.alloc (sizeOf size).toNat,
                          tasks := k1 ++ .inflate b bb stream size.toInt 0 :: k2 }
  /-- internal/pool/bytebuffer.go:34, 39-42 -/
  | use {s k1 k2 b stream size buf bb} : s.tasks = k1 ++ .check b stream size buf :: k2 →
      tooSmall buf (sizeOf size) = false → borrow buf (sizeOf size) = .ok bb →
      Step c p s { s with tasks := k1 ++ .inflate b bb stream size.toInt 0 :: k2 }
  | usePanic {s k1 k2 b stream size buf} : s.tasks = k1 ++ .check b stream size buf :: k2 →
      tooSmall buf (sizeOf size) = false → borrow buf (sizeOf size) = .panic → Step c p s s.crash
  /-- internal/t/blob.go:81-88: `Read` delivers some bytes, and that is all of them. -/
  | chunkLast {s k1 k2 b bb left} {remaining : Int} {start : Nat} (call : ReadCall) (n : Nat) :
      s.tasks = k1 ++ .inflate b bb left remaining start :: k2 → remaining > 0 → start ≤ (s.content bb.mem).length →
      n = delivered call (s.content bb.mem).length start left.length → remaining - n = 0 →
      Step c p s { s with content := fun x => if x = bb.mem then filled (s.content bb.mem) left start n else s.content x,
                          tasks := k1 ++ .read b (.buffer bb) (c.read b bb.len bb.cap) :: k2 }
  /-- internal/t/blob.go:81-92: more is to come. -/
  | chunk {s k1 k2 b bb left} {remaining : Int} {start : Nat} (call : ReadCall) (n : Nat) :
      s.tasks = k1 ++ .inflate b bb left remaining start :: k2 → remaining > 0 → start ≤ (s.content bb.mem).length →
      n = delivered call (s.content bb.mem).length start left.length → remaining - n ≠ 0 →
      failed call (left.drop n) n = false →
      Step c p s { s with content := fun x => if x = bb.mem then filled (s.content bb.mem) left start n else s.content x,
                          tasks := k1 ++ .inflate b bb (left.drop n) (remaining - n) (start + n) :: k2 }
  /-- internal/t/blob.go:89-91 -/
  | chunkPanic {s k1 k2 b bb left} {remaining : Int} {start : Nat} (call : ReadCall) (n : Nat) :
      s.tasks = k1 ++ .inflate b bb left remaining start :: k2 → remaining > 0 → start ≤ (s.content bb.mem).length →
      n = delivered call (s.content bb.mem).length start left.length → remaining - n ≠ 0 →
      failed call (left.drop n) n = true → Step c p s s.crash
  /-- internal/t/blob.go:82: slicing beyond the capacity. -/
  | beyondPanic {s k1 k2 b bb left} {remaining : Int} {start : Nat} :
      s.tasks = k1 ++ .inflate b bb left remaining start :: k2 → remaining > 0 → ¬ start ≤ (s.content bb.mem).length →
      Step c p s s.crash
  /-- internal/t/blob.go:81, 93: nothing remains. -/
  | inflated {s k1 k2 b bb left} {remaining : Int} {start : Nat} :
      s.tasks = k1 ++ .inflate b bb left remaining start :: k2 → ¬ remaining > 0 →
      Step c p s { s with tasks := k1 ++ .read b (.buffer bb) (c.read b bb.len bb.cap) :: k2 }
  /-- A byte is read. -/
  | byte {s k1 k2 b src i k x} : s.tasks = k1 ++ .read b src (.byte i k) :: k2 → (s.bytes src)[i]? = some x →
      Step c p s { s with tasks := k1 ++ .read b src (k x) :: k2 }
  | bytePanic {s k1 k2 b src i k} : s.tasks = k1 ++ .read b src (.byte i k) :: k2 → (s.bytes src)[i]? = none →
      Step c p s s.crash
  /-- The answer is there. -/
  | finish {s l1 l2 b t k1 k2 src o} : s.pipe.workers = l1 ++ ⟨.busy b, t⟩ :: l2 →
      s.tasks = k1 ++ .read b src (.done (.ok o)) :: k2 → k1.length = l1.length →
      Step c p s { s with pipe := answered p s.pipe l1 l2 b t o, tasks := k1 ++ .release src :: k2,
                          answers := s.answers ++ [(b, o)] }
  | finishPanic {s k1 k2 b src} : s.tasks = k1 ++ .read b src (.done .panic) :: k2 → Step c p s s.crash
  /-- internal/pool/bytebuffer.go:45-49: `Put`, before or after the answer is sent. -/
  | put {s k1 k2 bb} : s.tasks = k1 ++ .release (.buffer bb) :: k2 →
      Step c p s { s with pool := Pool.put s.pool bb, tasks := k1 ++ .none :: k2 }
  | putInput {s k1 k2 sl} : s.tasks = k1 ++ .release (.input sl) :: k2 →
      Step c p s { s with tasks := k1 ++ .none :: k2 }
  /-- tagfilterer_worker.go:141: the buffer is forgotten. -/
  | drop {s k1 k2 bb} : s.tasks = k1 ++ .release (.buffer bb) :: k2 →
      Step c p s { s with tasks := k1 ++ .none :: k2 }
  /-- The garbage collector empties the pool. -/
  | evict {s p1 p2 buf} : s.pool = p1 ++ buf :: p2 → Step c p s { s with pool := p1 ++ p2 }

/-- Everything is started. -/
def init (p : Cfg O) (workers : Nat) : St O where
  pipe := Pbf.St.init (waiting p) workers
  defSize := 65536
  pool := []
  fresh := 0
  content _ := []
  tasks := List.replicate workers .none
  answers := []

/-- The states of all runs; nothing happens after a panic. -/
inductive Reachable (c : Cmd O) (p : Cfg O) (workers : Nat) : St O → Prop where
  | init : Reachable c p workers (init p workers)
  | step {s s'} : Reachable c p workers s → s.pipe.crashed = false → Step c p s s' → Reachable c p workers s'

/-- `s'` is a later state of a run that is at `s`. -/
inductive Runs (c : Cmd O) (p : Cfg O) : St O → St O → Prop where
  | refl {s} : Runs c p s s
  | step {s s' s''} : s.pipe.crashed = false → Step c p s s' → Runs c p s' s'' → Runs c p s s''

/-- A completed, uncancelled run delivered `got` to the writer. -/
def Delivers (c : Cmd O) (p : Cfg O) (workers : Nat) (got : List O) : Prop :=
  ∃ s, Reachable c p workers s ∧ s.pipe.main = .done ∧ s.pipe.cancelled = false ∧ s.pipe.got = got

/-- The worker's answer as a function of the block, of the content of the pooled buffer and of how zlib delivers the data:
`Model/Pbf.lean`'s `work`. -/
def Cmd.work (c : Cmd O) (use : Block → Slice → Res O) (sched : Block → Sched) (b : Block) : Res O :=
  match c.direct b with
  | some r => r
  | none => do
    let raw ← rawOf c.inflate (sched b) b
    use b raw

end

end Osm.Shared
