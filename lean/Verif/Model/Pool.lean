import Verif.Model.Pb

/-!
# Model of internal/pool/bytebuffer.go

A buffer is identified by the memory it lies in. A `sync.Pool` is a bag: `Get` returns any element of it, or (whenever
it likes: the bag is kept in per-processor parts) what `New` makes; elements may disappear at any time. `make` succeeds
for every size below 2^63 (memory never runs out).
-/

namespace Osm.Pool
open Osm

/-- A piece of memory: a part of the input file's mapping, or an array allocated by `make`. -/
inductive Mem where
  | input (k : Nat)
  | heap (n : Nat)
deriving DecidableEq

/-- A `[]byte` as it lies in the pool (its length is not used again). -/
structure Buf where
  mem : Mem
  cap : Nat
deriving DecidableEq

/-- internal/pool/bytebuffer.go:58-61 -/
structure BorrowedBuffer where
  mem : Mem
  len : Nat
  cap : Nat
  isBorrowed : Bool
deriving DecidableEq

/-- internal/pool/bytebuffer.go:51-56 -/
def NonBorrowedBuffer (mem : Mem) (len cap : Nat) : BorrowedBuffer := ⟨mem, len, cap, false⟩

/-- internal/pool/bytebuffer.go:45-49 -/
def put (pool : List Buf) (bb : BorrowedBuffer) : List Buf :=
  if bb.isBorrowed then ⟨bb.mem, bb.cap⟩ :: pool else pool

/-- internal/pool/bytebuffer.go:28: `sz > defSize` -/
def larger (sz defSize : UInt64) : Bool := decide (sz > defSize)

/-- internal/pool/bytebuffer.go:34: `cap(buf) < int(sz)` -/
def tooSmall (buf : Buf) (sz : UInt64) : Bool := decide ((buf.cap : Int) < sz.toInt64.toInt)

/-- internal/pool/bytebuffer.go:39-42; `buf[:sz]` panics beyond the capacity. -/
def borrow (buf : Buf) (sz : UInt64) : Res BorrowedBuffer :=
  if sz.toNat ≤ buf.cap then .ok ⟨buf.mem, sz.toNat, buf.cap, true⟩ else .panic

/-- Where a goroutine is. All users of the pool handle one block after the other; for each they call `GetRawData`
(internal/t/blob.go:59-95) once, which calls `Get` or `NonBorrowedBuffer`, and hand the result to `Put` once when they
are done with it (cmd/nodeindex/indexer/nodeindexer_worker.go:105, cmd/entityfind/entityfind.go:64,
cmd/entitycount/entitycount.go:79, cmd/decompress/decompressor/decompressor_worker.go:47,
cmd/wayindex/wayindexer/wayindexer_worker.go:93, cmd/rewritenodes/rewriter/noderewriter_worker.go:52, 91,
cmd/relindex/relindexerinit/relindexer_worker.go:72), or never (tagfilterer_worker.go). -/
inductive Pc where
  /-- Holds nothing. -/
  | idle
  /-- internal/pool/bytebuffer.go:28 -/
  | load (sz : UInt64)
  /-- internal/pool/bytebuffer.go:30 -/
  | store (sz : UInt64)
  /-- internal/pool/bytebuffer.go:33 -/
  | get (sz : UInt64)
  /-- internal/pool/bytebuffer.go:34 -/
  | check (sz : UInt64) (buf : Buf)
  /-- Uses a buffer; `req` is the size asked for (0 if it does not come from `Get`). -/
  | hold (req : UInt64) (bb : BorrowedBuffer)

/-- The pool, the memory and the goroutines. -/
structure St where
  defSize : UInt64
  pool : List Buf
  /-- The number of arrays allocated so far. -/
  fresh : Nat
  /-- What the memory contains. -/
  content : Mem → List UInt8
  procs : List Pc
  crashed : Bool

/-- What is in a newly allocated array. -/
def alloc (s : St) (n : Nat) : Mem → List UInt8 := fun x => if x = .heap s.fresh then List.replicate n 0 else s.content x

/-- One step, of the goroutine with the given number, or of the garbage collector. `ok` are the sizes that goroutines ask
for. -/
inductive Step (ok : UInt64 → Prop) : Option Nat → St → St → Prop where
  /-- `GetRawData` on a blob with uncompressed data: `NonBorrowedBuffer`. -/
  | wrap {s l1 l2 k len cap} : s.procs = l1 ++ .idle :: l2 →
      Step ok (some l1.length) s { s with procs := l1 ++ .hold 0 (NonBorrowedBuffer (.input k) len cap) :: l2 }
  /-- `Get` is called. -/
  | call {s l1 l2} (sz : UInt64) : ok sz → s.procs = l1 ++ .idle :: l2 →
      Step ok (some l1.length) s { s with procs := l1 ++ .load sz :: l2 }
  /-- internal/pool/bytebuffer.go:28 -/
  | load {s l1 l2 sz} : s.procs = l1 ++ .load sz :: l2 →
      Step ok (some l1.length) s { s with procs := l1 ++ (if larger sz s.defSize then .store sz else .get sz) :: l2 }
  /-- internal/pool/bytebuffer.go:30 -/
  | store {s l1 l2 sz} : s.procs = l1 ++ .store sz :: l2 →
      Step ok (some l1.length) s { s with defSize := sz, procs := l1 ++ .get sz :: l2 }
  /-- internal/pool/bytebuffer.go:33, an element of the pool. -/
  | getPooled {s l1 l2 sz p1 p2 buf} : s.procs = l1 ++ .get sz :: l2 → s.pool = p1 ++ buf :: p2 →
      Step ok (some l1.length) s { s with pool := p1 ++ p2, procs := l1 ++ .check sz buf :: l2 }
  /-- internal/pool/bytebuffer.go:33, 20-22: `New` -/
  | getNew {s l1 l2 sz} : s.procs = l1 ++ .get sz :: l2 → s.defSize.toNat < 2 ^ 63 →
      Step ok (some l1.length) s
        { s with fresh := s.fresh + 1,
                 content := alloc s s.defSize.toNat,
                 procs := l1 ++ .check sz ⟨.heap s.fresh, s.defSize.toNat⟩ :: l2 }
  | getNewPanic {s l1 l2 sz} : s.procs = l1 ++ .get sz :: l2 → ¬ s.defSize.toNat < 2 ^ 63 →
      Step ok (some l1.length) s { s with crashed := true }
  /-- internal/pool/bytebuffer.go:34-42: another buffer is made. -/
  | grow {s l1 l2 sz buf bb} : s.procs = l1 ++ .check sz buf :: l2 → tooSmall buf sz = true →
      borrow ⟨.heap s.fresh, sz.toNat⟩ sz = .ok bb →
      Step ok (some l1.length) s
        { s with fresh := s.fresh + 1,
                 content := alloc s sz.toNat,
                 procs := l1 ++ .hold sz bb :: l2 }
  /-- internal/pool/bytebuffer.go:34, 39-42 -/
  | use {s l1 l2 sz buf bb} : s.procs = l1 ++ .check sz buf :: l2 → tooSmall buf sz = false →
      borrow buf sz = .ok bb → Step ok (some l1.length) s { s with procs := l1 ++ .hold sz bb :: l2 }
  | usePanic {s l1 l2 sz buf} : s.procs = l1 ++ .check sz buf :: l2 → tooSmall buf sz = false →
      borrow buf sz = .panic → Step ok (some l1.length) s { s with crashed := true }
  /-- internal/t/blob.go:82-83: a goroutine writes to the buffer it got from `Get`. -/
  | write {s l1 l2 req bb} (c : List UInt8) : s.procs = l1 ++ .hold req bb :: l2 → bb.isBorrowed = true →
      Step ok (some l1.length) s { s with content := fun x => if x = bb.mem then c else s.content x }
  /-- internal/pool/bytebuffer.go:45-49 -/
  | put {s l1 l2 req bb} : s.procs = l1 ++ .hold req bb :: l2 →
      Step ok (some l1.length) s { s with pool := Pool.put s.pool bb, procs := l1 ++ .idle :: l2 }
  /-- The buffer is forgotten. -/
  | drop {s l1 l2 req bb} : s.procs = l1 ++ .hold req bb :: l2 →
      Step ok (some l1.length) s { s with procs := l1 ++ .idle :: l2 }
  /-- The garbage collector empties the pool. -/
  | evict {s p1 p2 buf} : s.pool = p1 ++ buf :: p2 → Step ok none s { s with pool := p1 ++ p2 }

/-- Before anything has happened, with any number of goroutines; internal/pool/bytebuffer.go:13-26. -/
def init (procs : Nat) : St where
  defSize := 65536
  pool := []
  fresh := 0
  content _ := []
  procs := List.replicate procs .idle
  crashed := false

/-- The states that are reached. -/
inductive Reachable (ok : UInt64 → Prop) (procs : Nat) : St → Prop where
  | init : Reachable ok procs (init procs)
  | step {s s' who} : Reachable ok procs s → s.crashed = false → Step ok who s s' → Reachable ok procs s'

end Osm.Pool
