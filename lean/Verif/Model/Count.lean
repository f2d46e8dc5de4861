import Verif.Model.Raw

/-!
# Model of cmd/entitycount and cmd/blockcount

`pool.ByteSlice.Put` (C62), argument parsing (C78) and printing (Model/Text) are not here.
-/

namespace Osm.Count
open Osm Osm.Pb Osm.T Osm.Pbf

/-! ## Updates of shared variables -/

section
variable {V : Type} [DecidableEq V]

/-- An update of a shared variable: `atomic.AddUint64(v, x)` or `atomicSetMaximum(x, v)`. -/
inductive Op (V : Type) where
  | add (v : V) (x : UInt64)
  | setMax (v : V) (x : UInt64)

/-- A goroutine that has updates to make, one after the other; `old` is the variable of `atomicSetMaximum`
(cmd/entitycount/entitycount.go:18), if it has been loaded for the first of them. -/
structure Thread (V : Type) where
  ops : List (Op V)
  old : Option UInt64

/-- `*v = x` -/
def store (m : V → UInt64) (v : V) (x : UInt64) : V → UInt64 := fun w => if w = v then x else m w

/-- The atomic steps of a goroutine, cmd/entitycount/entitycount.go:17-21 and `atomic.AddUint64`. -/
inductive TStep : (V → UInt64) → Thread V → (V → UInt64) → Thread V → Prop where
  /-- `atomic.AddUint64` -/
  | add {m v x ops} : TStep m ⟨.add v x :: ops, none⟩ (store m v (m v + x)) ⟨ops, none⟩
  /-- `old := atomic.LoadUint64(max)` (also the one after a failed exchange) -/
  | load {m v x ops} : TStep m ⟨.setMax v x :: ops, none⟩ m ⟨.setMax v x :: ops, some (m v)⟩
  /-- `new > old` is false: the loop ends. -/
  | leave {m v x ops old} : ¬ x > old → TStep m ⟨.setMax v x :: ops, some old⟩ m ⟨ops, none⟩
  /-- `atomic.CompareAndSwapUint64(max, old, new)` succeeds: the loop ends. -/
  | cas {m v x ops old} : x > old → m v = old → TStep m ⟨.setMax v x :: ops, some old⟩ (store m v x) ⟨ops, none⟩
  /-- It fails: the loop goes on. -/
  | casFail {m v x ops old} : x > old → m v ≠ old →
      TStep m ⟨.setMax v x :: ops, some old⟩ m ⟨.setMax v x :: ops, none⟩

/-- The shared variables and the goroutines. -/
structure Upd (V : Type) where
  mem : V → UInt64
  threads : List (Thread V)

/-- Some goroutine makes a step. -/
inductive Step : Upd V → Upd V → Prop where
  | mk {m m' t t' l1 l2} : TStep m t m' t' → Step ⟨m, l1 ++ t :: l2⟩ ⟨m', l1 ++ t' :: l2⟩

/-- `n` steps. -/
inductive Steps : Nat → Upd V → Upd V → Prop where
  | refl {u} : Steps 0 u u
  | step {n u u' u''} : Steps n u u' → Step u' u'' → Steps (n + 1) u u''

/-- All goroutines have made their updates. -/
def Upd.Done (u : Upd V) : Prop := ∀ t ∈ u.threads, t.ops = []

/-- Goroutines that are about to make the given updates. -/
def start (m : V → UInt64) (ops : List (List (Op V))) : Upd V := ⟨m, ops.map fun o => ⟨o, none⟩⟩

end

/-! ## entitycount.go -/

/-- cmd/entitycount/entitycount.go:42-44 -/
def reader : PBReader := ⟨true, false, false, false⟩

/-- cmd/entitycount/entitycount.go:23-28 -/
def max (a b : UInt64) : UInt64 := if a > b then a else b

/-- cmd/entitycount/entitycount.go:32-40, the local counters. -/
structure Local where
  blockCount : UInt64
  nodeCount : UInt64
  wayCount : UInt64
  relationCount : UInt64
  wayRefCount : UInt64
  maxNode : UInt64
  maxWay : UInt64
  maxRelation : UInt64
  maxWayRefCount : UInt64
deriving DecidableEq

/-- cmd/entitycount/entitycount.go:32-40 -/
def Local.zero : Local := ⟨0, 0, 0, 0, 0, 0, 0, 0, 0⟩

/-- cmd/entitycount/entitycount.go:62-67 -/
def countDense (l : Local) (dn : DenseNodes) : Local :=
  dn.Id.foldl (fun l nid => { l with maxNode := max nid.toUInt64 l.maxNode })
    { l with nodeCount := l.nodeCount + UInt64.ofNat dn.Id.length }

/-- cmd/entitycount/entitycount.go:62-67, if there is a dense section. -/
def countNodes (l : Local) (pg : T.PrimitiveGroup) : Local :=
  match pg.Dense with
  | none => l
  | some dn => countDense l dn

/-- cmd/entitycount/entitycount.go:71-73 -/
def countWay (l : Local) (w : Way) : Local :=
  { l with wayRefCount := l.wayRefCount + UInt64.ofNat w.Refs.length,
           maxWay := max w.ID.toUInt64 l.maxWay,
           maxWayRefCount := max l.maxWayRefCount (UInt64.ofNat w.Refs.length) }

/-- cmd/entitycount/entitycount.go:76 -/
def countRelation (l : Local) (r : Relation) : Local :=
  { l with maxRelation := max r.ID.toUInt64 l.maxRelation }

/-- cmd/entitycount/entitycount.go:61-78 -/
def countGroup (l : Local) (pg : T.PrimitiveGroup) : Local :=
  let l := countNodes l pg
  let l := { l with wayCount := l.wayCount + UInt64.ofNat pg.Ways.length,
                    relationCount := l.relationCount + UInt64.ofNat pg.Relations.length }
  let l := pg.Ways.foldl countWay l
  pg.Relations.foldl countRelation l

/-- cmd/entitycount/entitycount.go:48-59: the groups of a block; none if it is not a data block. -/
def groupsOf (inflate : Inflate) (sched : Block → Sched) (b : Block) : Res (List T.PrimitiveGroup) :=
  if b.Kind ≠ osmData then .ok []
  else do
    let raw ← rawOf inflate (sched b) b
    let pb ← ReadPrimitiveBlock reader raw
    .ok pb.PrimitiveGroup

/-- cmd/entitycount/entitycount.go:46-80: one iteration of a worker. -/
def countBlock (inflate : Inflate) (sched : Block → Sched) (l : Local) (b : Block) : Res Local := do
  let gs ← groupsOf inflate sched b
  .ok (gs.foldl countGroup { l with blockCount := l.blockCount + 1 })

/-- The shared variables, cmd/entitycount/entitycount.go:100-102. -/
inductive Var where
  | blockCount | nodeCount | wayCount | relationCount | wayRefCount | maxNode | maxWay | maxRelation | maxWayRefCount
deriving DecidableEq

/-- cmd/entitycount/entitycount.go:82-90 -/
def finalOps (l : Local) : List (Op Var) := [
  .add .blockCount l.blockCount,
  .add .nodeCount l.nodeCount,
  .add .wayCount l.wayCount,
  .add .relationCount l.relationCount,
  .add .wayRefCount l.wayRefCount,
  .setMax .maxNode l.maxNode,
  .setMax .maxWay l.maxWay,
  .setMax .maxRelation l.maxRelation,
  .setMax .maxWayRefCount l.maxWayRefCount]

/-- cmd/entitycount/entitycount.go:31-92: the updates a worker makes at the end, having received the given blocks. -/
def countWorker (inflate : Inflate) (sched : Block → Sched) (bs : List Block) : Res (List (Op Var)) := do
  let l ← foldRes (countBlock inflate sched) Local.zero bs
  .ok (finalOps l)

/-- cmd/entitycount/entitycount.go:103-109: the concurrent run over the content of a file. The workers send nothing;
whether they panic does not depend on their counters. -/
def countCfg (inflate : Inflate) (sched : Block → Sched) (file : List UInt8) : Cfg (List T.PrimitiveGroup) where
  file := file
  work := groupsOf inflate sched
  hasWriter := false
  write _ := .ok ()
  finish _ := .ok ()

/-- What entitycount prints (cmd/entitycount/entitycount.go:111-115): the shared variables after `Wait`, for the run
that ended in the state `s`. The updates of a worker come after it has received its last block and before `Wait`
returns; nothing else uses the shared variables. So the updates of different workers are interleaved with each other in
some way, and with nothing else that matters. -/
def Prints (inflate : Inflate) (sched : Block → Sched) (s : St (List T.PrimitiveGroup)) (m : Var → UInt64) : Prop :=
  ∃ ops n u, mapRes (fun w => countWorker inflate sched w.took) s.workers = .ok ops ∧
    Steps n (start (fun _ => 0) ops) u ∧ u.Done ∧ u.mem = m

/-! ## blockcount.go -/

/-- cmd/blockcount/blockcount.go:16-19: the loop of a worker. -/
def blocksLoop : UInt64 → List Block → UInt64
  | n, [] => n
  | n, _ :: bs => blocksLoop (n + 1) bs

/-- cmd/blockcount/blockcount.go:14-22 -/
def blocksWorker (bs : List Block) : List (Op Unit) := [.add () (blocksLoop 0 bs)]

/-- cmd/blockcount/blockcount.go:32-38 -/
def blocksCfg (file : List UInt8) : Cfg Unit where
  file := file
  work _ := .ok ()
  hasWriter := false
  write _ := .ok ()
  finish _ := .ok ()

/-- What blockcount prints (cmd/blockcount/blockcount.go:40). -/
def PrintsBlocks (s : St Unit) (n : UInt64) : Prop :=
  ∃ k u, Steps k (start (fun _ => 0) (s.workers.map fun w => blocksWorker w.took)) u ∧ u.Done ∧ u.mem () = n

end Osm.Count
