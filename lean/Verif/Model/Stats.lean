import Verif.Model.Rewrite

/-!
# Model of the statistics of rewritenodes

The counters of internal/nodeindex/nodeindex.go:24-28 live in the index which all workers of all passes share; each
lookup adds to one of them (internal/nodeindex/nodesubindex.go). Here the programs of `Model/Rewrite` return, besides
what they do, the increments made, block by block. Which worker takes which block, and how the atomic increments of the
workers interleave, is added in `Spec/Stats`. The timing branch is in `Model/Timing`.
-/

namespace Osm.Rewrite
open Osm Osm.Pb Osm.T Osm.Pbf Osm.NodeIndex

/-- cmd/rewritenodes/rewriter/noderewriter_worker.go:64-80: the increments made for the refs of one way, with the hint
carried along. -/
def countRefs (si : SubIdx) : Int → List Int64 → Res (List Counter × Int)
  | hint, [] => .ok ([], hint)
  | hint, r :: rs =>
    if r < 0 then countRefs si hint rs
    else do
      let f ← si.findNode r.toUInt64 hint
      let x ← countRefs si f.hint rs
      .ok (f.counted ++ x.1, x.2)

/-- cmd/rewritenodes/rewriter/noderewriter_worker.go:59-81: the ways of one group. -/
def countWays (si : SubIdx) : Int → List Way → Res (List Counter × Int)
  | hint, [] => .ok ([], hint)
  | hint, w :: ws => do
    let r ← countRefs si hint w.Refs
    let x ← countWays si r.2 ws
    .ok (r.1 ++ x.1, x.2)

/-- cmd/rewritenodes/rewriter/noderewriter_worker.go:58-82: the groups of a block. -/
def countGroups (si : SubIdx) : Int → List T.PrimitiveGroup → Res (List Counter × Int)
  | hint, [] => .ok ([], hint)
  | hint, g :: gs => do
    let r ← countWays si hint g.Ways
    let x ← countGroups si r.2 gs
    .ok (r.1 ++ x.1, x.2)

/-- cmd/rewritenodes/rewriter/noderewriter_worker.go:48-82: a decoded block. The hint starts from 0 in every block. -/
def countBlock (si : SubIdx) (pb : PrimitiveBlock) : Res (List Counter) :=
  if totalWays pb = 0 then .ok []
  else do
    let r ← countGroups si 0 pb.PrimitiveGroup
    .ok r.1

/-- cmd/rewritenodes/rewriter/noderewriter_worker.go:28-92: the increments made for one block. -/
def countWork (inflate : Inflate) (sched : Block → Sched) (si : SubIdx) (b : Block) : Res (List Counter) :=
  if b.Kind ≠ osmData then .ok []
  else do
    let raw ← rawOf inflate (sched b) b
    let pb ← ReadPrimitiveBlock reader raw
    countBlock si pb

/-- What a worker sends for a block, and the increments it makes. -/
def countedWork (inflate : Inflate) (sched : Block → Sched) (si : SubIdx) (b : Block) : Res (Out × List Counter) := do
  let x ← rewriteWork inflate sched si b
  let c ← countWork inflate sched si b
  .ok (x, c)

/-- cmd/rewritenodes/rewritenodes.go:66-78: `pass`, returning the increments made for each block. -/
def passC (inflate : Inflate) (sched : Block → Sched) (si : SubIdx) (inp out : String) : Prog (List (List Counter)) := do
  OsOpen inp
  let m ← MMapMap inp
  let bs ← Prog.lift (split m)
  let xs ← Prog.lift (mapRes (countedWork inflate sched si) bs)
  output out (xs.map (·.1))
  Prog.pure (xs.map (·.2))

/-- cmd/rewritenodes/rewritenodes.go:49-80: `runPasses`, returning the increments made in each pass for each block. -/
def runPassesC (inflate : Inflate) (scheds : Nat → Block → Sched) (ix : NodeIdx) (inp out : String) (n : Nat) :
    Nat → Nat → Prog (List (List (List Counter)))
  | 0, _ => .pure []
  | left + 1, i => do
    removeOld out n i
    let si ← Prog.lift (ix.SubIndex (UInt64.ofNat i) (UInt64.ofNat n))
    let c ← passC inflate (scheds i) si (passInput inp out n i) (passOutput out n i)
    let cs ← runPassesC inflate scheds ix inp out n left (i + 1)
    Prog.pure (c :: cs)

/-- cmd/rewritenodes/rewritenodes.go:34-84: `rewritenodes`, returning the increments. -/
def rewritenodesC (inflate : Inflate) (scheds : Nat → Block → Sched) (memory : Option UInt64) (inp index out : String) :
    Prog (List (List (List Counter))) := do
  OsOpen index
  let m ← MMapMap index
  let ix ← Prog.lift (NewNodeIndex m)
  let passes ← Prog.lift (passCount ix memory)
  let cs ← runPassesC inflate scheds ix inp out passes.toNat passes.toNat 0
  removeLast out passes.toNat
  Prog.pure cs

end Osm.Rewrite
