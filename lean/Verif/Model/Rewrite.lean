import Verif.Model.Raw
import Verif.Model.NodeIndex
import Verif.Model.RelIndex

/-!
# Model of cmd/rewritenodes

The state setters (progress display), `pool.ByteSlice.Put` (C62), `FClose`, timing and printing are not modelled.
A way's refs are overwritten in place (`w` is a pointer); here the new refs are returned.
-/

namespace Osm.Rewrite
open Osm Osm.Pb Osm.T Osm.Pbf Osm.NodeIndex

/-- cmd/rewritenodes/rewriter/noderewriter_worker.go:17-21 -/
def reader : PBReader := ⟨true, true, false, true⟩

/-- cmd/rewritenodes/rewriter/noderewriter_worker.go:68-78, 73-80: the ref written for a ref that was looked up.
The branches for the last pass and the others are the same. -/
def keepOr (r : Int64) (f : Found) : Int64 := if f.ok then f.loc else r

/-- cmd/rewritenodes/rewriter/noderewriter_worker.go:64-80: the refs of one way, with the hint carried along. -/
def rewriteRefs (si : SubIdx) : Int → List Int64 → Res (List Int64 × Int)
  | hint, [] => .ok ([], hint)
  | hint, r :: rs =>
    if r < 0 then do
      let x ← rewriteRefs si hint rs
      .ok (r :: x.1, x.2)
    else do
      let f ← si.findNode r.toUInt64 hint
      let x ← rewriteRefs si f.hint rs
      .ok (keepOr r f :: x.1, x.2)

/-- cmd/rewritenodes/rewriter/noderewriter_worker.go:59-81: the ways of one group. -/
def rewriteWays (si : SubIdx) : Int → List Way → Res (List Way × Int)
  | hint, [] => .ok ([], hint)
  | hint, w :: ws => do
    let r ← rewriteRefs si hint w.Refs
    let x ← rewriteWays si r.2 ws
    .ok ({ w with Refs := r.1 } :: x.1, x.2)

/-- cmd/rewritenodes/rewriter/noderewriter_worker.go:58-82: the groups of a block. -/
def rewriteGroups (si : SubIdx) : Int → List T.PrimitiveGroup → Res (List T.PrimitiveGroup × Int)
  | hint, [] => .ok ([], hint)
  | hint, g :: gs => do
    let r ← rewriteWays si hint g.Ways
    let x ← rewriteGroups si r.2 gs
    .ok ({ g with Ways := r.1 } :: x.1, x.2)

/-- cmd/rewritenodes/rewriter/noderewriter_worker.go:43-46 -/
def totalWays (pb : PrimitiveBlock) : Nat := (pb.PrimitiveGroup.map fun g => g.Ways.length).sum

/-- cmd/rewritenodes/rewriter/noderewriter_worker.go:57-91: a block with ways. -/
def rewriteBlock (si : SubIdx) (pb : PrimitiveBlock) : Res (List UInt8) := do
  let r ← rewriteGroups si 0 pb.PrimitiveGroup
  Blob.zero.Write (some ({ pb with PrimitiveGroup := r.1 } : PrimitiveBlock).Write) []

/-- What is sent on: the kind and the data of a block. -/
abbrev Out := GoStr × List UInt8

/-- cmd/rewritenodes/rewriter/noderewriter_worker.go:48-91: a decoded block, or, if it has no ways, the block as it
was. -/
def rewriteDecoded (si : SubIdx) (b : Block) (pb : PrimitiveBlock) : Res Out :=
  if totalWays pb = 0 then .ok (b.Kind, b.Data.bytes)
  else do
    let blob ← rewriteBlock si pb
    .ok (osmData, blob)

/-- cmd/rewritenodes/rewriter/noderewriter_worker.go:28-92: what the worker sends for one block. -/
def rewriteWork (inflate : Inflate) (sched : Block → Sched) (si : SubIdx) (b : Block) : Res Out :=
  if b.Kind ≠ osmData then .ok (b.Kind, b.Data.bytes)
  else do
    let raw ← rawOf inflate (sched b) b
    let pb ← ReadPrimitiveBlock reader raw
    rewriteDecoded si b pb

/-- cmd/rewritenodes/rewriter/noderewriter_writer.go:27-35: the blob header with its size, as it is written in front of
the blob. -/
def frameHeader (kind : GoStr) (blob : List UInt8) : List UInt8 :=
  let bh : BlobHeader := ⟨kind, (UInt32.ofNat blob.length).toInt32⟩
  let buf := bh.Write [0, 0, 0, 0]
  be32 (UInt32.ofNat (buf.length - 4)) ++ buf.drop 4

/-- cmd/rewritenodes/rewriter/noderewriter_writer.go:20-40: the loop over the blocks received. -/
def writeBlocks (f : String) : List Out → Prog Unit
  | [] => .pure ()
  | (kind, blob) :: xs => do
    FWrite f (frameHeader kind blob)
    FWrite f blob
    writeBlocks f xs

/-- cmd/rewritenodes/rewriter/noderewriter_writer.go:15-44 on the blocks it receives. -/
def output (f : String) (xs : List Out) : Prog Unit := do
  OsCreate f
  writeBlocks f xs

/-- cmd/rewritenodes/rewritenodes.go:66-72: the concurrent run of one pass over the content of a file. -/
def rewriteCfg (inflate : Inflate) (sched : Block → Sched) (si : SubIdx) (file : List UInt8) : Cfg Out where
  file := file
  work := rewriteWork inflate sched si
  hasWriter := true
  write _ := .ok ()
  finish _ := .ok ()

/-- cmd/rewritenodes/rewritenodes.go:66-78: one pass that is not cancelled. The blocks that reach the writer are those
which the workers make of the blocks of the file, in file order: that is what every schedule of `rewriteCfg` delivers
(theorem `C46_any_schedule`). The writer creates its file while the workers read theirs; the two are different files
(otherwise the input would be truncated while mapped). -/
def pass (inflate : Inflate) (sched : Block → Sched) (si : SubIdx) (inp out : String) : Prog Unit := do
  OsOpen inp
  let m ← MMapMap inp
  let bs ← Prog.lift (split m)
  let xs ← Prog.lift (mapRes (rewriteWork inflate sched si) bs)
  output out xs

/-- cmd/rewritenodes/rewritenodes.go:56-59 -/
def passInput (inp out : String) (n i : Nat) : String :=
  if i > 0 then RelIndex.makePassFilename out i n else inp
/-- cmd/rewritenodes/rewritenodes.go:61-64 -/
def passOutput (out : String) (n i : Nat) : String :=
  if i + 1 < n then RelIndex.makePassFilename out (i + 1) n else out
/-- cmd/rewritenodes/rewritenodes.go:52-54 -/
def removeOld (out : String) (n i : Nat) : Prog Unit :=
  if i > 1 then OsRemoveTry (RelIndex.makePassFilename out (i - 1) n) else .pure ()

/-- cmd/rewritenodes/rewritenodes.go:49-80: passes `i … n-1` (`left` of them). `scheds i` is what the workers of pass
`i` meet by chance. -/
def runPasses (inflate : Inflate) (scheds : Nat → Block → Sched) (ix : NodeIdx) (inp out : String) (n : Nat) :
    Nat → Nat → Prog Unit
  | 0, _ => .pure ()
  | left + 1, i => do
    removeOld out n i
    let si ← Prog.lift (ix.SubIndex (UInt64.ofNat i) (UInt64.ofNat n))
    pass inflate (scheds i) si (passInput inp out n i) (passOutput out n i)
    runPasses inflate scheds ix inp out n left (i + 1)

/-- cmd/rewritenodes/rewritenodes.go:82-84 -/
def removeLast (out : String) (n : Nat) : Prog Unit :=
  if n > 1 then OsRemove (RelIndex.makePassFilename out (n - 1) n) else .pure ()

/-- cmd/rewritenodes/rewritenodes.go:34-84 -/
def rewritenodes (inflate : Inflate) (scheds : Nat → Block → Sched) (memory : Option UInt64) (inp index out : String) :
    Prog Unit := do
  OsOpen index
  let m ← MMapMap index
  let ix ← Prog.lift (NewNodeIndex m)
  let passes ← Prog.lift (passCount ix memory)
  runPasses inflate scheds ix inp out passes.toNat passes.toNat 0
  removeLast out passes.toNat

end Osm.Rewrite
