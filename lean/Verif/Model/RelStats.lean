import Verif.Model.RelIndex

/-!
# Model of the statistics of relindex

The counters of internal/wayindex/wayindex.go:26-30 live in the index; each lookup adds to one of them
(internal/wayindex/subindex.go:22, 33, 56, 60). The passes run in one goroutine, one after the other (cmd/relindex/relindex.go:127-141).
Here the programs of `Model/RelIndex` return, besides what they do, the increments made in each pass.
-/

namespace Osm.RelIndex
open Osm Osm.T Osm.WayIndex
open _root_.Osm.NodeIndex (Counter)

/-- cmd/relindex/relindex.go:51-76: the increments made for one way, and the remaining words. -/
def countWay (swi : SubIdx) (u : List Int64) : Res (List Counter × List Int64) := do
  let (wayId, u) ← take1 u
  if wayId < 0 then do
    let r ← swi.FindLocations (-wayId) 0
    .ok (r.counted, u)
  else do
    let (_, u) ← copyWay wayId u
    .ok ([], u)

/-- cmd/relindex/relindex.go:50-78: the ways of a relation. -/
def countWaysOf (swi : SubIdx) : Nat → List Int64 → Res (List Counter × List Int64)
  | 0, u => .ok ([], u)
  | n + 1, u => do
    let (c, u) ← countWay swi u
    let (cs, u) ← countWaysOf swi n u
    .ok (c ++ cs, u)

/-- cmd/relindex/relindex.go:42-78: one relation. -/
def countRelation (swi : SubIdx) (u : List Int64) : Res (List Counter × List Int64) := do
  let (_, u) ← take1 u
  let (wayCount, u) ← take1 u
  countWaysOf swi wayCount.toInt.toNat u

/-- cmd/relindex/relindex.go:41-88: the loop over the relations. -/
def countLoop (swi : SubIdx) : Nat → List Int64 → Res (List Counter)
  | 0, _ => .hang
  | _ + 1, [] => .ok []
  | fuel + 1, w :: u => do
    let (c, u) ← countRelation swi (w :: u)
    let cs ← countLoop swi fuel u
    .ok (c ++ cs)

/-- cmd/relindex/relindex.go:30-93: `rewrite`, returning the increments. -/
def rewriteC (outputFile inputFile : String) (ix : WayIdx) (pass count : Int64) : Prog (List Counter) := do
  let swi ← Prog.lift (ix.SubIndexWithScaledPass pass count)
  OsOpen inputFile
  OsCreate outputFile
  let m ← MMapMap inputFile
  let u := ByteSliceAsInt64Slice m
  rewriteLoop swi (!(decide (pass + 1 < count))) outputFile (u.length + 1) [] u
  Prog.lift (countLoop swi (u.length + 1) u)

/-- cmd/relindex/relindex.go:127-141: `runPasses`, returning the increments of each pass. -/
def runPassesC (out : String) (ix : WayIdx) (passes : Nat) : Nat → Nat → Prog (List (List Counter))
  | 0, _ => .pure []
  | left + 1, i => do
    let c ← rewriteC (if i + 1 < passes then makePassFilename out (i + 1) passes else out) (makePassFilename out i passes) ix
      (Int64.ofNat i) (Int64.ofNat passes)
    OsRemoveTry (makePassFilename out i passes)
    let cs ← runPassesC out ix passes left (i + 1)
    Prog.pure (c :: cs)

/-- cmd/relindex/relindex.go:111-141: `relindex`, returning the increments. -/
def relindexC (out wayIndex : String) (passes : Nat) (blocks : List (Option (List Int64))) : Prog (List (List Counter)) := do
  InitOutput (makePassFilename out 0 passes) blocks
  OsOpen wayIndex
  let m ← MMapMap wayIndex
  let ix ← Prog.lift (NewWayIndex m)
  runPassesC out ix passes passes 0

/-- The counters at the end: internal/wayindex/wayindex.go:26-30, each increment by one (modulo 2^64). -/
def counterValue (c : Counter) (counts : List (List Counter)) : UInt64 :=
  counts.flatten.foldl (fun v x => if x = c then v + 1 else v) 0

end Osm.RelIndex
