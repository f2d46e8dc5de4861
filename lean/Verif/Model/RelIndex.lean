import Verif.Model.WayIndex
import Verif.Model.T

/-!
# Model of cmd/relindex

The state setters (progress display) are not modelled, nor `FClose`, `MMapUnmap`, printing and timing.
-/

namespace Osm.RelIndex
open Osm Osm.T Osm.WayIndex

/-- internal/t/relation.go:11 -/
def RelationMemberTypeWay : UInt64 := 1

/-! ## relindexerinit -/

/-- cmd/relindex/relindexerinit/relindexer_worker.go:50-55 -/
def countWays : List UInt64 → Int64
  | [] => 0
  | mt :: mts => if mt = RelationMemberTypeWay then countWays mts + 1 else countWays mts

/-- cmd/relindex/relindexerinit/relindexer_worker.go:57-63: `idx` counts up, `r.MemberType[idx]` panics when out
of range. -/
def listWays (types : List UInt64) : Nat → List Int64 → Res (List Int64)
  | _, [] => .ok []
  | idx, wayId :: ids => do
    let mt ← Res.ofOption types[idx]?
    let rest ← listWays types (idx + 1) ids
    .ok (if mt ≠ RelationMemberTypeWay then rest else -wayId :: rest)

/-- cmd/relindex/relindexerinit/relindexer_worker.go:48-63, one relation. -/
def relationWords (r : Relation) : Res (List Int64) := do
  let ws ← listWays r.MemberType 0 r.MemIDs
  .ok (r.ID :: countWays r.MemberType :: ws)

/-- cmd/relindex/relindexerinit/relindexer_worker.go:45-65, one block. -/
def initBlock (pb : PrimitiveBlock) : Res (List Int64) := do
  let ws ← mapRes (fun pg : T.PrimitiveGroup => mapRes relationWords pg.Relations) pb.PrimitiveGroup
  .ok (ws.map List.flatten).flatten

/-- cmd/relindex/relindexerinit/relindexer_worker.go:29-77 once the blob is decoded (`none`: a block which is not
"OSMData", passed on and ignored by the writer). -/
def work : Option PrimitiveBlock → Res (Option (List Int64))
  | none => .ok none
  | some pb => do
    let ws ← initBlock pb
    .ok (some ws)

/-- cmd/relindex/relindexerinit/relindexer_writer.go:16-23, the loop over the received blocks. -/
def writeBlocks (f : String) : List (Option (List Int64)) → Prog Unit
  | [] => .pure ()
  | none :: bs => writeBlocks f bs
  | some ws :: bs => do
    FWriteSliceI64 f ws
    writeBlocks f bs

/-- cmd/relindex/relindexerinit/relindexer_writer.go:11-27 -/
def InitOutput (f : String) (blocks : List (Option (List Int64))) : Prog Unit := do
  OsCreate f
  writeBlocks f blocks

/-! ## relindex.go -/

/-- `u[i]`, `i++` on the remaining words. -/
def take1 : List Int64 → Res (Int64 × List Int64)
  | [] => .panic
  | x :: xs => .ok (x, xs)

/-- `u[i:i+n]`, `i += n` on the remaining words; the mapped file has no spare capacity. -/
def takeN (n : Int64) (u : List Int64) : Res (List Int64 × List Int64) :=
  if 0 ≤ n.toInt ∧ n.toInt ≤ (u.length : Int) then .ok (u.take n.toInt.toNat, u.drop n.toInt.toNat) else .panic

/-- cmd/relindex/relindex.go:54-68: a way not resolved yet. -/
def resolveWay (swi : SubIdx) (last : Bool) (wayId : Int64) : Res (List Int64) := do
  let r ← swi.FindLocations (-wayId) 0
  .ok (if !r.ok then (if !last then [wayId] else [-wayId, 0])
    else -wayId :: Int64.ofNat r.locs.length :: r.locs)

/-- cmd/relindex/relindex.go:69-76: a way resolved by an earlier pass. -/
def copyWay (wayId : Int64) (u : List Int64) : Res (List Int64 × List Int64) := do
  let (locCount, u) ← take1 u
  let (locs, u) ← takeN locCount u
  .ok (wayId :: locCount :: locs, u)

/-- cmd/relindex/relindex.go:51-76, one way: the output and the remaining input. -/
def rewriteWay (swi : SubIdx) (last : Bool) (u : List Int64) : Res (List Int64 × List Int64) := do
  let (wayId, u) ← take1 u
  if wayId < 0 then do
    let out ← resolveWay swi last wayId
    .ok (out, u)
  else copyWay wayId u

/-- cmd/relindex/relindex.go:50-78, the loop over the ways of a relation. -/
def rewriteWays (swi : SubIdx) (last : Bool) : Nat → List Int64 → Res (List Int64 × List Int64)
  | 0, u => .ok ([], u)
  | n + 1, u => do
    let (out, u) ← rewriteWay swi last u
    let (outs, u) ← rewriteWays swi last n u
    .ok (out ++ outs, u)

/-- cmd/relindex/relindex.go:42-78, one relation. A negative count means no iterations. -/
def rewriteRelation (swi : SubIdx) (last : Bool) (u : List Int64) : Res (List Int64 × List Int64) := do
  let (relId, u) ← take1 u
  let (wayCount, u) ← take1 u
  let (outs, u) ← rewriteWays swi last wayCount.toInt.toNat u
  .ok (relId :: wayCount :: outs, u)

/-- cmd/relindex/relindex.go:41-88: the loop over the relations, with the buffered output. Each relation takes at
least two words. -/
def rewriteLoop (swi : SubIdx) (last : Bool) (f : String) : Nat → List Int64 → List Int64 → Prog Unit
  | 0, _, _ => .lift .hang
  | _ + 1, outputData, [] => if outputData.length > 0 then FWriteSliceI64 f outputData else .pure ()
  | fuel + 1, outputData, w :: u => do
    let r ← Prog.lift (rewriteRelation swi last (w :: u))
    let out := outputData ++ r.1
    if out.length > 1000000 then do
      FWriteSliceI64 f out
      rewriteLoop swi last f fuel [] r.2
    else rewriteLoop swi last f fuel out r.2

/-- cmd/relindex/relindex.go:30-93 -/
def rewrite (outputFile inputFile : String) (ix : WayIdx) (pass count : Int64) : Prog Unit := do
  let swi ← Prog.lift (ix.SubIndexWithScaledPass pass count)
  OsOpen inputFile
  OsCreate outputFile
  let m ← MMapMap inputFile
  let u := ByteSliceAsInt64Slice m
  rewriteLoop swi (!(decide (pass + 1 < count))) outputFile (u.length + 1) [] u

/-- `%03d` of a non-negative number. -/
def pad3 (n : Nat) : String :=
  String.ofList (List.replicate (3 - (Nat.toDigits 10 n).length) '0' ++ Nat.toDigits 10 n)

/-- cmd/relindex/relindex.go:25-27 and cmd/rewritenodes/rewritenodes.go:20-22, for non-negative numbers. -/
def makePassFilename (fn : String) (pass count : Nat) : String :=
  fn ++ ".pass_" ++ pad3 pass ++ "_" ++ pad3 count

/-- cmd/relindex/relindex.go:127-141: passes `i … passes-1` (`left` of them). -/
def runPasses (out : String) (ix : WayIdx) (passes : Nat) : Nat → Nat → Prog Unit
  | 0, _ => .pure ()
  | left + 1, i => do
    rewrite (if i + 1 < passes then makePassFilename out (i + 1) passes else out) (makePassFilename out i passes) ix
      (Int64.ofNat i) (Int64.ofNat passes)
    OsRemoveTry (makePassFilename out i passes)
    runPasses out ix passes left (i + 1)

/-- cmd/relindex/relindex.go:111-141, given the blocks the writer of the first pass receives and the name of the
way index file. The number of passes is not negative (a negative one behaves like 0, but for its file name). -/
def relindex (out wayIndex : String) (passes : Nat) (blocks : List (Option (List Int64))) : Prog Unit := do
  InitOutput (makePassFilename out 0 passes) blocks
  OsOpen wayIndex
  let m ← MMapMap wayIndex
  let ix ← Prog.lift (NewWayIndex m)
  runPasses out ix passes passes 0

end Osm.RelIndex
