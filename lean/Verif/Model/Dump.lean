import Verif.Model.Morton
import Verif.Model.WayIndex

/-!
# Model of cmd/dumpnodeindex and cmd/dumpwayindex

The printed lines are values; the text of a line (`%x`, `%f`, `%d`, `%v`) is in Model/Text.
-/

namespace Osm.Dump
open Osm

/-- A line printed by dumpnodeindex: cmd/dumpnodeindex/dumpnodeindex.go:55, 58-64, 71, 74-77, 83. -/
inductive NodeLine where
  | extractSkip
  | extract (loc : UInt64) (lng lat : Int32) (first idx id : UInt64)
  | searchSkip
  | search (loc : UInt64) (lng lat : Int32)
  | mismatch
deriving DecidableEq, Repr

/-- cmd/dumpnodeindex/args.go:13-22, after parsing. -/
structure NodeOpts where
  PrintLocations : Bool
  SearchIndex : Bool
  SubIndex : Option (UInt64 × UInt64)
  StartElement : Option Int
  EndElement : Option Int
deriving DecidableEq, Repr

/-- dumpnodeindex.go:50-66: the extracted location and the line printed for it; 0 without the option. -/
def extractSlot (o : NodeOpts) (si : NodeIndex.SubIdx) (e : NodeIndex.IndexElement) (idx : UInt64) :
    Res (UInt64 × List NodeLine) :=
  if o.PrintLocations then do
    let l ← NodeIndex.locAt si.locations (e.Offset + idx)
    let x := l.toUInt64
    .ok (x, if x = 0 then [.extractSkip] else
      [.extract x (Morton.DecodeLocation x).1 (Morton.DecodeLocation x).2 e.FirstID idx (e.FirstID + idx)])
  else .ok (0, [])

/-- dumpnodeindex.go:67-79: the found location and the line printed for it; 0 without the option. -/
def searchSlot (o : NodeOpts) (si : NodeIndex.SubIdx) (e : NodeIndex.IndexElement) (idx : UInt64) :
    Res (UInt64 × List NodeLine) :=
  if o.SearchIndex then do
    let r ← si.findNode (e.FirstID + idx) 0
    let x := r.loc.toUInt64
    .ok (x, if !r.ok then [.searchSkip] else
      [.search x (Morton.DecodeLocation x).1 (Morton.DecodeLocation x).2])
  else .ok (0, [])

/-- dumpnodeindex.go:50-85, one round of the inner loop. -/
def dumpSlot (o : NodeOpts) (si : NodeIndex.SubIdx) (e : NodeIndex.IndexElement) (idx : UInt64) : Res (List NodeLine) := do
  let x ← extractSlot o si e idx
  let s ← searchSlot o si e idx
  .ok (x.2 ++ s.2 ++ if o.PrintLocations && o.SearchIndex && x.1 != s.1 then [.mismatch] else [])

/-- dumpnodeindex.go:38-87, one round of the outer loop. A count is below 2^24, so the loop
`for idx := uint64(0); idx < element.Count(); idx++` is a loop over its values. -/
def dumpElement (o : NodeOpts) (si : NodeIndex.SubIdx) (cur : Int) : Res (List NodeLine) :=
  if cur < 0 then .panic
  else do
    let e ← Res.ofOption si.element[cur.toNat]?
    if o.SearchIndex || o.PrintLocations then do
      let ls ← mapRes (fun i => dumpSlot o si e (UInt64.ofNat i)) (List.range e.Count.toNat)
      .ok ls.flatten
    else .ok []

/-- dumpnodeindex.go:20-25 -/
def pickSub (o : NodeOpts) (ix : NodeIndex.NodeIdx) : Res NodeIndex.SubIdx :=
  match o.SubIndex with
  | some p => ix.SubIndex p.1 p.2
  | none => ix.SubIndex 0 1

/-- dumpnodeindex.go:27-35: the first element, and one past the last. -/
def bounds (o : NodeOpts) (si : NodeIndex.SubIdx) : Int × Int :=
  (o.StartElement.getD 0,
   match o.EndElement with
   | some e => if e < (si.element.length : Int) then e else si.element.length
   | none => si.element.length)

/-- dumpnodeindex.go:18-88, on the bytes of the mapped file. -/
def dumpNodes (o : NodeOpts) (file : List UInt8) : Res (List NodeLine) := do
  let ix ← NodeIndex.NewNodeIndex file
  let si ← pickSub o ix
  let b := bounds o si
  let ls ← mapRes (fun (i : Nat) => dumpElement o si (b.1 + i)) (List.range (b.2 - b.1).toNat)
  .ok ls.flatten

/-- A line printed by dumpwayindex: cmd/dumpwayindex/dumpwayindex.go:31, 36, 38. -/
inductive WayLine where
  | extract (id : Int64) (locs : List Int64)
  | failed (id : Int64)
  | found (id : Int64) (locs : List Int64)
deriving DecidableEq, Repr

/-- cmd/dumpwayindex/args.go:13-20, after parsing. -/
structure WayOpts where
  PrintLocations : Bool
  SearchIndex : Bool
  SubIndex : Option (Int64 × Int64)
deriving DecidableEq, Repr

/-- dumpwayindex.go:28-32; slicing and decoding as in the lookup, but by the whole index. -/
def extractWay (o : WayOpts) (ix : WayIndex.WayIdx) (d : UInt64) : Res (List WayLine) :=
  if o.PrintLocations then do
    let s ← WayIndex.goShl (WayIndex.Offset d) ix.AlignmentShift
    if 0 ≤ s.toInt ∧ s.toInt ≤ (ix.Loc.length : Int) then do
      let ls ← Pb.DecodeS64PackedDeltaZero ⟨ix.Loc.drop s.toInt.toNat, []⟩
      .ok [.extract (WayIndex.WayID d) ls]
    else .panic
  else .ok []

/-- dumpwayindex.go:33-40 -/
def searchWay (o : WayOpts) (si : WayIndex.SubIdx) (d : UInt64) : Res (List WayLine) :=
  if o.SearchIndex then do
    let r ← si.FindLocations (WayIndex.WayID d) 0
    .ok [if !r.ok then .failed (WayIndex.WayID d) else .found (WayIndex.WayID d) r.locs]
  else .ok []

/-- dumpwayindex.go:27-41, one round of the loop. -/
def dumpWay (o : WayOpts) (ix : WayIndex.WayIdx) (si : WayIndex.SubIdx) (d : UInt64) : Res (List WayLine) := do
  let a ← extractWay o ix d
  let b ← searchWay o si d
  .ok (a ++ b)

/-- dumpwayindex.go:20-25 -/
def pickWaySub (o : WayOpts) (ix : WayIndex.WayIdx) : Res WayIndex.SubIdx :=
  match o.SubIndex with
  | some p => ix.SubIndexWithScaledPass p.1 p.2
  | none => ix.SubIndexWithScaledPass 0 1

/-- dumpwayindex.go:18-41, on the bytes of the mapped file. -/
def dumpWays (o : WayOpts) (file : List UInt8) : Res (List WayLine) := do
  let ix ← WayIndex.NewWayIndex file
  let si ← pickWaySub o ix
  let ls ← mapRes (dumpWay o ix si) ix.Ids
  .ok ls.flatten

end Osm.Dump
