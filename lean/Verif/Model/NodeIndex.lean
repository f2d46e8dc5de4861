import Verif.Model.Fs

/-!
# Model of internal/nodeindex

Not here: the timing branch of `FindNode` (nodesubindex.go:78-100), which is in Model/Timing, and `PrintStats`, which is in
Model/Stats and Model/Text; they only affect printed statistics.
-/

namespace Osm.NodeIndex
open Osm

/-- internal/nodeindex/count_offset.go:4-8 -/
def CountBits : UInt64 := 24
/-- internal/nodeindex/count_offset.go:5 -/
def CountMax : UInt64 := 1 <<< CountBits
/-- internal/nodeindex/count_offset.go:6 -/
def CountMask : UInt64 := CountMax - 1
/-- internal/nodeindex/count_offset.go:7-8 -/
def OffsetMax : UInt64 := 1 <<< (64 - CountBits)

/-- internal/nodeindex/count_offset.go:13-15 -/
def coOffset (co : UInt64) : UInt64 := co >>> CountBits
/-- internal/nodeindex/count_offset.go:17-19 -/
def coCount (co : UInt64) : UInt64 := co &&& CountMask

/-- internal/nodeindex/count_offset.go:21-29 -/
def NewCountOffset (count offset : UInt64) : Res UInt64 :=
  if offset ≥ OffsetMax then .panic
  else if count > CountMax then .panic
  else .ok ((offset <<< CountBits) ||| count)

/-- internal/nodeindex/index_element.go:3-6 -/
structure IndexElement where
  baseId : UInt64
  countOffset : UInt64
deriving DecidableEq, Repr

namespace IndexElement
/-- internal/nodeindex/index_element.go:8-10 -/
def FirstID (ie : IndexElement) : UInt64 := ie.baseId
/-- internal/nodeindex/index_element.go:16-18 -/
def Offset (ie : IndexElement) : UInt64 := coOffset ie.countOffset
/-- internal/nodeindex/index_element.go:20-22 -/
def Count (ie : IndexElement) : UInt64 := coCount ie.countOffset
/-- internal/nodeindex/index_element.go:12-14 -/
def LastID (ie : IndexElement) : UInt64 := ie.FirstID + ie.Count - 1
/-- internal/nodeindex/index_element.go:46-48 -/
def contains (ie : IndexElement) (id : UInt64) : Bool := id ≥ ie.FirstID && id ≤ ie.LastID
/-- internal/nodeindex/index_element.go:24-32 -/
def OffsetForID (ie : IndexElement) (id : UInt64) : Res UInt64 :=
  if !ie.contains id then .panic
  else .ok (ie.Offset + (id - ie.FirstID))
/-- internal/nodeindex/index_element.go:34-45 -/
def compareId (ie : IndexElement) (id : UInt64) : Int :=
  if id < ie.FirstID then -1 else if id > ie.LastID then 1 else 0
end IndexElement

/-- internal/nodeindex/nodeindex.go:14-29, the file's content. -/
structure NodeIdx where
  elements : List IndexElement
  locations : List Int64
deriving DecidableEq, Repr

/-- internal/nodeindex/version.go -/
def Version : Int64 := 1

/-- internal/nodeindex/nodeindex.go:31-55, on the bytes of the mapped file. `startOfLocations*2` wraps
like int64; mapping an empty file fails, which is a panic as well. -/
def NewNodeIndex (file : List UInt8) : Res NodeIdx := do
  let d := wordsOf file
  let version ← Res.ofOption d[0]?
  if version.toInt64 ≠ Version then .panic
  else newNodeIndexBody d
where
  /-- Lines 40-55. -/
  newNodeIndexBody (d : List UInt64) : Res NodeIdx := do
    let s ← Res.ofOption d[1]?
    let d := d.drop 2
    let n : Int := (s.toInt64 * 2).toInt
    if 0 ≤ n ∧ n ≤ (d.length : Int) then
      .ok ⟨(pairsOf (d.take n.toNat)).map fun p => ⟨p.1, p.2⟩, (d.drop n.toNat).map (·.toInt64)⟩
    else .panic

/-- internal/nodeindex/nodeindex.go:58-60 -/
def NodeIdx.LocationCount (ix : NodeIdx) : UInt64 := UInt64.ofNat ix.locations.length

/-- internal/nodeindex/nodesubindex.go:9-14 (the parent's counters are returned by the lookup). -/
structure SubIdx where
  element : List IndexElement
  locations : List Int64
  Top : UInt64
deriving DecidableEq, Repr

/-- The loops of internal/nodeindex/nodeindex.go:77-83 and 85-91: the first index from `i` whose running
total has reached the target, with the running total there; `none` if there is none, and then the running
total of everything. -/
def firstReaching (target : UInt64) : Nat → UInt64 → List IndexElement → Option Nat × UInt64
  | _, total, [] => (none, total)
  | i, total, e :: es =>
    if total ≥ target then (some i, total) else firstReaching target (i + 1) (total + e.Count) es

/-- internal/nodeindex/nodeindex.go:64-100. uint64 arithmetic wraps; division by zero panics. -/
def NodeIdx.SubIndex (ix : NodeIdx) (curPass countPass : UInt64) : Res SubIdx :=
  if countPass = 0 then .panic
  else
    let sliceSize := UInt64.ofNat ix.locations.length / countPass
    let startTarget := sliceSize * curPass
    let endTarget := startTarget + sliceSize
    let s := firstReaching startTarget 0 0 ix.elements
    let startIndex := s.1.getD 0
    let e := firstReaching endTarget startIndex s.2 (ix.elements.drop startIndex)
    let endIndex := e.1.getD ix.elements.length
    if endIndex = 0 then .panic
    else do
      let last ← Res.ofOption ix.elements[endIndex - 1]?
      .ok ⟨(ix.elements.take endIndex).drop startIndex, ix.locations, last.LastID⟩

/-- The four counters of internal/nodeindex/nodeindex.go:24-28. -/
inductive Counter where
  | hitHint | hitDefault | missDeferred | missDefault
deriving DecidableEq, Repr

/-- What a lookup returns, and the counters it increments, in order. -/
structure Found where
  loc : Int64
  hint : Int
  ok : Bool
  counted : List Counter
deriving DecidableEq, Repr

/-- `si.locations[i]`. -/
def locAt (locs : List Int64) (i : UInt64) : Res Int64 := Res.ofOption locs[i.toNat]?

/-- The binary search of internal/nodeindex/nodesubindex.go:53-64, ending with `lowerPoint`. Indices are
non-negative and below 2^60, so `uint(lo+hi)>>1` is their mean. Each iteration shrinks the interval. -/
def search (es : List IndexElement) (id : UInt64) : Nat → Nat → Nat → Res Nat
  | 0, _, _ => .hang
  | fuel + 1, lo, hi =>
    if lo < hi then do
      let mid := (lo + hi) / 2
      let e ← Res.ofOption es[mid]?
      let cmp := e.compareId id
      if cmp < 0 then search es id fuel lo mid
      else if cmp = 0 then .ok mid
      else search es id fuel (mid + 1) hi
    else .ok lo

/-- internal/nodeindex/nodesubindex.go:53-74: the search between two bounds, and its result. -/
def SubIdx.findBetween (si : SubIdx) (id : UInt64) (hint : Int) (lo hi : Nat) : Res Found := do
  let p ← search si.element id (si.element.length + 1) lo hi
  match si.element[p]? with
  | none => .ok ⟨0, hint, false, [.missDefault]⟩
  | some e =>
    if !e.contains id then .ok ⟨0, hint, false, [.missDefault]⟩
    else do
      let o ← e.OffsetForID id
      let loc ← locAt si.locations o
      .ok ⟨loc, p, loc ≠ 0, [.hitDefault]⟩

/-- internal/nodeindex/nodesubindex.go:28-74 -/
def SubIdx.findNode (si : SubIdx) (id : UInt64) (hint : Int) : Res Found :=
  if id > si.Top then .ok ⟨0, hint, false, [.missDeferred]⟩
  else if hint < si.element.length then
    if hint < 0 then .panic
    else do
      let e ← Res.ofOption si.element[hint.toNat]?
      if e.compareId id = -1 then si.findBetween id hint 0 hint.toNat
      else if e.compareId id = 0 then do
        let o ← e.OffsetForID id
        let loc ← locAt si.locations o
        .ok ⟨loc, hint, loc ≠ 0, [.hitHint]⟩
      else si.findBetween id hint hint.toNat si.element.length
  else si.findBetween id hint 0 si.element.length

end Osm.NodeIndex

namespace Osm.NodeIndex
open Osm

/-- cmd/rewritenodes/rewritenodes.go:36-42: the number of passes for an optional memory target in MiB
(uint64 arithmetic; division by zero panics). -/
def passCount (ix : NodeIdx) (memory : Option UInt64) : Res UInt64 :=
  match memory with
  | none => .ok 1
  | some m =>
    let memTarget := m * 1048576
    let memRequired := ix.LocationCount * 8
    if memTarget = 0 then .panic else .ok (memRequired / memTarget + 1)

end Osm.NodeIndex
