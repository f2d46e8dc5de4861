import Verif.Model.NodeIndex
import Verif.Model.Pb

/-!
# Model of internal/wayindex

Not here: the timing branch of `FindLocations` (subindex.go:72-86), which is in Model/Timing, and `PrintStats`, which is in
Model/Text; they only affect printed statistics. `Close` is not modelled.
-/

namespace Osm.WayIndex
open Osm Osm.Pb Osm.NodeIndex

/-- Go's `x << s` for a signed shift count: panics if negative, 0 from 64 on. -/
def goShl (x s : Int64) : Res Int64 :=
  if s < 0 then .panic else if s ≥ 64 then .ok 0 else .ok (x <<< s)

/-- internal/wayindex/indexdata.go:9-12 -/
def WayID (d : UInt64) : Int64 := (d >>> 33).toInt64
/-- internal/wayindex/indexdata.go:14-16 -/
def Offset (d : UInt64) : Int64 := d.toInt64 &&& 0x1ffffffff

/-- internal/wayindex/indexdata.go:18-26 -/
def MakeIndexData (wayID offset : Int64) : Res UInt64 :=
  if wayID > 0x80000000 then .panic
  else if offset > 0x200000000 then .panic
  else .ok (wayID <<< 33 ||| offset).toUInt64

/-- internal/wayindex/wayindex.go:15-31, the file's content. -/
structure WayIdx where
  Ids : List UInt64
  Loc : List UInt8
  AlignmentShift : Int64
deriving DecidableEq, Repr

/-- `m[i:i+8]` read by `binary.LittleEndian.Uint64` (internal/wayindex/wayindex.go:38, 40), for `i` a
multiple of 8. -/
def wordAt (file : List UInt8) (i : Nat) : Res UInt64 := Res.ofOption (wordsOf file)[i / 8]?

/-- internal/wayindex/wayindex.go:35-59, on the bytes of the mapped file; uint64 arithmetic wraps. -/
def NewWayIndex (file : List UInt8) : Res WayIdx := do
  let n ← wordAt file 0
  let n := n * 8
  let shift ← wordAt file 8
  let e := (16 + n).toNat
  if 16 ≤ e ∧ e ≤ file.length then
    .ok ⟨wordsOf ((file.take e).drop 16), file.drop e, shift.toInt64⟩
  else .panic

/-- internal/wayindex/subindex.go:11-16; `AlignmentShift` is the parent's. -/
structure SubIdx where
  Ids : List UInt64
  Loc : List UInt8
  AlignmentShift : Int64
  Top : Int64
deriving DecidableEq, Repr

/-- The loops of internal/wayindex/wayindex.go:75-80 and 82-87: the first index from `i` whose byte offset
has reached the target. -/
def firstReaching (shift : Int64) (target : Int) : Nat → List UInt64 → Res (Option Nat)
  | _, [] => .ok none
  | i, d :: ds => do
    let o ← goShl (Offset d) shift
    if o.toInt ≥ target then .ok (some i) else firstReaching shift target (i + 1) ds

/-- internal/wayindex/wayindex.go:65-95. `int` division truncates and panics on zero; products wrap. -/
def WayIdx.SubIndexWithScaledPass (ix : WayIdx) (curPass countPass : Int64) : Res SubIdx :=
  if countPass = 0 then .panic
  else do
    let slice := (ix.Loc.length : Int).tdiv countPass.toInt
    let startTarget := goInt (slice * curPass.toInt)
    let endTarget := goInt (slice * goInt (curPass.toInt + 1))
    let s ← firstReaching ix.AlignmentShift startTarget 0 ix.Ids
    let startIndex := s.getD 0
    let e ← firstReaching ix.AlignmentShift endTarget startIndex (ix.Ids.drop startIndex)
    let endIndex := e.getD ix.Ids.length
    if endIndex = 0 then .panic
    else do
      let last ← Res.ofOption ix.Ids[endIndex - 1]?
      .ok ⟨(ix.Ids.take endIndex).drop startIndex, ix.Loc, ix.AlignmentShift, WayID last⟩

/-- What a lookup returns (`nil` is the empty list), and the counters it increments. -/
structure Found where
  locs : List Int64
  hint : Int
  ok : Bool
  counted : List Counter
deriving DecidableEq, Repr

/-- internal/wayindex/subindex.go:35-36 and 61-62: `si.Loc[offset<<shift:]`, decoded. The mapped file has no
spare capacity. -/
def SubIdx.decodeAt (si : SubIdx) (d : UInt64) : Res (List Int64) := do
  let o ← goShl (Offset d) si.AlignmentShift
  if 0 ≤ o.toInt ∧ o.toInt ≤ (si.Loc.length : Int) then
    DecodeS64PackedDeltaZero ⟨si.Loc.drop o.toInt.toNat, []⟩
  else .panic

/-- The binary search of internal/wayindex/subindex.go:42-53, ending with `lowerPoint`. -/
def search (ids : List UInt64) (id : Int64) : Nat → Nat → Nat → Res Nat
  | 0, _, _ => .hang
  | fuel + 1, lo, hi =>
    if lo < hi then do
      let mid := (lo + hi) / 2
      let d ← Res.ofOption ids[mid]?
      if id < WayID d then search ids id fuel lo mid
      else if id = WayID d then .ok mid
      else search ids id fuel (mid + 1) hi
    else .ok lo

/-- internal/wayindex/subindex.go:42-62: the search between two bounds, and its result. -/
def SubIdx.findBetween (si : SubIdx) (id : Int64) (hint : Int) (lo hi : Nat) : Res Found := do
  let p ← search si.Ids id (si.Ids.length + 1) lo hi
  match si.Ids[p]? with
  | none => .ok ⟨[], hint, false, [.missDefault]⟩
  | some d =>
    if WayID d ≠ id then .ok ⟨[], hint, false, [.missDefault]⟩
    else do
      let ls ← si.decodeAt d
      .ok ⟨ls, p, true, [.hitDefault]⟩

/-- internal/wayindex/subindex.go:18-63, 67-70 -/
def SubIdx.FindLocations (si : SubIdx) (id : Int64) (hint : Int) : Res Found :=
  if id > si.Top then .ok ⟨[], hint, false, [.missDeferred]⟩
  else if hint < si.Ids.length then
    if hint < 0 then .panic
    else do
      let d ← Res.ofOption si.Ids[hint.toNat]?
      if id < WayID d then si.findBetween id hint 0 hint.toNat
      else if id = WayID d then do
        let ls ← si.decodeAt d
        .ok ⟨ls, hint, true, [.hitHint]⟩
      else si.findBetween id hint hint.toNat si.Ids.length
  else si.findBetween id hint 0 si.Ids.length

end Osm.WayIndex
