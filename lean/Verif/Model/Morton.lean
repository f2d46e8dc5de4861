import Verif.Go

/-!
# Model of internal/morton/morton.go
-/

namespace Osm.Morton
open Osm

/-- internal/morton/morton.go:8-16, the entry computed for `i`. -/
def entry (i : UInt64) : UInt64 :=
  (i &&& 1) <<< 0 ||| (i &&& 2) <<< 1 ||| (i &&& 4) <<< 2 ||| (i &&& 8) <<< 3 |||
  (i &&& 16) <<< 4 ||| (i &&& 32) <<< 5 ||| (i &&& 64) <<< 6 ||| (i &&& 128) <<< 7

/-- internal/morton/morton.go:5-19, `mortonTable256` after `init`. -/
def table256 : List UInt64 := (List.range 256).map fun i => entry (UInt64.ofNat i)

/-- `mortonTable256[i]` for an int32 `i`; panics out of range. -/
def tableAt (i : Int32) : Res UInt64 :=
  if 0 ≤ i.toInt then Res.ofOption table256[i.toInt.toNat]? else .panic

/-- internal/morton/morton.go:21-25 (`>>` on int32 is arithmetic) -/
def interleaveMorton16 (x y : Int32) : Res UInt64 := do
  let yl ← tableAt (y &&& 0xff)
  let xl ← tableAt (x &&& 0xff)
  let yh ← tableAt (y >>> 8)
  let xh ← tableAt (x >>> 8)
  let lo := (yl <<< 1) ||| xl
  let hi := (yh <<< 1) ||| xh
  .ok (lo ||| hi <<< 16)

/-- internal/morton/morton.go:27-31 -/
def Encode (evens odds : Int32) : Res UInt64 := do
  let lo ← interleaveMorton16 (evens &&& 0xffff) (odds &&& 0xffff)
  let hi ← interleaveMorton16 ((evens >>> 16) &&& 0xffff) ((odds >>> 16) &&& 0xffff)
  .ok (lo ||| hi <<< 32)

/-- internal/morton/morton.go:36-46, `n` iterations of the loop. -/
def decodeLoop : Nat → UInt32 → UInt32 → UInt64 → UInt32 × UInt32
  | 0, e, o, _ => (e, o)
  | n + 1, e, o, x =>
    decodeLoop n
      (if x &&& 1 ≠ 0 then (e >>> 1) ||| 0x80000000 else e >>> 1)
      (if x &&& 2 ≠ 0 then (o >>> 1) ||| 0x80000000 else o >>> 1)
      (x >>> 2)

/-- internal/morton/morton.go:33-48 -/
def Decode (x : UInt64) : UInt32 × UInt32 := decodeLoop 32 0 0 x

/-- internal/morton/morton.go:50-60 -/
def DecodeLocation (x : UInt64) : Int32 × Int32 :=
  let (e, o) := Decode x
  (e.toInt32, (o.toInt32 <<< 1) >>> 1)

/-- cmd/nodeindex/indexer/nodeindexer_worker.go:79, the location stored for a node:
`int64(morton.Encode(lon, lat|math.MinInt32))`. -/
def location (lon lat : Int32) : Res Int64 := do
  let c ← Encode lon (lat ||| Int32.minValue)
  .ok c.toInt64

end Osm.Morton
