import Verif.Model.Count
import Verif.Model.Dump
import Verif.Model.Progress

/-!
# Model of the text that the commands print

`fmt.Printf` with the verbs that are used: `%d`, `%x`, `%f` and `%v` of a slice of integers, as the documentation of package
`fmt` says. `%#v` (entityfind) is in Model/TextFind. Not modelled: run times, and the bounds of the buckets in `PrintStats` (`math.Pow`): any text.
-/

namespace Osm.Text
open Osm

abbrev Text := List Char

/-- `%d` -/
def fmtD (z : Int) : Text := if z < 0 then '-' :: Nat.toDigits 10 z.natAbs else Nat.toDigits 10 z.natAbs

/-- `%x` of a uint64. -/
def fmtX (n : UInt64) : Text := Nat.toDigits 16 n.toNat

/-- `%v` of the elements of a slice: single spaces between them. -/
def fmtVs : List Int64 → Text
  | [] => []
  | [z] => fmtD z.toInt
  | z :: zs => fmtD z.toInt ++ ' ' :: fmtVs zs

/-- `%v` of a slice. -/
def fmtV (zs : List Int64) : Text := '[' :: (fmtVs zs ++ [']'])

/-- A number of millionths, with leading zeros up to one digit before the point. -/
def padded (n : Nat) : Text := List.replicate (7 - (Nat.toDigits 10 n).length) '0' ++ Nat.toDigits 10 n

/-- The digits of a number of millionths, with the point. -/
def pointed (n : Nat) : Text := (padded n).take ((padded n).length - 6) ++ '.' :: (padded n).drop ((padded n).length - 6)

/-- `%f` of a finite float64: rounded to six digits after the point, ties to even, with a minus sign if the number is
negative (even if all digits are 0). -/
def fmtF (q : Rat) : Text :=
  if q < 0 then '-' :: pointed (Progress.toNearest (-q * 1000000)).toNat else pointed (Progress.toNearest (q * 1000000)).toNat

/-- `float64(v)/10_000_000`: cmd/dumpnodeindex/dumpnodeindex.go:60, 76. -/
def degrees (v : Int32) : Rat := Progress.rnd (Progress.rnd v.toInt / Progress.rnd 10000000)

/-- The lines of cmd/dumpnodeindex/dumpnodeindex.go:55, 58-64, 71, 74-77, 83. -/
def nodeLine : Dump.NodeLine → Text
  | .extractSkip => "Extract: skip\n".toList
  | .extract x lng lat first idx id =>
    "Extract: ".toList ++ fmtX x ++ " (".toList ++ fmtF (degrees lng) ++ ", ".toList ++ fmtF (degrees lat) ++ ") [".toList ++
      fmtD first.toNat ++ "+".toList ++ fmtD idx.toNat ++ "=".toList ++ fmtD id.toNat ++ "]\n".toList
  | .searchSkip => " Search: skip\n".toList
  | .search x lng lat =>
    " Search: ".toList ++ fmtX x ++ " (".toList ++ fmtF (degrees lng) ++ ", ".toList ++ fmtF (degrees lat) ++ ")\n".toList
  | .mismatch => "XX MISMATCH!\n".toList

/-- The lines of cmd/dumpwayindex/dumpwayindex.go:31, 36, 38. -/
def wayLine : Dump.WayLine → Text
  | .extract id locs => fmtD id.toInt ++ " ".toList ++ fmtV locs ++ "\n".toList
  | .failed id => "XX failed to find way ".toList ++ fmtD id.toInt ++ "\n".toList
  | .found id locs => fmtD id.toInt ++ " ".toList ++ fmtV locs ++ "\n".toList

/-- What dumpnodeindex writes to the standard output. -/
def nodesText (ls : List Dump.NodeLine) : Text := ls.flatMap nodeLine

/-- What dumpwayindex writes to the standard output. -/
def waysText (ls : List Dump.WayLine) : Text := ls.flatMap wayLine

/-- cmd/entitycount/entitycount.go:111-115 -/
def countsText (m : Count.Var → UInt64) : Text :=
  "Counted ".toList ++ fmtD (m .blockCount).toNat ++ " blocks\n".toList ++
  ("Counted ".toList ++ fmtD (m .nodeCount).toNat ++ " nodes, ".toList ++ fmtD (m .maxNode).toNat ++ " max\n".toList) ++
  ("Counted ".toList ++ fmtD (m .wayCount).toNat ++ " ways, ".toList ++ fmtD (m .maxWay).toNat ++ " max\n".toList) ++
  ("Counted ".toList ++ fmtD (m .wayRefCount).toNat ++ " ways refs, ".toList ++ fmtD (m .maxWayRefCount).toNat ++
    " maximum length\n".toList) ++
  ("Counted ".toList ++ fmtD (m .relationCount).toNat ++ " relations, ".toList ++ fmtD (m .maxRelation).toNat ++ " max\n".toList)

/-- cmd/blockcount/blockcount.go:40 -/
def blocksText (n : UInt64) : Text := "Counted ".toList ++ fmtD n.toNat ++ " blocks\n".toList

/-- internal/nodeindex/nodeindex.go:113-123 and internal/wayindex/wayindex.go:106-116, from the `i`-th bucket on. `low` and
`high` are the texts of the bounds of a bucket. -/
def bucketsText (low high : Nat → Text) : Nat → List UInt64 → Text
  | _, [] => []
  | i, count :: rest =>
    (if count ≠ 0 then
      "time: ".toList ++ fmtD i ++ " ".toList ++ low i ++ "-".toList ++ high i ++ " = ".toList ++ fmtD count.toNat ++ "\n".toList
     else []) ++ bucketsText low high (i + 1) rest

/-- internal/nodeindex/nodeindex.go:104-124 and internal/wayindex/wayindex.go:97-117: `PrintStats` -/
def statsText (low high : Nat → Text) (hitHint hitDefault missDefault missDeferred : UInt64) (buckets : List UInt64) : Text :=
  "hitHint:      ".toList ++ fmtD hitHint.toNat ++ "\n".toList ++
  ("hitDefault:   ".toList ++ fmtD hitDefault.toNat ++ "\n".toList) ++
  ("missDefault:  ".toList ++ fmtD missDefault.toNat ++ "\n".toList) ++
  ("missDeferred: ".toList ++ fmtD missDeferred.toNat ++ "\n".toList) ++
  bucketsText low high 0 buckets

end Osm.Text
