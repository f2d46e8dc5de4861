import Verif.Model.Display
import Verif.Model.Text

/-!
# Model of the text of the lines on the screen

cmd/*/*/widget/*.go and internal/ui/widget/widget_process_state.go. As in Model/Display, `m k` are the variables at the moment of
the `k`-th load, and `none` means that the text is left as it was. What `SetMarkup` does with a text is in Model/Progress.
-/

namespace Osm.TextLines
open Osm Osm.Text Osm.Timing Osm.Display

/-- A number of tenths. -/
def pointed1 (n : Nat) : Text := Nat.toDigits 10 (n / 10) ++ ['.', (n % 10).digitChar]

/-- `%2.01f` of a number that is not negative: rounded to one digit after the point, ties to even. -/
def fmtPct : F64 → Text
  | .fin q => pointed1 (Progress.toNearest (q * 10)).toNat
  | .posInf => "+Inf".toList
  | .negInf => "-Inf".toList
  | .negZero => "-0.0".toList
  | .nan => "NaN".toList

/-- `100*pct` -/
def hundred : F64 → F64
  | .fin q => .fin (Progress.rnd (100 * q))
  | x => x

/-- `%d` of a uint64. -/
def fmtU (n : UInt64) : Text := fmtD n.toNat

/-- cmd/nodeindex/indexer/widget/widget_state_worker.go:26-37 (the same for wayindex and relindex) -/
def indexWorkerText (m : Nat → Mem) : Option Text :=
  match (m 0 .state).toNat with
  | 0 => some "Worker: waiting for block".toList
  | 1 => some ("Worker: decoding block ".toList ++ fmtU (m 1 .block))
  | 2 => some ("Worker: processing block ".toList ++ fmtU (m 1 .block))
  | 3 => some ("Worker: sending block ".toList ++ fmtU (m 1 .block))
  | _ => none

/-- cmd/decompress/decompressor/widget/widget_state_worker.go:26-39 -/
def decompressWorkerText (m : Nat → Mem) : Option Text :=
  match (m 0 .state).toNat with
  | 0 => some "Worker: waiting for block".toList
  | 1 => some ("Worker: decoding blob ".toList ++ fmtU (m 1 .block))
  | 2 => some ("Worker: decompressing blob ".toList ++ fmtU (m 1 .block))
  | 3 => some ("Worker: encoding blob ".toList ++ fmtU (m 1 .block))
  | 4 => some ("Worker: sending block ".toList ++ fmtU (m 1 .block))
  | _ => none

/-- The numbers of cmd/tagfilter/tagfilterer/widget/widget_state_worker.go:31-37. -/
def tagfilterNumbers (m : Nat → Mem) : Text :=
  fmtU (m 1 .block) ++ ", ".toList ++ fmtU (m 2 .kept) ++ " kept, ".toList ++ fmtU (m 3 .dropped) ++ " dropped".toList

/-- cmd/tagfilter/tagfilterer/widget/widget_state_worker.go:26-39 -/
def tagfilterWorkerText (m : Nat → Mem) : Option Text :=
  match (m 0 .state).toNat with
  | 0 => some "Worker: waiting for block".toList
  | 1 => some ("Worker: decoding block ".toList ++ tagfilterNumbers m)
  | 2 => some ("Worker: processing block ".toList ++ tagfilterNumbers m)
  | 3 => some ("Worker: encoding block ".toList ++ tagfilterNumbers m)
  | 4 => some ("Worker: sending block ".toList ++ tagfilterNumbers m)
  | _ => none

/-- cmd/rewritenodes/rewriter/widget/widget_state_worker.go:27-51 (for "working", the text given to `SetText` or `MarkupAsProgress`) -/
def rewriteWorkerText (m : Nat → Mem) : Option Text :=
  match (m 0 .state).toNat with
  | 0 => some "Worker: waiting for block".toList
  | 1 => some ("Worker: decoding block ".toList ++ fmtU (m 1 .block))
  | 2 => some ("Worker: working on block ".toList ++ fmtU (m 3 .block) ++ ", way ".toList ++ fmtU (m 1 .way) ++ "/".toList ++
      fmtU (m 2 .ways))
  | 3 => some ("Worker: sending block ".toList ++ fmtU (m 1 .block))
  | _ => none

/-- cmd/decompress/decompressor/widget/widget_state_writer.go:26-34 and cmd/rewritenodes/rewriter/widget/widget_state_writer.go:26-34 -/
def blockWriterText (m : Nat → Mem) : Option Text :=
  match (m 0 .state).toNat with
  | 0 => some "Writer: waiting for block".toList
  | 1 => some ("Writer: writing block ".toList ++ fmtU (m 1 .block))
  | _ => none

/-- cmd/relindex/relindexerinit/widget/widget_state_writer.go:26-33 -/
def relWriterText (m : Nat → Mem) : Option Text :=
  match (m 0 .state).toNat with
  | 0 => some "Writer: waiting for block".toList
  | 1 => some ("Writer: writing index block ".toList ++ fmtU (m 1 .block))
  | _ => none

/-- cmd/tagfilter/tagfilterer/widget/widget_state_writer.go:26-33 -/
def tagfilterWriterText (m : Nat → Mem) : Option Text :=
  match (m 0 .state).toNat with
  | 0 => some ("Writer: waiting for block, dropped ".toList ++ fmtU (m 1 .filler) ++ "/".toList ++ fmtU (m 2 .block) ++ " blocks".toList)
  | 1 => some ("Writer: writing block, dropped ".toList ++ fmtU (m 1 .filler) ++ "/".toList ++ fmtU (m 2 .block) ++ " blocks".toList)
  | _ => none

/-- cmd/nodeindex/indexer/widget/widget_state_writer.go:27-45 (the same for wayindex; for "copying", the text given to
`MarkupAsProgress`) -/
def indexWriterText (m : Nat → Mem) : Option Text :=
  match (m 0 .state).toNat with
  | 0 => some "Writer: waiting for block".toList
  | 1 => some ("Writer: writing index block ".toList ++ fmtU (m 1 .block))
  | 2 => some "Writer: writing locations".toList
  | 3 => some ("Writer: copying locations (".toList ++ fmtU (m 1 .copied) ++ "/".toList ++ fmtU (m 2 .total) ++ ") ".toList ++
      fmtPct (hundred (Progress.filePct (m 1 .copied) (m 2 .total))) ++ "%".toList)
  | 4 => some "Writer: finalizing index".toList
  | _ => none

/-- internal/ui/widget/widget_process_state.go:31-53: the text, from the four things loaded (internal/pbf/process.go:30-35 names
the states). -/
def fileText (action filename : Text) (state at_ max : UInt64) : Option Text :=
  let pre := "[".toList ++ action ++ "] Processing PBF ".toList ++ filename ++ ": ".toList
  match state.toNat with
  | 0 => some (pre ++ "initializing".toList)
  | 1 => some (pre ++ ("loading block".toList ++ " ".toList ++ fmtU at_ ++ "/".toList ++ fmtU max ++ " ".toList ++
      fmtPct (hundred (Progress.filePct at_ max)) ++ "%".toList))
  | 2 => some (pre ++ ("sending block".toList ++ " ".toList ++ fmtU at_ ++ "/".toList ++ fmtU max ++ " ".toList ++
      fmtPct (hundred (Progress.filePct at_ max)) ++ "%".toList))
  | 3 => some (pre ++ "shutting down".toList)
  | _ => none

end Osm.TextLines
