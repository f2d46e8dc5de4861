import Verif.Model.Alongside

/-!
# Model of runs in which the operating system reports errors

The commands reach files through internal/iio/wrappers.go only: each function there panics if the call fails, except
`OsRemoveTry`, which ignores it. Failures of `Close` and `Unmap` (which panic too, after all writing) are not modelled, nor
that `os.Create` fails after it has emptied the file.
-/

namespace Osm

/-- The answer of the operating system to one call: it is done, or an error is reported; `written`: how much of what was to be
written has been written before. -/
inductive Answer where
  | done
  | error (written : Nat)
deriving DecidableEq, Repr

/-- What a failing call leaves behind: of a write, a first part; of anything else, nothing. -/
def FsOp.failing (written : Nat) (fs : FS) : FsOp → FS
  | .write f bs => (FsOp.write f (bs.take written)).run fs
  | _ => fs

namespace Code

/-- internal/iio/wrappers.go:13-123: a program runs, and its `i`-th access to a file is answered by `answers i`. Every
wrapper panics if an error is reported. -/
def under {α : Type} (answers : Nat → Answer) : Code α → Nat → FS → Res α × FS
  | done r, _, fs => (r, fs)
  | emit op next, i, fs =>
    match answers i with
    | .done => next.under answers (i + 1) (op.run fs)
    | .error written => (.panic, op.failing written fs)
  | ask f next, i, fs =>
    match answers i with
    | .done => (next (fs f)).under answers (i + 1) fs
    | .error _ => (.panic, fs)

/-- internal/iio/wrappers.go:82-95, as `under`, on a disk that has room for `room` more bytes: each write takes what it
writes (nothing is counted as overwritten or freed), and fails when there is no more room. -/
def onDisk {α : Type} : Code α → Nat → FS → Res α × FS
  | done r, _, fs => (r, fs)
  | emit (.write f bs) next, room, fs =>
    if bs.length ≤ room then next.onDisk (room - bs.length) ((FsOp.write f bs).run fs)
    else (.panic, (FsOp.write f (bs.take room)).run fs)
  | emit op next, room, fs => next.onDisk room (op.run fs)
  | ask f next, room, fs => (next (fs f)).onDisk room fs

/-- How many accesses to files a run makes if none fails. -/
def accesses {α : Type} : Code α → FS → Nat
  | done _, _ => 0
  | emit op next, fs => next.accesses (op.run fs) + 1
  | ask f next, fs => (next (fs f)).accesses fs + 1

end Code

/-- internal/iio/wrappers.go:131-133: `OsRemoveTry` when the files `stuck` cannot be removed: the error is ignored. -/
def OsRemoveTryIf (stuck : String → Bool) (f : String) : Prog Unit := if stuck f then .pure () else OsRemoveTry f

namespace Interrupt
open Osm.T Osm.Pbf

/-- cmd/rewritenodes/rewritenodes.go:52-54, as `Rewrite.removeOld`, when the files `stuck` cannot be removed. -/
def removeOldIf (stuck : String → Bool) (out : String) (n i : Nat) : Prog Unit :=
  if i > 1 then OsRemoveTryIf stuck (RelIndex.makePassFilename out (i - 1) n) else .pure ()

/-- cmd/rewritenodes/rewritenodes.go:49-80, as `rewritePasses`, when the files `stuck` cannot be removed. -/
def rewritePassesStuck (stuck : String → Bool) (inflate : Inflate) (scheds : Nat → Block → Sched) (cuts : Nat → Option Nat)
    (ix : NodeIndex.NodeIdx) (inp out : String) (n : Nat) : Nat → Nat → Prog Unit
  | 0, _ => .pure ()
  | left + 1, i => do
    removeOldIf stuck out n i
    let si ← Prog.lift (ix.SubIndex (UInt64.ofNat i) (UInt64.ofNat n))
    rewritePass inflate (scheds i) (cuts i) si (Rewrite.passInput inp out n i) (Rewrite.passOutput out n i)
    rewritePassesStuck stuck inflate scheds cuts ix inp out n left (i + 1)

/-- cmd/rewritenodes/rewritenodes.go:34-84, as `rewritenodes`, when the files `stuck` cannot be removed. (The last of the pass
files is removed by `OsRemove`, which panics if it fails: that is an `Answer`.) -/
def rewritenodesStuck (stuck : String → Bool) (inflate : Inflate) (scheds : Nat → Block → Sched) (cuts : Nat → Option Nat)
    (memory : Option UInt64) (inp index out : String) : Prog Unit := do
  OsOpen index
  let m ← MMapMap index
  let ix ← Prog.lift (NodeIndex.NewNodeIndex m)
  let passes ← Prog.lift (NodeIndex.passCount ix memory)
  rewritePassesStuck stuck inflate scheds cuts ix inp out passes.toNat passes.toNat 0
  Rewrite.removeLast out passes.toNat

end Interrupt

namespace RelIndex
open Osm.WayIndex

/-- cmd/relindex/relindex.go:121-147, as `runPasses`, when the files `stuck` cannot be removed. -/
def runPassesStuck (stuck : String → Bool) (out : String) (ix : WayIdx) (passes : Nat) : Nat → Nat → Prog Unit
  | 0, _ => .pure ()
  | left + 1, i => do
    rewrite (if i + 1 < passes then makePassFilename out (i + 1) passes else out) (makePassFilename out i passes) ix
      (Int64.ofNat i) (Int64.ofNat passes)
    OsRemoveTryIf stuck (makePassFilename out i passes)
    runPassesStuck stuck out ix passes left (i + 1)

/-- cmd/relindex/relindex.go:95-149, as `relindex`, when the files `stuck` cannot be removed. -/
def relindexStuck (stuck : String → Bool) (out wayIndex : String) (passes : Nat) (blocks : List (Option (List Int64))) :
    Prog Unit := do
  InitOutput (makePassFilename out 0 passes) blocks
  OsOpen wayIndex
  let m ← MMapMap wayIndex
  let ix ← Prog.lift (NewWayIndex m)
  runPassesStuck stuck out ix passes passes 0

end RelIndex

namespace Interrupt
open Osm.T Osm.Pbf

/-- cmd/relindex/relindex.go:95-149, as `relindex`, when the files `stuck` cannot be removed. -/
def relindexStuck (stuck : String → Bool) (inflate : Inflate) (sched : Block → Sched) (cut : Option Nat) (passes : Nat)
    (inp wayIndex out : String) : Prog Unit :=
  process cut (Programs.blockWork inflate sched Programs.relReader RelIndex.work) inp
    fun sent => RelIndex.relindexStuck stuck out wayIndex passes sent

end Interrupt

end Osm
