import Verif.Model.WayIndex
import Verif.Model.Interrupt

/-!
# Model of the timing of node lookups (`rewritenodes -t factor`)

`internal/nodeindex/nodesubindex.go:78-100` measures each lookup and counts it in one of 200 buckets. The processor's time
stamp counter may say anything. A finite float64 is a rational number; rounding is any function with the properties of
IEEE 754 rounding listed in `Rounding` (overflow of a quotient to infinity is left out: it needs a factor below 1, and
then a number above 1 behaves like infinity here).
-/

namespace Osm.Timing
open Osm Osm.T Osm.Pbf Osm.NodeIndex

/-- A float64. `fin 0` is +0. -/
inductive F64 where
  | fin (q : Rat)
  | negZero
  | posInf
  | negInf
  | nan
deriving DecidableEq

/-- What is needed of the rounding of float64: monotone, 1 is a float64, floats are not changed, and above 1 the error
is at most half a unit in the last place. -/
structure Rounding where
  rnd : Rat → Rat
  mono : ∀ x y, x ≤ y → rnd x ≤ rnd y
  one : rnd 1 = 1
  idem : ∀ x, rnd (rnd x) = rnd x
  below : ∀ x, 1 ≤ x → rnd x * 2 ^ 53 ≤ x * (2 ^ 53 + 1)
  above : ∀ x, 1 ≤ x → x * (2 ^ 53 - 1) ≤ rnd x * 2 ^ 53

/-- `float64(i)` -/
def ofInt (R : Rounding) (i : Int) : F64 := .fin (R.rnd i)

/-- `d > 1` -/
def F64.gt1 : F64 → Bool
  | .fin q => decide (1 < q)
  | .posInf => true
  | _ => false

/-- `d < 2*cpuFreq` (internal/nodeindex/nodesubindex.go:88) -/
def F64.fast : F64 → Bool
  | .fin q => decide (q < 6600000000)
  | .negZero => true
  | .negInf => true
  | _ => false

/-- `d / f` for a `d` greater than 1 (no other dividend occurs in the loop). -/
def F64.div (R : Rounding) : F64 → F64 → F64
  | .fin d, .fin f => if f = 0 then .posInf else .fin (R.rnd (d / f))
  | .fin _, .negZero => .negInf
  | .fin _, .posInf => .fin 0
  | .fin _, .negInf => .negZero
  | .posInf, .fin f => if f < 0 then .negInf else .posInf
  | .posInf, .negZero => .negInf
  | _, _ => .nan

/-- internal/nodeindex/nodesubindex.go:91-96: how often the loop divides; `hang` if not done after `fuel` rounds. -/
def divisions (R : Rounding) (factor : F64) : Nat → F64 → Nat → Res Nat
  | 0, _, _ => .hang
  | fuel + 1, delta, i => if delta.gt1 then divisions R factor fuel (delta.div R factor) (i + 1) else .ok i

/-- What a lookup reads: the time stamp counter before and after (gotsc.BenchStart, BenchEnd), and the overhead measured
when the program started. -/
structure Ticks where
  start : UInt64
  stop : UInt64
  overhead : UInt64

/-- internal/nodeindex/nodesubindex.go:87 -/
def Ticks.delta (R : Rounding) (t : Ticks) : F64 := ofInt R ((t.stop - t.start) - t.overhead).toInt64.toInt

/-- internal/nodeindex/nodesubindex.go:88-97: the bucket that is counted up, if any. `lookupTimingCount` has 200 entries
(internal/nodeindex/nodeindex.go:51), a higher index panics. -/
def bucket (R : Rounding) (factor : F64) (fuel : Nat) (t : Ticks) : Res (Option Nat) :=
  if (t.delta R).gt1 && (t.delta R).fast then do
    let i ← divisions R factor fuel (t.delta R) 0
    if i - 1 < 200 then .ok (some (i - 1)) else .panic
  else .ok none

/-- internal/nodeindex/nodesubindex.go:78-100. `timing`: the option of the command line (internal/nodeindex/nodeindex.go:50-53). The result
has the bucket counted up. -/
def FindNode (R : Rounding) (timing : Option F64) (fuel : Nat) (t : Ticks) (si : SubIdx) (id : UInt64) (hint : Int) :
    Res (Found × Option Nat) :=
  match timing with
  | none => do
    let r ← si.findNode id hint
    .ok (r, none)
  | some factor => do
    let r ← si.findNode id hint
    let b ← bucket R factor fuel t
    .ok (r, b)

/-- internal/wayindex/subindex.go:67-87, the same for ways (no command of this repository asks for it). -/
def FindLocations (R : Rounding) (timing : Option F64) (fuel : Nat) (t : Ticks) (si : WayIndex.SubIdx) (id : Int64) (hint : Int) :
    Res (WayIndex.Found × Option Nat) :=
  match timing with
  | none => do
    let r ← si.FindLocations id hint
    .ok (r, none)
  | some factor => do
    let r ← si.FindLocations id hint
    let b ← bucket R factor fuel t
    .ok (r, b)

/-- The environment of a worker: its k-th lookup reads `ticks k`. -/
structure Env where
  R : Rounding
  timing : Option F64
  fuel : Nat
  ticks : Nat → Ticks

/-- cmd/rewritenodes/rewriter/noderewriter_worker.go:64-80, as `Rewrite.rewriteRefs`, with timing; `k` lookups have been
made before. The result has the refs, the hint, the lookups made, and the buckets counted up. -/
def rewriteRefs (e : Env) (si : SubIdx) : Nat → Int → List Int64 → Res (List Int64 × Int × Nat × List (Option Nat))
  | k, hint, [] => .ok ([], hint, k, [])
  | k, hint, r :: rs =>
    if r < 0 then do
      let x ← rewriteRefs e si k hint rs
      .ok (r :: x.1, x.2)
    else do
      let f ← FindNode e.R e.timing e.fuel (e.ticks k) si r.toUInt64 hint
      let x ← rewriteRefs e si (k + 1) f.1.hint rs
      .ok (Rewrite.keepOr r f.1 :: x.1, x.2.1, x.2.2.1, f.2 :: x.2.2.2)

/-- cmd/rewritenodes/rewriter/noderewriter_worker.go:59-81, as `Rewrite.rewriteWays`. -/
def rewriteWays (e : Env) (si : SubIdx) : Nat → Int → List Way → Res (List Way × Int × Nat × List (Option Nat))
  | k, hint, [] => .ok ([], hint, k, [])
  | k, hint, w :: ws => do
    let r ← rewriteRefs e si k hint w.Refs
    let x ← rewriteWays e si r.2.2.1 r.2.1 ws
    .ok ({ w with Refs := r.1 } :: x.1, x.2.1, x.2.2.1, r.2.2.2 ++ x.2.2.2)

/-- cmd/rewritenodes/rewriter/noderewriter_worker.go:58-82, as `Rewrite.rewriteGroups`. -/
def rewriteGroups (e : Env) (si : SubIdx) :
    Nat → Int → List T.PrimitiveGroup → Res (List T.PrimitiveGroup × Int × Nat × List (Option Nat))
  | k, hint, [] => .ok ([], hint, k, [])
  | k, hint, g :: gs => do
    let r ← rewriteWays e si k hint g.Ways
    let x ← rewriteGroups e si r.2.2.1 r.2.1 gs
    .ok ({ g with Ways := r.1 } :: x.1, x.2.1, x.2.2.1, r.2.2.2 ++ x.2.2.2)

/-- cmd/rewritenodes/rewriter/noderewriter_worker.go:28-92, as `Rewrite.rewriteWork`. -/
def rewriteWork (inflate : Inflate) (sched : Block → Sched) (env : Block → Env) (si : SubIdx) (b : Block) :
    Res Rewrite.Out :=
  if b.Kind ≠ osmData then .ok (b.Kind, b.Data.bytes)
  else do
    let raw ← rawOf inflate (sched b) b
    let pb ← ReadPrimitiveBlock Rewrite.reader raw
    if Rewrite.totalWays pb = 0 then .ok (b.Kind, b.Data.bytes)
    else do
      let r ← rewriteGroups (env b) si 0 0 pb.PrimitiveGroup
      let blob ← Blob.zero.Write (some ({ pb with PrimitiveGroup := r.1 } : PrimitiveBlock).Write) []
      .ok (osmData, blob)

/-- cmd/rewritenodes/rewritenodes.go:66-78: one pass with timing, not cancelled. -/
def pass (inflate : Inflate) (sched : Block → Sched) (env : Block → Env) (si : SubIdx) (inp out : String) : Prog Unit :=
  Interrupt.process none (rewriteWork inflate sched env si) inp (Rewrite.output out)

end Osm.Timing
