import Verif.Model.Display

/-! # Specification vocabulary for the displayed state (C79, C80) -/

namespace Osm.Spec
open Osm Osm.Display

/-- The block received last, after `t` steps. -/
def received (es : List Event) (t : Nat) : Option In :=
  (es.take t).foldl (fun r e => match e with
    | .receive b => some b
    | _ => r) none

/-- What is done at a step, if anything. -/
def doing : Event → Option (What × Option UInt64)
  | .act w i => some (w, i)
  | _ => none

/-- After `t` steps, that is what was done last, or what is done next. -/
def Near (es : List Event) (t : Nat) (w : What) (i : Option UInt64) : Prop :=
  (es.take t).reverse.findSome? doing = some (w, i) ∨ (es.drop t).findSome? doing = some (w, i)

/-- How often the block received last was worked on ("processing"), after `t` steps: in cmd/rewritenodes once for each way. -/
def processed (es : List Event) (t : Nat) : Nat :=
  (es.take t).foldl (fun n e => match e with
    | .receive _ => 0
    | .act .processing _ => n + 1
    | _ => n) 0

/-- In how many pieces the locations were copied, after `t` steps, with the one that is being copied. -/
def pieces (es : List Event) (t : Nat) : Nat := (es.take t).count (.act .copying none)

/-- `n` bytes are copied after `t` steps, when the pieces have the given sizes: all of the pieces before the one that is being
copied, or that one too, because it just was. -/
def Copied (es : List Event) (sizes : List Nat) (t : Nat) (n : Nat) : Prop :=
  ∃ k, k ≤ sizes.length ∧ (k = pieces es t - 1 ∨ k = pieces es t) ∧ n = (sizes.take k).sum

/-- Loads in the given order, each after any number of steps. -/
def Ordered (τ : Nat → Nat) : Prop := ∀ a b, a ≤ b → τ a ≤ τ b

/-- The values a redraw sees. -/
def seen (es : List Event) (τ : Nat → Nat) : Nat → Mem := fun k => after (es.take (τ k))

/-- What is shown is what the worker does (it is "waiting" also while it passes a block on which it does not work). -/
def Says (es : List Event) (t : Nat) (what : What) (i : Option UInt64) : Prop :=
  Near es t what i ∨ (what = .waiting ∧ Near es t .passing i)

/-- Whenever and however long a redraw takes, it shows something: at the moment it looked the worker was doing that
with the block received last, and the number shown is of a block that the worker had in its hands at some moment while the
redraw was going on (which is that block, unless the worker received another one in between). -/
def Truthful (es : List Event) (line : (Nat → Mem) → Option Line) : Prop :=
  ∀ τ, Ordered τ → ∃ l, line (seen es τ) = some l ∧
    ∃ i, Says es (τ 0) l.what i ∧
    ∀ n, l.block = some n → (∃ b, received es (τ 0) = some b ∧ i = some b.index) ∧
      ∃ t b, τ 0 ≤ t ∧ t ≤ τ 3 ∧ received es t = some b ∧ b.index = n

/-- No block is received between two moments. -/
def Undisturbed (es : List Event) (t1 t2 : Nat) : Prop := ∀ t b, t1 ≤ t → t < t2 → es[t]? ≠ some (.receive b)

/-- All blocks received in the first `t` steps. -/
def allReceived (es : List Event) (t : Nat) : List In :=
  (es.take t).filterMap fun e => match e with
    | .receive b => some b
    | _ => none

/-- The nodes kept, or dropped, of a block that is filtered, and whether a block is passed on as filler. -/
def keptOf (b : In) : Nat := if b.data then b.kept.toNat else 0
@[inherit_doc keptOf] def droppedOf (b : In) : Nat := if b.data then b.dropped.toNat else 0
@[inherit_doc keptOf] def fillerOf (b : In) : Nat := if b.data then 0 else 1

/-- After `t` steps `n` is the sum over all blocks received, or over all but the one received last (modulo 2^64). -/
def Tallied (f : In → Nat) (es : List Event) (t : Nat) (n : UInt64) : Prop :=
  n = UInt64.ofNat ((allReceived es t).map f).sum ∨ n = UInt64.ofNat ((allReceived es t).dropLast.map f).sum

/-- How many locations (of 8 bytes) the batches have. -/
def locationCount (bs : List (Option NodeIndexer.ElementBatch)) : Nat :=
  (bs.map fun b => match b with
    | none => 0
    | some e => e.locations.length).sum

/-- How many bytes of locations the elements of the way index have. -/
def wayBytes (es : List (Option WayIndexer.IndexElement)) : Nat :=
  (es.map fun e => match e with
    | none => 0
    | some e => e.locations.length).sum

end Osm.Spec
