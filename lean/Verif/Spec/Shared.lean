import Verif.Model.Shared

/-! # Specification vocabulary for workers that share memory (C76) -/

namespace Osm.Spec
open Osm Osm.T Osm.Pbf Osm.Shared

/-- The way in which a worker reads the raw data of a block computes the function `use`, on memory that does not change. -/
def Computes {O : Type} (c : Cmd O) (use : Block → Slice → Res O) : Prop :=
  ∀ b (s : Slice), (c.read b s.bytes.length (s.bytes ++ s.spare).length).run (s.bytes ++ s.spare) = use b s

/-- The pipeline with workers that answer in a single step. -/
def atomically {O : Type} (c : Cmd O) (use : Block → Slice → Res O) (p : Cfg O) (sched : Block → Sched) : Cfg O :=
  { p with work := c.work use sched }

/-- Buffers of a size that exists. -/
def Possible (sched : Block → Sched) : Prop := ∀ b, (sched b).pooled.length < 2 ^ 63

/-- A way to read that computes `use`: first the bytes from `i` on, as many as are left, then the rest. -/
def slurp {O : Type} (use : List UInt8 → Res O) : Nat → Nat → List UInt8 → Reader O
  | 0, _, got => .done (use got)
  | n + 1, i, got => .byte i fun x => slurp use n (i + 1) (got ++ [x])

end Osm.Spec
