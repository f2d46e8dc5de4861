import Verif.Model.Pbf

/-! # Specification vocabulary for the blocks in memory (C82) -/

namespace Osm.Spec
open Osm Osm.Pbf

variable {O : Type}

/-- The worker has a block: it works on it or waits to hand over the result. -/
def Holding (w : Worker O) (i : Nat) : Prop := (∃ b, w.pc = .busy b ∧ b.Index = i) ∨ ∃ o, w.pc = .sending i o

/-- Does the worker have a block? -/
def occupied (w : Worker O) : Bool :=
  match w.pc with
  | .busy _ | .sending _ _ => true
  | .idle | .exited => false

/-- How many workers have a block. -/
def holding (s : St O) : Nat := (s.workers.filter occupied).length

/-- How many results have left their workers and have not reached the writer: they are kept in memory. -/
def waiting (s : St O) : Nat :=
  match s.reorder with
  | .recv rob _ | .check rob _ => rob.length
  | .send rob _ _ => rob.length + 1
  | .exited => 0

end Osm.Spec
