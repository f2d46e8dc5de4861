import Verif.Model.Alongside

/-! # Specification vocabulary for commands that run beside others (C83, C84) -/

namespace Osm.Spec
open Osm

/-- `c` is a way to carry out the program, one access to one file after the other, which looks at files in `R` only and
changes files in `W` only. -/
def CarriesOut {α : Type} (R W : String → Prop) (c : Code α) (p : Prog α) : Prop := c.denote = p ∧ c.Uses R W

/-- How the program, begun in `fs`, ends if nobody else changes any file: its result. -/
def aloneResult {α : Type} (p : Prog α) (fs : FS) : Res α := (p fs).2
/-- And the files it leaves. -/
def aloneFiles {α : Type} (p : Prog α) (fs : FS) : FS := runOps (p fs).1 fs

/-- Neither program changes a file which the other looks at or changes. -/
def Apart (R1 W1 R2 W2 : String → Prop) : Prop :=
  (∀ f, W1 f → ¬ R2 f ∧ ¬ W2 f) ∧ ∀ f, W2 f → ¬ R1 f ∧ ¬ W1 f

/-- The files in a list. -/
def among (fs : List String) : String → Prop := fun f => f ∈ fs

/-- The files which the indexers change: the output and the temporary file beside it. -/
def indexFiles (out : String) : String → Prop := among [out, out ++ ".loc.tmp"]
/-- The files which the commands with passes change: the output and the files between the passes. -/
def passFiles (out : String) : String → Prop := fun f => f = out ∨ ∃ p n, f = RelIndex.makePassFilename out p n

end Osm.Spec
