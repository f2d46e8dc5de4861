import Verif.Model.Args
import Verif.Spec.NodeIndex

/-! # Specification vocabulary for the command lines (C78) -/

namespace Osm.Spec
open Osm Osm.Args

/-- The common options fit together. -/
def SystemFits (o : SystemOpts) : Prop := o.MemProfileRate ≠ none → o.MemProfile ≠ none

/-- A part of an index is not asked for, or is part `i` of `c` with `i < c`. -/
def SubFits {α : Type} [LT α] (index count : Option α) : Prop :=
  (index = none ∧ count = none) ∨ ∃ i c, index = some i ∧ count = some c ∧ i < c

/-- A command that starts exactly with the options for which `fits` holds, and nothing else on the command line. -/
def StartsWhen {α : Type} (parse : Parsed α → Start α) (fits : α → Prop) : Prop :=
  ∀ p o, parse p = .run o ↔ p = .parsed [] o ∧ fits o

/-- A command that does not start says why: the help that was asked for, on standard output with code 0; anything else on
standard error with code 1. -/
def ExitsProperly {α : Type} (parse : Parsed α → Start α) : Prop :=
  ∀ p code written, parse p = .exit code written →
    ((∃ msg, p = .failed (.flags true msg)) ∧ code = 0 ∧ written = [(.stdout, .help)]) ∨
    ((¬ ∃ msg, p = .failed (.flags true msg)) ∧ code = 1 ∧ (∀ w ∈ written, w.1 = .stderr) ∧
      ((∃ e, p = .failed e ∧ (Stream.stderr, Text.parseError e) ∈ written) ∨
       (∃ s, (Stream.stderr, Text.fault s) ∈ written)))

/-- A fault is reported (with the others). -/
def Reports {α : Type} (parse : Parsed α → Start α) (p : Parsed α) (fault : String) : Prop :=
  ∃ written, parse p = .exit 1 written ∧ (Stream.stderr, Text.fault fault) ∈ written

end Osm.Spec
