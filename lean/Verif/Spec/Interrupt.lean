import Verif.Model.Interrupt
import Verif.Spec.Rewrite

/-! # Specification vocabulary for interrupted runs (C72–C75) -/

namespace Osm.Spec
open Osm Osm.Pbf

/-- If the process dies when the goroutines are in state `s`, the files are `fs'` (`fs` when it started). `loop l` is the
writer from its start until it waits for the next block, having received `l`; `whole l` is the writer from its start to its
end. It goes beyond `loop` only when its channel is closed. Whatever part of this it has done is an initial part of the
operations, the last write possibly cut short. -/
def DiesIn {α β O : Type} (loop : List O → Prog α) (whole : List O → Prog β) (s : St O) (fs fs' : FS) : Prop :=
  if s.outClosed then CrashState (whole s.got fs).1 fs fs' else CrashState (loop s.got fs).1 fs fs'

/-- The number of blocks left of `n` after being cut as told. -/
def cutLength : List (Option Nat) → Nat → Nat
  | [], n => n
  | none :: cs, n => cutLength cs n
  | some k :: cs, n => cutLength cs (min k n)

end Osm.Spec
