import Verif.Spec.Interrupt
import Verif.Spec.Repeat
import Verif.Spec.Programs

/-! # Specification vocabulary for runs after interrupted runs (C101) -/

namespace Osm.Spec
open Osm Osm.T Osm.Pbf

/-- What happens by chance in one run: the chunks of the decompressor and the contents of the pooled buffers, whether and
when it is cancelled, the chunks of the copying and whether it is cancelled meanwhile. -/
structure How where
  sched : Block → Sched
  cut : Option Nat
  chunks : Nat → Nat
  stop : Nat → Bool

/-- A run of one of the commands is interrupted at some moment (or ends, or panics): `fs` before, `fs'` after. -/
def Interrupted {V α : Type} (cmd : V → Prog α) (fs fs' : FS) : Prop := ∃ v, CrashState (cmd v fs).1 fs fs'

/-- A run with any number of workers in any schedule dies in some state (see `DiesIn`). -/
def Died {V O α β : Type} (loop : List O → Prog α) (whole : V → List O → Prog β) (fs fs' : FS) : Prop :=
  ∃ v c W s, Reachable c W s ∧ DiesIn loop (whole v) s fs fs'

/-- Any number of attempts, each of which finds the files as the one before has left them. -/
inductive Attempts (one : FS → FS → Prop) : FS → FS → Prop where
  | none (fs : FS) : Attempts one fs fs
  | more (fs fs1 fs2 : FS) : one fs fs1 → Attempts one fs1 fs2 → Attempts one fs fs2

/-- Two runs of a program end the same way, and if they complete, then with the same result, the same files, and the same
bytes in all of them. -/
def SameEnd {α : Type} : Res (α × FS) → Res (α × FS) → Prop :=
  Alike fun r s => r.1 = s.1 ∧ ∀ g, SameData g r.2 s.2

end Osm.Spec
