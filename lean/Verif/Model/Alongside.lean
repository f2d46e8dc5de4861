import Verif.Model.Interrupt

/-!
# Model of a command that runs while other processes run

The commands of `Model/Interrupt` are functions from the files at the start to the list of operations: nobody else changes
a file while they run. Here a command is a tree of single operations (`Code`): it asks for one file, or performs one
operation, and goes on depending on what it saw. Between any two operations other processes may change files.
-/

namespace Osm

/-- A program as a tree of single accesses to files. -/
inductive Code (α : Type) where
  /-- The program has ended. -/
  | done (r : Res α)
  /-- One operation. -/
  | emit (op : FsOp) (next : Code α)
  /-- Looking at one file (`os.Open`, `mmap`, `Read`). -/
  | ask (f : String) (next : Option File → Code α)

namespace Code

/-- The tree as a program of `Model/Fs` (undisturbed by others). -/
def denote {α : Type} : Code α → Prog α
  | done r => fun _ => ([], r)
  | emit op next => fun fs => let r := denote next (op.run fs); (op :: r.1, r.2)
  | ask f next => fun fs => denote (next (fs f)) fs

/-- Sequencing. -/
def bind {α β : Type} : Code α → (α → Code β) → Code β
  | done (.ok a), g => g a
  | done .panic, _ => done .panic
  | done .hang, _ => done .hang
  | emit op next, g => emit op (next.bind g)
  | ask f next, g => ask f fun x => (next x).bind g

/-- The program looks at files in `R` only and changes files in `W` only. -/
def Uses {α : Type} (R W : String → Prop) : Code α → Prop
  | done _ => True
  | emit op next => W (match op with | .create f | .write f _ | .rewind f | .advance f _ | .remove f => f) ∧ Uses R W next
  | ask f next => R f ∧ ∀ x, Uses R W (next x)

/-- One operation of the program. -/
inductive Move {α : Type} : Code α → FS → Code α → FS → Prop where
  | emit (op : FsOp) (next : Code α) (fs : FS) : Move (.emit op next) fs next (op.run fs)
  | ask (f : String) (next : Option File → Code α) (fs : FS) : Move (.ask f next) fs (next (fs f)) fs

/-- The program runs while other processes change any files except those in `files`, at any time. -/
inductive Runs {α : Type} (files : String → Prop) : Code α → FS → Code α → FS → Prop where
  | refl (c : Code α) (fs : FS) : Runs files c fs c fs
  | move {c c1 c2 : Code α} {fs fs1 fs2 : FS} : Move c fs c1 fs1 → Runs files c1 fs1 c2 fs2 → Runs files c fs c2 fs2
  | others {c c2 : Code α} {fs fs1 fs2 : FS} : (∀ f, files f → fs1 f = fs f) → Runs files c fs1 c2 fs2 → Runs files c fs c2 fs2

/-- Two programs run at the same time. -/
inductive Both {α β : Type} : Code α → Code β → FS → Code α → Code β → FS → Prop where
  | refl (c : Code α) (d : Code β) (fs : FS) : Both c d fs c d fs
  | left {c c1 c2 : Code α} {d d2 : Code β} {fs fs1 fs2 : FS} :
      Move c fs c1 fs1 → Both c1 d fs1 c2 d2 fs2 → Both c d fs c2 d2 fs2
  | right {c c2 : Code α} {d d1 d2 : Code β} {fs fs1 fs2 : FS} :
      Move d fs d1 fs1 → Both c d1 fs1 c2 d2 fs2 → Both c d fs c2 d2 fs2

end Code

/-! ## internal/system/setup.go -/

/-- internal/system/setup.go:12-16: what `Setup` does to files. `pprof.StartCPUProfile` then writes to the file whenever it
likes; the other settings concern the runtime. -/
def setup (cpu : Option String) : Prog Unit :=
  match cpu with
  | some f => OsCreate f
  | none => .pure ()

/-- internal/system/setup.go:28-39: what the deferred function does to files: `heap` is the heap profile, `last` what
`pprof.StopCPUProfile` has still to write. -/
def teardown (cpu mem : Option String) (heap last : List UInt8) : Prog Unit := do
  match mem with
  | some f => do
    OsCreate f
    FWrite f heap
  | none => Prog.pure ()
  match cpu with
  | some f => FWrite f last
  | none => Prog.pure ()

/-- The main function of every command (for instance cmd/nodeindex/nodeindex.go:21-22): `Setup`, the command, and the
deferred function, which also runs if the goroutine of `main` panics but not if another one does. `Code.Runs`
lets the profiler write its file while the command runs. `Profiled` relates the files before and after. -/
inductive Profiled {α : Type} (cpu mem : Option String) (heap last : List UInt8) (files : String → Prop) (c : Code α) :
    FS → FS → Res α → Prop where
  /-- The command has completed, or the goroutine of `main` has panicked. -/
  | ended {fs fs2 : FS} {r : Res α} :
      Code.Runs files c (runOps (setup cpu fs).1 fs) (.done r) fs2 → r ≠ .hang →
      Profiled cpu mem heap last files c fs (runOps (teardown cpu mem heap last fs2).1 fs2) r
  /-- Another goroutine has panicked. -/
  | crashed {fs fs2 : FS} :
      Code.Runs files c (runOps (setup cpu fs).1 fs) (.done .panic) fs2 →
      Profiled cpu mem heap last files c fs fs2 .panic

end Osm
