import Verif.Go

/-!
# Model of internal/tracker

Worker states are identified by numbers (they are distinct pointers); each is tracked once, when its goroutine starts,
and untracked once, when it ends (cmd/*/…_worker.go: `TrackWorker(sw)`, `defer UntrackWorker(sw)`). One goroutine, the
UI's, refreshes (internal/ui/widget/widget_command.go:39). The code between `Lock` and `Unlock` is one step, since all
uses of `workers` are under that lock. `BoxLayout` is a library: a list of widgets; `RemoveWidget` removes a widget and
`AddWidget` appends one.
-/

namespace Osm.Tracker
open Osm

/-- A widget: its identity, and the worker it shows. -/
structure Widget where
  id : Nat
  worker : Nat
deriving DecidableEq

/-- internal/tracker/worker_tracker.go:28-35: the loop of `UntrackWorker`: the first match is taken out. -/
def untrack : List Nat → Nat → List Nat
  | [], _ => []
  | w :: ws, sw => if w = sw then ws else w :: untrack ws sw

/-- internal/tracker/worker_tracker.go:40-48: `WorkerStates`, the loop. -/
def workerStates : List Nat → List Nat
  | [] => []
  | w :: ws => w :: workerStates ws

/-- `WorkerBox.RemoveWidget` -/
def removeWidget (box : List Widget) (w : Widget) : List Widget := box.filter (· ≠ w)

/-- internal/tracker/widget_workers.go:43-45 -/
def removeAll (box : List Widget) : List (Nat × Widget) → List Widget
  | [] => box
  | e :: es => removeAll (removeWidget box e.2) es

/-- `newWidgets[workerState] = workerWidget` -/
def setWidget (m : List (Nat × Widget)) (k : Nat) (w : Widget) : List (Nat × Widget) :=
  (k, w) :: m.filter (fun e => !(e.1 == k))

/-- What the loop of `RefreshStates` changes; `made` is the number of widgets made so far. -/
structure Ui where
  states : List (Nat × Widget)
  box : List Widget
  made : Nat

/-- internal/tracker/widget_workers.go:49-55: one round of the loop; `new` makes a widget for the worker. -/
def addState (old : List (Nat × Widget)) (u : Ui) (worker : Nat) : Ui :=
  match old.lookup worker with
  | some w => ⟨setWidget u.states worker w, u.box ++ [w], u.made⟩
  | none => ⟨setWidget u.states worker ⟨u.made, worker⟩, u.box ++ [⟨u.made, worker⟩], u.made + 1⟩

/-- internal/tracker/widget_workers.go:42-57, for the given result of `WorkerStates`. -/
def refresh (u : Ui) (workers : List Nat) : Ui :=
  workers.foldl (addState u.states) ⟨[], removeAll u.box u.states, u.made⟩

/-- Where the goroutine of a worker is. -/
inductive Pc where
  /-- Not started. -/
  | new
  /-- internal/tracker/worker_tracker.go:23, before the version is increased. -/
  | tracking
  | running
  /-- internal/tracker/worker_tracker.go:37, before the version is increased. -/
  | untracking
  | ended
deriving DecidableEq

/-- Where the refreshing goroutine is. -/
inductive UiPc where
  | idle
  /-- internal/tracker/widget_workers.go:42: `WorkerStates` has not been called. -/
  | reading
deriving DecidableEq

/-- The tracker, the UI and all goroutines. -/
structure St where
  version : UInt64
  workers : List Nat
  procs : List Pc
  lastVersion : UInt64
  uiPc : UiPc
  ui : Ui
  /-- Bookkeeping, not part of the program's state: how often `workers` was changed. -/
  changes : Nat
  /-- Bookkeeping: how often it had been changed when it was last read by `RefreshStates`. -/
  read : Nat

/-- Steps of the workers. -/
inductive WStep : St → St → Prop where
  /-- internal/tracker/worker_tracker.go:20-22 -/
  | track {s l1 l2} : s.procs = l1 ++ .new :: l2 →
      WStep s { s with workers := s.workers ++ [l1.length], procs := l1 ++ .tracking :: l2, changes := s.changes + 1 }
  /-- internal/tracker/worker_tracker.go:23 -/
  | tracked {s l1 l2} : s.procs = l1 ++ .tracking :: l2 →
      WStep s { s with version := s.version + 1, procs := l1 ++ .running :: l2 }
  /-- internal/tracker/worker_tracker.go:27-36 -/
  | untrack {s l1 l2} : s.procs = l1 ++ .running :: l2 →
      WStep s { s with workers := untrack s.workers l1.length, procs := l1 ++ .untracking :: l2, changes := s.changes + 1 }
  /-- internal/tracker/worker_tracker.go:37 -/
  | untracked {s l1 l2} : s.procs = l1 ++ .untracking :: l2 →
      WStep s { s with version := s.version + 1, procs := l1 ++ .ended :: l2 }

/-- Steps of the refreshing goroutine. -/
inductive UiStep : St → St → Prop where
  /-- internal/tracker/widget_workers.go:36-37 -/
  | skip {s} : s.uiPc = .idle → s.lastVersion = s.version → UiStep s s
  /-- internal/tracker/widget_workers.go:36, 39 -/
  | check {s} : s.uiPc = .idle → s.lastVersion ≠ s.version →
      UiStep s { s with lastVersion := s.version, uiPc := .reading }
  /-- internal/tracker/widget_workers.go:42-57 -/
  | read {s} : s.uiPc = .reading →
      UiStep s { s with uiPc := .idle, ui := refresh s.ui (workerStates s.workers), read := s.changes }

/-- With the given number of workers that may start. -/
def init (procs : Nat) : St where
  version := 0
  workers := []
  procs := List.replicate procs .new
  lastVersion := 0
  uiPc := .idle
  ui := ⟨[], [], 0⟩
  changes := 0
  read := 0

/-- The states that are reached. -/
inductive Reachable (procs : Nat) : St → Prop where
  | init : Reachable procs (init procs)
  | worker {s s'} : Reachable procs s → WStep s s' → Reachable procs s'
  | ui {s s'} : Reachable procs s → UiStep s s' → Reachable procs s'

end Osm.Tracker
