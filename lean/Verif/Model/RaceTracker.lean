import Verif.Spec.Race

/-!
# Model of the memory accesses and the synchronization of the tracker and of the state words

What `Model/Race.lean` leaves out: the list of workers that internal/tracker/worker_tracker.go keeps under a mutex, its
version, and the words in which workers and writers say what they are doing (cmd/*/*/state/*.go), as they are used by the
workers, the writer and the terminal's goroutine. Any number of workers may be started, at any time. As there, accesses are
steps that a goroutine may make as often as it likes while it is in the part of its code that makes them.

`WorkerStates`, the only user of `RLock`, is called by one goroutine, so that the mutex has at most one holder.
-/

namespace Osm.RaceTracker
open Osm.Spec.Race

/-- The goroutines. -/
inductive Thread where
  /-- `main()` of a command. -/
  | caller
  /-- internal/pbf/process.go:61-152. In rewritenodes there is one for each pass, started after the one before has ended
  and the caller has waited for that; they count as one. -/
  | main
  | worker (k : Nat)
  | writer
  /-- The event loop of the terminal library. -/
  | ui
deriving DecidableEq

/-- Memory. -/
inductive Loc where
  /-- `wt.workers`: the slice and its elements. -/
  | list
  /-- `wt.version` -/
  | version
  /-- A field of the `state.Worker` of the `k`-th worker. -/
  | word (k f : Nat)
  /-- A field of the `state.Writer`. -/
  | shared (f : Nat)
  /-- The widgets of a pass, with `lastVersion`, `states` and `WorkerBox`. -/
  | widgets (p : Nat)
deriving DecidableEq

/-- The event queue and the mutex. -/
inductive Obj where
  | events
  | mutex
deriving DecidableEq

abbrev Ev := Event Thread Loc Obj
abbrev Trace := List Ev

/-- Where a worker is. -/
inductive Pc where
  | off
  /-- Started, before `sw := &state.Worker{}` is complete (for instance cmd/nodeindex/indexer/nodeindexer_worker.go:26). -/
  | fresh
  /-- Before internal/tracker/worker_tracker.go:20. -/
  | made
  /-- Before internal/tracker/worker_tracker.go:21. -/
  | adding
  /-- Before internal/tracker/worker_tracker.go:22. -/
  | filled
  /-- Before internal/tracker/worker_tracker.go:23. -/
  | added
  /-- Before internal/tracker/worker_tracker.go:27. -/
  | running
  /-- Before internal/tracker/worker_tracker.go:28. -/
  | removing
  /-- Before internal/tracker/worker_tracker.go:36. -/
  | emptied
  /-- Before internal/tracker/worker_tracker.go:37. -/
  | removed
  | ended
deriving DecidableEq

/-- A run, with its events. -/
structure Run where
  pc : Nat → Pc
  /-- The writer is started. -/
  writer : Bool
  /-- How many passes have shown their widgets. -/
  shown : Nat
  /-- Who has the mutex. -/
  hold : Option Thread
  /-- `wt.workers` -/
  list : List Nat
  /-- The workers for which the terminal's goroutine has got the state. -/
  known : List Nat
  trace : Trace

/-- The worker goes on. -/
def Run.goes (r : Run) (k : Nat) (p : Pc) (evs : Trace) : Run :=
  { r with pc := fun j => if j = k then p else r.pc j, trace := r.trace ++ evs }

/-- Something happens. -/
def Run.does (r : Run) (evs : Trace) : Run := { r with trace := r.trace ++ evs }

/-- The steps of a run. -/
inductive RStep : Run → Run → Prop where
  /-- internal/pbf/process.go:90-98 -/
  | startWorker {r k} : r.pc k = .off →
      RStep r (r.goes k .fresh [⟨.main, .go (.worker k)⟩, ⟨.worker k, .start⟩])
  /-- internal/pbf/process.go:77-84 (of the first pass; the writers of later passes count as the same). -/
  | startWriter {r} : r.writer = false →
      RStep r { r.does [⟨.main, .go .writer⟩, ⟨.writer, .start⟩] with writer := true }
  /-- internal/ui/widget/widget_command.go:20-29, internal/tracker/widget_workers.go:25-31: the caller makes the widgets of
  the next pass. -/
  | widgets {r} : RStep r (r.does [⟨.caller, .write (.widgets r.shown)⟩])
  /-- internal/ui/ui.go:103-116 -/
  | show {r} :
      RStep r { r.does [⟨.caller, .send .events⟩, ⟨.ui, .recv .events⟩] with shown := r.shown + 1 }
  /-- `sw := &state.Worker{}` -/
  | make {r k f} : r.pc k = .fresh → RStep r (r.does [⟨.worker k, .write (.word k f)⟩])
  | made {r k} : r.pc k = .fresh → RStep r (r.goes k .made [])
  /-- internal/tracker/worker_tracker.go:20 -/
  | lockAdd {r k} : r.pc k = .made → r.hold = none →
      RStep r { r.goes k .adding [⟨.worker k, .lock .mutex⟩] with hold := some (.worker k) }
  /-- internal/tracker/worker_tracker.go:21 -/
  | add {r k} : r.pc k = .adding →
      RStep r { r.goes k .filled [⟨.worker k, .read .list⟩, ⟨.worker k, .write .list⟩] with list := r.list ++ [k] }
  /-- internal/tracker/worker_tracker.go:22 -/
  | unlockAdd {r k} : r.pc k = .filled →
      RStep r { r.goes k .added [⟨.worker k, .unlock .mutex⟩] with hold := none }
  /-- internal/tracker/worker_tracker.go:23 -/
  | bumpAdd {r k} : r.pc k = .added → RStep r (r.goes k .running [⟨.worker k, .atomicWrite .version⟩])
  /-- cmd/*/*/state/state_worker.go: `SetCurrentState` and the like. -/
  | store {r k f} : r.pc k = .running → RStep r (r.does [⟨.worker k, .atomicWrite (.word k f)⟩])
  /-- internal/tracker/worker_tracker.go:27 -/
  | lockRemove {r k} : r.pc k = .running → r.hold = none →
      RStep r { r.goes k .removing [⟨.worker k, .lock .mutex⟩] with hold := some (.worker k) }
  /-- internal/tracker/worker_tracker.go:28-35 -/
  | remove {r k} : r.pc k = .removing →
      RStep r { r.goes k .emptied [⟨.worker k, .read .list⟩, ⟨.worker k, .write .list⟩] with list := r.list.erase k }
  /-- internal/tracker/worker_tracker.go:36 -/
  | unlockRemove {r k} : r.pc k = .emptied →
      RStep r { r.goes k .removed [⟨.worker k, .unlock .mutex⟩] with hold := none }
  /-- internal/tracker/worker_tracker.go:37 -/
  | bumpRemove {r k} : r.pc k = .removed → RStep r (r.goes k .ended [⟨.worker k, .atomicWrite .version⟩])
  /-- cmd/*/*/state/state_writer.go -/
  | writerStore {r f} : r.writer = true → RStep r (r.does [⟨.writer, .atomicWrite (.shared f)⟩])
  /-- internal/tracker/widget_workers.go:36 -/
  | version {r} : 0 < r.shown → RStep r (r.does [⟨.ui, .atomicRead .version⟩])
  /-- internal/tracker/worker_tracker.go:41 -/
  | rlock {r} : 0 < r.shown → r.hold = none →
      RStep r { r.does [⟨.ui, .rlock .mutex⟩] with hold := some .ui }
  /-- internal/tracker/worker_tracker.go:42-45 -/
  | states {r} : r.hold = some .ui → RStep r { r.does [⟨.ui, .read .list⟩] with known := r.list ++ r.known }
  /-- internal/tracker/worker_tracker.go:46 -/
  | runlock {r} : r.hold = some .ui → RStep r { r.does [⟨.ui, .runlock .mutex⟩] with hold := none }
  /-- cmd/*/*/widget/widget_state_worker.go: `CurrentState`, `CurrentBlock` and the like. -/
  | look {r k f} : 0 < r.shown → k ∈ r.known → RStep r (r.does [⟨.ui, .atomicRead (.word k f)⟩])
  /-- cmd/*/*/widget/widget_state_writer.go -/
  | lookWriter {r f} : 0 < r.shown → RStep r (r.does [⟨.ui, .atomicRead (.shared f)⟩])
  /-- internal/tracker/widget_workers.go:36-57, cmd/*/*/widget/*.go -/
  | widgetsRead {r p} : p < r.shown → RStep r (r.does [⟨.ui, .read (.widgets p)⟩])
  | widgetsWrite {r p} : p < r.shown → RStep r (r.does [⟨.ui, .write (.widgets p)⟩])

/-- The caller makes the tracker and the state of the writer (for instance cmd/nodeindex/nodeindex.go:28), then
`ProcessFileAsync` starts `processFileWork`. `fields` is the number of fields of the writer's state. -/
def opening (fields : Nat) : Trace :=
  [⟨.caller, .write .list⟩, ⟨.caller, .write .version⟩] ++
    (List.range fields).map (fun f => ⟨.caller, .write (.shared f)⟩) ++ [⟨.caller, .go .main⟩, ⟨.main, .start⟩]

/-- The beginning of a run. -/
def Run.init (fields : Nat) : Run where
  pc _ := .off
  writer := false
  shown := 0
  hold := none
  list := []
  known := []
  trace := opening fields

/-- All runs. -/
inductive Reachable (fields : Nat) : Run → Prop where
  | init : Reachable fields (Run.init fields)
  | step {r r'} : Reachable fields r → RStep r r' → Reachable fields r'

end Osm.RaceTracker
