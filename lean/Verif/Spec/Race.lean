/-!
# Specification vocabulary for data races (C91)

The memory model of Go (https://go.dev/ref/mem), restricted to what this program uses. An execution is the list of the
events of all goroutines, in the order in which they take effect. Only some of the guarantees that Go gives are used: fewer
of them make more executions racy, so the absence of races proved here is the stronger statement.
-/

namespace Osm.Spec.Race

/-- What a goroutine does. `T` are goroutines, `L` memory locations, `S` channels, wait groups, mutexes and pooled objects. -/
inductive Act (T L S : Type) where
  /-- A plain read of a location. -/
  | read (l : L)
  /-- A plain write. -/
  | write (l : L)
  /-- `atomic.Load…` -/
  | atomicRead (l : L)
  /-- `atomic.Store…`, `atomic.Add…` and `atomic.CompareAndSwap…` -/
  | atomicWrite (l : L)
  /-- A `go` statement that starts `t`. -/
  | go (t : T)
  /-- The first thing that a goroutine does. -/
  | start
  /-- Sending on a channel. -/
  | send (c : S)
  /-- Receiving a value from a channel. -/
  | recv (c : S)
  /-- Closing a channel. -/
  | close (c : S)
  /-- Learning that a channel is closed. -/
  | recvClosed (c : S)
  /-- `wg.Done()` -/
  | done (w : S)
  /-- `wg.Wait()` returns. -/
  | wait (w : S)
  /-- `sync.Pool`'s `Put(x)` -/
  | put (x : S)
  /-- `sync.Pool`'s `Get()` returns `x`. -/
  | get (x : S)
  /-- `mu.Lock()` returns. -/
  | lock (m : S)
  /-- `mu.Unlock()` -/
  | unlock (m : S)
  /-- `mu.RLock()` returns. -/
  | rlock (m : S)
  /-- `mu.RUnlock()` -/
  | runlock (m : S)
deriving DecidableEq

/-- An event: who does what. -/
structure Event (T L S : Type) where
  thread : T
  act : Act T L S
deriving DecidableEq

variable {T L S : Type}

/-- The location that is accessed. -/
def Act.loc : Act T L S → Option L
  | .read l | .write l | .atomicRead l | .atomicWrite l => some l
  | _ => none

/-- It is a write. -/
def Act.writes : Act T L S → Bool
  | .write _ | .atomicWrite _ => true
  | _ => false

/-- It is atomic. -/
def Act.atomic : Act T L S → Bool
  | .atomicRead _ | .atomicWrite _ => true
  | _ => false

/-- How often something has been sent on a channel. -/
def sends [DecidableEq S] (c : S) (tr : List (Event T L S)) : Nat :=
  tr.countP fun e => match e.act with | .send d => decide (d = c) | _ => false

/-- How often something has been received from a channel. -/
def recvs [DecidableEq S] (c : S) (tr : List (Event T L S)) : Nat :=
  tr.countP fun e => match e.act with | .recv d => decide (d = c) | _ => false

/-- The event at `i` is synchronized before the event at `j`. -/
inductive Sync [DecidableEq S] (tr : List (Event T L S)) : Nat → Nat → Prop where
  /-- The `go` statement, and the start of the goroutine. -/
  | go {i j t u} : i < j → tr[i]? = some ⟨t, .go u⟩ → tr[j]? = some ⟨u, .start⟩ → Sync tr i j
  /-- The `k`-th send on a channel, and the completion of the `k`-th receive. -/
  | message {i j t u c} : i < j → tr[i]? = some ⟨t, .send c⟩ → tr[j]? = some ⟨u, .recv c⟩ →
      sends c (tr.take i) = recvs c (tr.take j) → Sync tr i j
  /-- Closing a channel, and a receive that returns because of it. -/
  | close {i j t u c} : i < j → tr[i]? = some ⟨t, .close c⟩ → tr[j]? = some ⟨u, .recvClosed c⟩ → Sync tr i j
  /-- `Done`, and the return of `Wait`. -/
  | wait {i j t u w} : i < j → tr[i]? = some ⟨t, .done w⟩ → tr[j]? = some ⟨u, .wait w⟩ → Sync tr i j
  /-- `Put(x)`, and a `Get` that returns `x`. -/
  | pool {i j t u x} : i < j → tr[i]? = some ⟨t, .put x⟩ → tr[j]? = some ⟨u, .get x⟩ → Sync tr i j
  /-- `Unlock`, and a later `Lock`. -/
  | mutex {i j t u m} : i < j → tr[i]? = some ⟨t, .unlock m⟩ → tr[j]? = some ⟨u, .lock m⟩ → Sync tr i j
  /-- `Unlock`, and a later `RLock`. -/
  | reader {i j t u m} : i < j → tr[i]? = some ⟨t, .unlock m⟩ → tr[j]? = some ⟨u, .rlock m⟩ → Sync tr i j
  /-- `RUnlock`, and a later `Lock`. -/
  | readers {i j t u m} : i < j → tr[i]? = some ⟨t, .runlock m⟩ → tr[j]? = some ⟨u, .lock m⟩ → Sync tr i j
  /-- An atomic write, and an atomic read that observes it. -/
  | observe {i j t u l} : i < j → tr[i]? = some ⟨t, .atomicWrite l⟩ → tr[j]? = some ⟨u, .atomicRead l⟩ →
      (∀ k v, i < k → k < j → tr[k]? ≠ some ⟨v, .atomicWrite l⟩) → Sync tr i j

/-- The event at `i` comes before the event at `j` in the same goroutine. -/
def Program (tr : List (Event T L S)) (i j : Nat) : Prop :=
  i < j ∧ ∃ e f, tr[i]? = some e ∧ tr[j]? = some f ∧ e.thread = f.thread

/-- Happens before. -/
def Before [DecidableEq S] (tr : List (Event T L S)) : Nat → Nat → Prop :=
  Relation.TransGen fun i j => Program tr i j ∨ Sync tr i j

/-- Two accesses of one location, one of them a write, not both atomic. -/
def Conflict (a b : Act T L S) : Prop :=
  a.loc ≠ none ∧ a.loc = b.loc ∧ (a.writes = true ∨ b.writes = true) ∧ ¬ (a.atomic = true ∧ b.atomic = true)

/-- A data race: two such accesses, neither of which happens before the other. -/
def Race [DecidableEq S] (tr : List (Event T L S)) (i j : Nat) : Prop :=
  i < j ∧ ∃ e f, tr[i]? = some e ∧ tr[j]? = some f ∧ Conflict e.act f.act ∧ ¬ Before tr i j ∧ ¬ Before tr j i

end Osm.Spec.Race
