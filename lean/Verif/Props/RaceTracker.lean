import Verif.Lemmas.RaceTracker

/-!
# C91: no data races in the tracker and in what workers and writers say about themselves
-/

namespace Osm.Props
open Osm.Spec.Race

/-- C91: however many workers come and go, whatever they and the writer say about themselves, however often the terminal's
goroutine asks who is there and looks at what they say, however many passes show their widgets, and however the goroutines
are scheduled: no two accesses of the list of workers, of its version, of the state words or of the widgets race. -/
theorem C91_tracker (fields : Nat) (r : RaceTracker.Run) (h : RaceTracker.Reachable fields r) (i j : Nat) :
    ¬ Race r.trace i j := h.inv.race i j

/-- C91: at no time do two goroutines have the mutex: if a worker is where it changes the list, no other worker is, nor is
the terminal's goroutine reading it. -/
theorem C91_tracker_exclusive (fields : Nat) (r : RaceTracker.Run) (h : RaceTracker.Reachable fields r) (k : Nat)
    (hk : r.pc k = .adding ∨ r.pc k = .removing) :
    r.hold ≠ some .ui ∧ ∀ j, r.pc j = .adding ∨ r.pc j = .removing → j = k := by
  have hi := h.inv
  have hc : ∀ j, r.pc j = .adding ∨ r.pc j = .removing → r.hold = some (.worker j) := fun j hj =>
    (hi.critical j).1 (by rcases hj with hj | hj <;> rw [hj] <;> rfl)
  have h1 := hc k hk
  refine ⟨by rw [h1]; simp, fun j hj => ?_⟩
  have h2 := hc j hj
  rw [h1] at h2
  simpa using h2.symm

open RaceTracker in
/-- The theorems are about runs in which something happens: two workers are tracked, the terminal's goroutine gets their
states and looks at one while the other, and the same one, say something new, then one is no longer tracked. -/
example : ∃ r, RaceTracker.Reachable 2 r ∧ r.known = [0, 1] ∧ r.list = [0] ∧
    ⟨.ui, .atomicRead (.word 0 0)⟩ ∈ r.trace ∧ ⟨.worker 0, .atomicWrite (.word 0 0)⟩ ∈ r.trace ∧
    ⟨.worker 0, .write (.word 0 0)⟩ ∈ r.trace ∧ ⟨.worker 1, .write .list⟩ ∈ r.trace ∧
    ⟨.ui, .read .list⟩ ∈ r.trace := by
  have h0 : RaceTracker.Reachable 2 _ := .init
  have h1 := h0.step (.startWorker (k := 0) rfl)
  have h2 := h1.step (.startWorker (k := 1) rfl)
  have h3 := h2.step (.startWriter rfl)
  have h4 := h3.step .widgets
  have h5 := h4.step .show
  have h6 := h5.step (.make (k := 0) (f := 0) rfl)
  have h7 := h6.step (.make (k := 1) (f := 0) rfl)
  have h8 := h7.step (.made (k := 0) rfl)
  have h9 := h8.step (.made (k := 1) rfl)
  have h10 := h9.step (.lockAdd (k := 0) rfl rfl)
  have h11 := h10.step (.add (k := 0) rfl)
  have h12 := h11.step (.unlockAdd (k := 0) rfl)
  have h13 := h12.step (.bumpAdd (k := 0) rfl)
  have h14 := h13.step (.lockAdd (k := 1) rfl rfl)
  have h15 := h14.step (.add (k := 1) rfl)
  have h16 := h15.step (.unlockAdd (k := 1) rfl)
  have h17 := h16.step (.bumpAdd (k := 1) rfl)
  have h18 := h17.step (.version (by decide))
  have h19 := h18.step (.rlock (by decide) rfl)
  have h20 := h19.step (.states rfl)
  have h21 := h20.step (.runlock rfl)
  have h22 := h21.step (.look (k := 0) (f := 0) (by decide) (by decide))
  have h23 := h22.step (.store (k := 0) (f := 0) rfl)
  have h24 := h23.step (.store (k := 1) (f := 0) rfl)
  have h25 := h24.step (.writerStore (f := 1) rfl)
  have h26 := h25.step (.lookWriter (f := 1) (by decide))
  have h27 := h26.step (.widgetsWrite (p := 0) (by decide))
  have h28 := h27.step (.lockRemove (k := 1) rfl rfl)
  have h29 := h28.step (.remove (k := 1) rfl)
  have h30 := h29.step (.unlockRemove (k := 1) rfl)
  exact ⟨_, h30, rfl, rfl, by decide, by decide, by decide, by decide, by decide⟩

end Osm.Props
