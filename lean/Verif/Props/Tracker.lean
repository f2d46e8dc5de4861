import Verif.Lemmas.Tracker

/-! # The worker display (C63) -/

namespace Osm.Props
open Osm Osm.Tracker

/-- The workers displayed, from top to bottom. -/
def displayed (s : St) : List Nat := s.ui.box.map (·.worker)

/-- No update is in flight. -/
def Quiet (s : St) : Prop := ∀ p ∈ s.procs, p ≠ .tracking ∧ p ≠ .untracking

/-- One refresh, from beginning to end, with nothing else happening meanwhile. -/
inductive Refreshed : St → St → Prop where
  | one {s s'} : s.uiPc = .idle → UiStep s s' → s'.uiPc = .idle → Refreshed s s'
  | two {s s' s''} : s.uiPc = .idle → UiStep s s' → UiStep s' s'' → s''.uiPc = .idle → Refreshed s s''

/-- C63: after any interleaving of track, untrack and refreshes (also refreshes that overlap with updates), once no
update is in flight one refresh makes the display equal the list of tracked workers, in the order in which they were
tracked; these are the ones that run, each once. (There are at most 2^63 - 1 workers in a run, so the version does not
wrap.) -/
theorem C63_exact (n : Nat) (hn : n < 2 ^ 63) (s : St) (hr : Tracker.Reachable n s) (hq : Quiet s) (s' : St)
    (h : Refreshed s s') :
    displayed s' = s.workers ∧ (displayed s').Nodup ∧ ∀ i, i ∈ displayed s' ↔ s.procs[i]? = some .running := by
  have hi := reachable_inv hr
  have hm : ∀ i, i ∈ s.workers ↔ s.procs[i]? = some .running := by
    intro i
    rw [hi.mem]
    constructor
    · rintro ⟨p, hp, hl⟩
      have := hq p (List.mem_of_getElem? hp)
      cases p with
      | running => exact hp
      | tracking => exact absurd rfl this.1
      | _ => cases hl
    · intro hp
      exact ⟨_, hp, rfl⟩
  suffices hd : displayed s' = s.workers by
    rw [hd]
    exact ⟨rfl, hi.nodup, hm⟩
  have skipped : s.uiPc = .idle → s.lastVersion = s.version → displayed s = s.workers := by
    intro hp hl
    apply hi.shown
    obtain ⟨L, e, hle, hid⟩ := hi.last
    have hq' := quiet_sum s.procs hq
    have hvc := v_le_c s.procs
    have hc := hi.changes
    have hrl := hi.readLe
    have := hid hp
    rw [e, hi.version] at hl
    have hl := congrArg UInt64.toNat hl
    simp only [UInt64.toNat_ofNat'] at hl
    have hcount := hi.count
    unfold vs at hl hle
    rw [Nat.mod_eq_of_lt (by omega), Nat.mod_eq_of_lt (by omega)] at hl
    omega
  cases h with
  | one h1 h2 h3 =>
    cases h2 with
    | skip _ hl => exact skipped h1 hl
    | check _ _ => cases h3
    | read h => rw [h1] at h; cases h
  | two h1 h2 h3 h4 =>
    cases h2 with
    | skip _ hl =>
      cases h3 with
      | skip _ _ => exact skipped h1 hl
      | check _ hne => exact absurd hl hne
      | read h => rw [h1] at h; cases h
    | check _ _ =>
      cases h3 with
      | skip h _ => cases h
      | check h _ => cases h
      | read _ =>
        show (refresh _ _).box.map _ = _
        rw [workerStates_eq]
        exact (refresh_ok hi.ui hi.nodup).2.1
    | read h => rw [h1] at h; cases h

/-- C63: there always is such a refresh. -/
theorem C63_refreshes (s : St) (h : s.uiPc = .idle) : ∃ s', Refreshed s s' := by
  by_cases hv : s.lastVersion = s.version
  · exact ⟨s, .one h (.skip h hv) h⟩
  · exact ⟨_, .two h (.check h hv) (.read rfl) rfl⟩

/-- C63: at all times the display shows no worker twice; and a refresh leaves a worker that was displayed and still is
with its widget. -/
theorem C63_widgets (n : Nat) (s : St) (hr : Tracker.Reachable n s) :
    (displayed s).Nodup ∧ ∀ s', UiStep s s' → ∀ w ∈ s.ui.box, w.worker ∈ displayed s' → w ∈ s'.ui.box := by
  have hi := reachable_inv hr
  refine ⟨hi.ui.nodup, ?_⟩
  intro s' hs w hw hd
  cases hs with
  | skip _ _ => exact hw
  | check _ _ => exact hw
  | read _ =>
    unfold displayed at hd
    dsimp only at hd ⊢
    rw [workerStates_eq] at hd ⊢
    rw [(refresh_ok hi.ui hi.nodup).2.1] at hd
    exact (refresh_ok hi.ui hi.nodup).2.2 w hw hd

/-- A refresh that overlaps with an update shows the worker before the version is increased; a second one shows another. -/
example : ∃ s s', Tracker.Reachable 2 s ∧ Quiet s ∧ Refreshed s s' ∧ displayed s = [0] ∧ displayed s' = [0, 1] := by
  have r1 := Tracker.Reachable.worker (.init (procs := 2)) (WStep.track (l1 := []) (l2 := [.new]) rfl)
  have r2 := Tracker.Reachable.worker r1 (WStep.tracked (l1 := []) (l2 := [.new]) rfl)
  have r3 := Tracker.Reachable.ui r2 (UiStep.check rfl (by decide))
  have r4 := Tracker.Reachable.ui r3 (UiStep.read rfl)
  have r5 := Tracker.Reachable.worker r4 (WStep.track (l1 := [.running]) (l2 := []) rfl)
  have r6 := Tracker.Reachable.worker r5 (WStep.tracked (l1 := [.running]) (l2 := []) rfl)
  refine ⟨_, _, r6, ?_, .two rfl (.check rfl (by decide)) (.read rfl) rfl, rfl, rfl⟩
  intro p hp
  simp only [List.cons_append, List.nil_append, List.mem_cons, List.not_mem_nil, or_false, or_self] at hp
  subst hp
  exact ⟨by decide, by decide⟩

end Osm.Props
