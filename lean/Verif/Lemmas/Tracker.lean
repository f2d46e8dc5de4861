import Verif.Model.Tracker

/-! # The worker tracker -/

namespace Osm.Tracker
open Osm

theorem workerStates_eq (ws : List Nat) : workerStates ws = ws := by
  induction ws with
  | nil => rfl
  | cons w ws ih => rw [workerStates, ih]

theorem untrack_mem : ∀ (ws : List Nat) (sw : Nat), ws.Nodup → ∀ i, i ∈ untrack ws sw ↔ i ∈ ws ∧ i ≠ sw
  | [], _, _, i => by simp [untrack]
  | w :: ws, sw, h, i => by
    obtain ⟨h1, h2⟩ := List.nodup_cons.1 h
    unfold untrack
    split
    · next e =>
      subst e
      simp only [List.mem_cons]
      constructor
      · intro hi
        exact ⟨.inr hi, by rintro rfl; exact h1 hi⟩
      · rintro ⟨hi | hi, hne⟩
        · exact absurd hi hne
        · exact hi
    · next hne =>
      simp only [List.mem_cons, untrack_mem ws sw h2]
      constructor
      · rintro (rfl | ⟨h3, h4⟩)
        · exact ⟨.inl rfl, hne⟩
        · exact ⟨.inr h3, h4⟩
      · rintro ⟨rfl | h3, h4⟩
        · exact .inl rfl
        · exact .inr ⟨h3, h4⟩

theorem untrack_nodup : ∀ (ws : List Nat) (sw : Nat), ws.Nodup → (untrack ws sw).Nodup
  | [], _, _ => by simp [untrack]
  | w :: ws, sw, h => by
    obtain ⟨h1, h2⟩ := List.nodup_cons.1 h
    unfold untrack
    split
    · exact h2
    · refine List.nodup_cons.2 ⟨fun hw => h1 ?_, untrack_nodup ws sw h2⟩
      exact ((untrack_mem ws sw h2 w).1 hw).1

/-! ## A refresh -/

structure UiOk (u : Ui) : Prop where
  nodup : (u.box.map (·.worker)).Nodup
  look : ∀ w ∈ u.box, u.states.lookup w.worker = some w
  back : ∀ x w, u.states.lookup x = some w → w.worker = x

theorem setWidget_lookup (m : List (Nat × Widget)) (k : Nat) (w : Widget) (x : Nat) :
    (setWidget m k w).lookup x = if x = k then some w else m.lookup x := by
  unfold setWidget
  rw [List.lookup_cons]
  by_cases h : x = k
  · simp [h]
  · have hf : (x == k) = false := by simp [h]
    rw [hf, if_neg h]
    dsimp only
    induction m with
    | nil => rfl
    | cons e m ih =>
      obtain ⟨a, b⟩ := e
      rw [List.filter_cons]
      by_cases ha : a = k
      · subst ha
        simp only [beq_self_eq_true, Bool.not_true, Bool.false_eq_true, if_false]
        rw [ih, List.lookup_cons, hf]
      · have : (a == k) = false := by simp [ha]
        simp only [this, Bool.not_false, if_true]
        rw [List.lookup_cons, List.lookup_cons, ih]

theorem removeAll_mem : ∀ (es : List (Nat × Widget)) (box : List Widget) (w : Widget),
    w ∈ removeAll box es ↔ w ∈ box ∧ ∀ e ∈ es, w ≠ e.2
  | [], box, w => by simp [removeAll]
  | e :: es, box, w => by
    unfold removeAll
    rw [removeAll_mem es]
    simp [removeWidget, and_assoc]

theorem lookup_mem {m : List (Nat × Widget)} {k : Nat} {w : Widget} (h : m.lookup k = some w) : (k, w) ∈ m := by
  induction m with
  | nil => cases h
  | cons e m ih =>
    obtain ⟨a, b⟩ := e
    rw [List.lookup_cons] at h
    by_cases ha : k = a
    · subst ha
      simp at h
      simp [h]
    · have : (k == a) = false := by simp [ha]
      rw [this] at h
      exact List.mem_cons_of_mem _ (ih h)

theorem removeAll_ok {u : Ui} (h : UiOk u) : removeAll u.box u.states = [] := by
  rw [List.eq_nil_iff_forall_not_mem]
  intro w hw
  obtain ⟨h1, h2⟩ := (removeAll_mem _ _ _).1 hw
  exact h2 _ (lookup_mem (h.look w h1)) rfl

theorem loop_ok (old : List (Nat × Widget)) (hold : ∀ x w, old.lookup x = some w → w.worker = x) :
    ∀ (ws : List Nat) (u : Ui), UiOk u → (u.box.map (·.worker) ++ ws).Nodup →
      UiOk (ws.foldl (addState old) u) ∧
      (ws.foldl (addState old) u).box.map (·.worker) = u.box.map (·.worker) ++ ws ∧
      (∀ w ∈ u.box, w ∈ (ws.foldl (addState old) u).box) ∧
      ∀ x ∈ ws, ∀ w, old.lookup x = some w → w ∈ (ws.foldl (addState old) u).box
  | [], u, h, hn => ⟨h, by simp, fun _ h => h, by simp⟩
  | x :: ws, u, h, hn => by
    have key : ∃ w s', addState old u x = ⟨setWidget u.states x w, u.box ++ [w], s'⟩ ∧ w.worker = x ∧
        ∀ w', old.lookup x = some w' → w' = w := by
      unfold addState
      cases hl : old.lookup x with
      | some w => exact ⟨w, u.made, rfl, hold x w hl, by rintro w' h; cases h; rfl⟩
      | none => exact ⟨_, _, rfl, rfl, by rintro w' h; cases h⟩
    obtain ⟨w, made, e, hw, hre⟩ := key
    rw [List.foldl_cons, e]
    have hx : x ∉ u.box.map (·.worker) := by
      intro hx
      exact (List.nodup_append.1 hn).2.2 x hx x (by simp) rfl
    have hok : UiOk ⟨setWidget u.states x w, u.box ++ [w], made⟩ := by
      refine ⟨?_, ?_, ?_⟩
      · rw [List.map_append, List.nodup_append]
        refine ⟨h.nodup, by simp, ?_⟩
        intro a ha b hb hab
        simp only [List.map_cons, List.map_nil, List.mem_singleton] at hb
        subst hab
        rw [hb, hw] at ha
        exact hx ha
      · intro v hv
        dsimp only at hv ⊢
        rw [setWidget_lookup]
        rcases List.mem_append.1 hv with hv | hv
        · rw [if_neg, h.look v hv]
          rintro rfl
          exact hx (List.mem_map.2 ⟨v, hv, rfl⟩)
        · obtain rfl := List.mem_singleton.1 hv
          rw [if_pos hw]
      · intro y v hv
        dsimp only at hv
        rw [setWidget_lookup] at hv
        split at hv
        · next e => cases hv; rw [hw, e]
        · exact h.back y v hv
    have hn' : ((u.box ++ [w]).map (·.worker) ++ ws).Nodup := by
      rw [List.map_append, List.map_cons, List.map_nil, hw, List.append_assoc]
      exact hn
    obtain ⟨r1, r2, r3, r4⟩ := loop_ok old hold ws _ hok hn'
    refine ⟨r1, ?_, ?_, ?_⟩
    · rw [r2, List.map_append, List.map_cons, List.map_nil, hw, List.append_assoc]
      rfl
    · intro v hv
      exact r3 v (List.mem_append_left _ hv)
    · intro y hy v hv
      rcases List.mem_cons.1 hy with rfl | hy
      · rw [hre v hv]
        exact r3 w (by simp)
      · exact r4 y hy v hv

theorem refresh_ok {u : Ui} (h : UiOk u) {ws : List Nat} (hn : ws.Nodup) :
    UiOk (refresh u ws) ∧ (refresh u ws).box.map (·.worker) = ws ∧
      ∀ w ∈ u.box, w.worker ∈ ws → w ∈ (refresh u ws).box := by
  unfold refresh
  rw [removeAll_ok h]
  obtain ⟨h1, h2, _, h4⟩ := loop_ok u.states h.back ws ⟨[], [], u.made⟩ ⟨by simp, by simp, by simp⟩ (by simpa using hn)
  exact ⟨h1, by simpa using h2, fun w hw hm => h4 _ hm w (h.look w hw)⟩

/-! ## The invariant -/

/-- How often a worker has changed the list. -/
def cOf : Pc → Nat
  | .new => 0
  | .tracking | .running => 1
  | .untracking | .ended => 2

/-- How often it has increased the version. -/
def vOf : Pc → Nat
  | .new | .tracking => 0
  | .running | .untracking => 1
  | .ended => 2

/-- Versions so far. -/
def vs (s : St) : Nat := (s.procs.map vOf).sum

/-- Is the worker in the list? -/
def listed : Pc → Bool
  | .tracking | .running => true
  | _ => false

structure Inv (n : Nat) (s : St) : Prop where
  count : s.procs.length = n
  nodup : s.workers.Nodup
  mem : ∀ i, i ∈ s.workers ↔ ∃ p, s.procs[i]? = some p ∧ listed p = true
  changes : s.changes = (s.procs.map cOf).sum
  version : s.version = UInt64.ofNat (vs s)
  ui : UiOk s.ui
  last : ∃ L, s.lastVersion = UInt64.ofNat L ∧ L ≤ vs s ∧ (s.uiPc = .idle → L ≤ s.read)
  readLe : s.read ≤ s.changes
  shown : s.read = s.changes → s.ui.box.map (·.worker) = s.workers

theorem inv_init (n : Nat) : Inv n (init n) where
  count := by simp [init]
  nodup := by simp [init]
  mem := by
    intro i
    simp only [init, List.not_mem_nil, false_iff]
    rintro ⟨p, hp, hl⟩
    have := List.mem_of_getElem? hp
    obtain ⟨_, rfl⟩ := List.mem_replicate.1 this
    cases hl
  changes := by simp [init, cOf]
  version := by simp [init, vs, vOf]
  ui := ⟨by simp [init], by simp [init], by simp [init]⟩
  last := ⟨0, rfl, Nat.zero_le _, fun _ => Nat.zero_le _⟩
  readLe := Nat.zero_le _
  shown := by simp [init]

theorem get_mid {α : Type} (l1 l2 : List α) (a b : α) (i : Nat) :
    (l1 ++ b :: l2)[i]? = if i = l1.length then some b else (l1 ++ a :: l2)[i]? := by
  split
  · next h => subst h; simp
  · next h =>
    rcases Nat.lt_or_ge i l1.length with hlt | hge
    · rw [List.getElem?_append_left hlt, List.getElem?_append_left hlt]
    · rw [List.getElem?_append_right hge, List.getElem?_append_right hge]
      obtain ⟨k, hk⟩ : ∃ k, i - l1.length = k + 1 := ⟨i - l1.length - 1, by omega⟩
      rw [hk, List.getElem?_cons_succ, List.getElem?_cons_succ]

theorem inv_worker {n : Nat} {s s' : St} (hi : Inv n s) (hs : WStep s s') : Inv n s' := by
  obtain ⟨h1, h2, h3, h4, h5, h6, ⟨L, l1', l2', l3'⟩, h8, h9⟩ := hi
  cases hs with
  | @track l1 l2 h =>
    have hnew : l1.length ∉ s.workers := by
      rw [h3]
      rintro ⟨p, hp, hl⟩
      rw [h] at hp
      simp at hp
      subst hp
      cases hl
    simp only [vs, h, List.map_append, List.map_cons, List.sum_append, List.sum_cons, cOf, vOf, List.length_append,
      List.length_cons] at h1 h4 h5 l2' ⊢
    refine ⟨by simp; omega, ?_, ?_, ?_, ?_, h6, ⟨L, l1', ?_, l3'⟩, ?_, ?_⟩
    · rw [List.nodup_append]
      refine ⟨h2, by simp, ?_⟩
      intro a ha b hb hab
      obtain rfl := List.mem_singleton.1 hb
      subst hab
      exact hnew ha
    · intro i
      dsimp only
      rw [get_mid l1 l2 .new, ← h]
      simp only [List.mem_append, List.mem_singleton, h3]
      by_cases hil : i = l1.length
      · simp [hil, listed]
      · simp [hil]
    · simp [cOf]; omega
    · simp only [vs, List.map_append, List.map_cons, List.sum_append, List.sum_cons, vOf]; exact h5
    · simp only [vs, List.map_append, List.map_cons, List.sum_append, List.sum_cons, vOf]; exact l2'
    · dsimp only; omega
    · dsimp only; omega
  | @tracked l1 l2 h =>
    simp only [vs, h, List.map_append, List.map_cons, List.sum_append, List.sum_cons, cOf, vOf, List.length_append,
      List.length_cons] at h1 h4 h5 l2' ⊢
    refine ⟨by simp; omega, h2, ?_, ?_, ?_, h6, ⟨L, l1', ?_, l3'⟩, h8, h9⟩
    · intro i
      dsimp only
      rw [get_mid l1 l2 .tracking, ← h, h3]
      by_cases hil : i = l1.length
      · subst hil
        rw [h]
        simp [listed]
      · simp [hil]
    · simp [cOf]; omega
    · simp only [vs, List.map_append, List.map_cons, List.sum_append, List.sum_cons, vOf]
      rw [h5, show (1 : UInt64) = UInt64.ofNat 1 from rfl, ← UInt64.ofNat_add]
      congr 1
      omega
    · simp only [vs, List.map_append, List.map_cons, List.sum_append, List.sum_cons, vOf]; omega
  | @untrack l1 l2 h =>
    simp only [vs, h, List.map_append, List.map_cons, List.sum_append, List.sum_cons, cOf, vOf, List.length_append,
      List.length_cons] at h1 h4 h5 l2' ⊢
    refine ⟨by simp; omega, untrack_nodup _ _ h2, ?_, ?_, ?_, h6, ⟨L, l1', ?_, l3'⟩, ?_, ?_⟩
    · intro i
      dsimp only
      rw [get_mid l1 l2 .running, ← h, untrack_mem _ _ h2, h3]
      by_cases hil : i = l1.length
      · simp [hil, listed]
      · simp [hil]
    · simp [cOf]; omega
    · simp only [vs, List.map_append, List.map_cons, List.sum_append, List.sum_cons, vOf]; exact h5
    · simp only [vs, List.map_append, List.map_cons, List.sum_append, List.sum_cons, vOf]; exact l2'
    · dsimp only; omega
    · dsimp only; omega
  | @untracked l1 l2 h =>
    simp only [vs, h, List.map_append, List.map_cons, List.sum_append, List.sum_cons, cOf, vOf, List.length_append,
      List.length_cons] at h1 h4 h5 l2' ⊢
    refine ⟨by simp; omega, h2, ?_, ?_, ?_, h6, ⟨L, l1', ?_, l3'⟩, h8, h9⟩
    · intro i
      dsimp only
      rw [get_mid l1 l2 .untracking, ← h, h3]
      by_cases hil : i = l1.length
      · subst hil
        rw [h]
        simp [listed]
      · simp [hil]
    · simp [cOf]; omega
    · simp only [vs, List.map_append, List.map_cons, List.sum_append, List.sum_cons, vOf]
      rw [h5, show (1 : UInt64) = UInt64.ofNat 1 from rfl, ← UInt64.ofNat_add]
      congr 1
      omega
    · simp only [vs, List.map_append, List.map_cons, List.sum_append, List.sum_cons, vOf]; omega

theorem v_le_c : ∀ ps : List Pc, (ps.map vOf).sum ≤ (ps.map cOf).sum ∧ (ps.map cOf).sum ≤ 2 * ps.length
  | [] => by simp
  | p :: ps => by
    have := v_le_c ps
    cases p <;> simp only [List.map_cons, List.sum_cons, vOf, cOf, List.length_cons] <;> omega

theorem inv_ui {n : Nat} {s s' : St} (hi : Inv n s) (hs : UiStep s s') : Inv n s' := by
  have hvc := v_le_c s.procs
  obtain ⟨h1, h2, h3, h4, h5, h6, ⟨L, l1', l2', l3'⟩, h8, h9⟩ := hi
  cases hs with
  | skip _ _ => exact ⟨h1, h2, h3, h4, h5, h6, ⟨L, l1', l2', l3'⟩, h8, h9⟩
  | check _ _ => exact ⟨h1, h2, h3, h4, h5, h6, ⟨vs s, h5, Nat.le_refl _, by simp⟩, h8, h9⟩
  | read _ =>
    rw [workerStates_eq]
    obtain ⟨r1, r2, _⟩ := refresh_ok h6 h2
    refine ⟨h1, h2, h3, h4, h5, r1, ⟨L, l1', l2', fun _ => ?_⟩, Nat.le_refl _, fun _ => r2⟩
    dsimp only
    unfold vs at l2'
    omega

theorem reachable_inv {n : Nat} {s : St} (h : Reachable n s) : Inv n s := by
  induction h with
  | init => exact inv_init n
  | worker _ hs ih => exact inv_worker ih hs
  | ui _ hs ih => exact inv_ui ih hs

theorem quiet_sum : ∀ ps : List Pc, (∀ p ∈ ps, p ≠ .tracking ∧ p ≠ .untracking) → (ps.map vOf).sum = (ps.map cOf).sum
  | [], _ => rfl
  | p :: ps, h => by
    have h1 := quiet_sum ps (fun p hp => h p (by simp [hp]))
    have h2 := h p (by simp)
    cases p <;> simp_all [vOf, cOf]

end Osm.Tracker
