import Verif.Spec.Screen

/-! # Lemmas on the screen -/

namespace Osm.Screen
open Osm.Spec

/-! ## The layout -/

theorem remove_count (w v : Widget) : ∀ cs : List Cell,
    (RemoveWidget w cs).countP (fun c => c.widget == v) ≤ cs.countP (fun c => c.widget == v) ∧
    (0 < cs.countP (fun c => c.widget == w) →
      (RemoveWidget w cs).countP (fun c => c.widget == w) < cs.countP (fun c => c.widget == w)) := by
  intro cs
  induction cs using RemoveWidget.induct (w := w) with
  | case1 => exact ⟨Nat.le_refl _, fun h => h⟩
  | case2 c h =>
    simp only [RemoveWidget, if_pos h]
    refine ⟨Nat.zero_le _, fun h => h⟩
  | case3 c h =>
    simp only [RemoveWidget, if_neg h]
    refine ⟨Nat.le_refl _, fun h' => ?_⟩
    simp [h] at h'
  | case4 c d cs h ih =>
    obtain ⟨ih1, ih2⟩ := ih
    simp only [RemoveWidget, if_pos h, List.countP_cons] at *
    have hw : (c.widget == w) = true := by simp [h]
    have : (RemoveWidget w cs).countP (fun c => c.widget == w) ≤ cs.countP (fun c => c.widget == w) := by
      by_cases h0 : 0 < cs.countP (fun c => c.widget == w)
      · exact Nat.le_of_lt (ih2 h0)
      · have : ∀ l : List Cell, (RemoveWidget w l).Sublist l := by
          intro l
          induction l using RemoveWidget.induct (w := w) with
          | case1 => exact List.Sublist.refl _
          | case2 c h => simp [RemoveWidget, h]
          | case3 c h => simp [RemoveWidget, h]
          | case4 c d cs h ih => simp only [RemoveWidget, if_pos h]; exact (ih.cons_cons d).cons c
          | case5 c d cs h ih => simp only [RemoveWidget, if_neg h]; exact ih.cons_cons c
        exact (this cs).countP_le
    refine ⟨by omega, fun _ => ?_⟩
    simp only [hw, if_true]
    omega
  | case5 c d cs h ih =>
    obtain ⟨ih1, ih2⟩ := ih
    simp only [RemoveWidget, if_neg h, List.countP_cons] at *
    refine ⟨by omega, fun h0 => ?_⟩
    have hw : (c.widget == w) = false := by simp [h]
    rw [hw] at h0 ⊢
    simp only [Bool.false_eq_true, if_false, Nat.add_zero] at h0 ⊢
    exact ih2 h0

theorem remove_all : ∀ (ws : List Widget) (cs : List Cell),
    (∀ v, cs.countP (fun c => c.widget == v) ≤ ws.count v) →
    ws.foldl (fun cs w => RemoveWidget w cs) cs = [] := by
  intro ws
  induction ws with
  | nil =>
    intro cs h
    cases cs with
    | nil => rfl
    | cons c cs => have := h c.widget; simp at this
  | cons w ws ih =>
    intro cs h
    rw [List.foldl_cons]
    apply ih
    intro v
    obtain ⟨h1, h2⟩ := remove_count w v cs
    have hv := h v
    rw [List.count_cons] at hv
    by_cases e : w = v
    · subst e
      simp at hv
      by_cases h0 : 0 < cs.countP (fun c => c.widget == w)
      · have := h2 h0; omega
      · omega
    · simp [e] at hv
      omega

theorem replace_eq (cells : List Cell) (ws : List Widget) : replaceWidgets cells ws = addAll ws := by
  unfold replaceWidgets
  rw [remove_all, List.nil_append]
  intro v
  rw [List.count_eq_countP, List.countP_map]
  exact Nat.le_of_eq rfl

theorem addAll_laid : ∀ ws : List Widget, LaidOut (addAll ws) ws := by
  intro ws
  induction ws using addAll.induct with
  | case1 => exact ⟨rfl, fun i c h => by simp [addAll] at h⟩
  | case2 w =>
    refine ⟨rfl, fun i c h => ?_⟩
    cases i with
    | zero => cases h; rfl
    | succ i => simp [addAll] at h
  | case3 w v ws ih =>
    obtain ⟨h1, h2⟩ := ih
    refine ⟨by simp only [addAll, List.map_cons, h1], fun i c h => ?_⟩
    cases i with
    | zero => cases h; simp
    | succ i =>
      have := h2 i c h
      rw [this]
      simp only [List.length_cons]
      split <;> split <;> omega

/-! ## The invariant -/

/-- What holds in all states. -/
structure Inv (c : Cfg) (s : St) : Prop where
  start : s.main = .start → s.app = .absent ∧ s.queue.all (fun e => (keyOf e).isSome) ∧ s.posters = [] ∧ s.ready = false
  app0 : s.app = .absent → s.main = .start
  boot : s.app = .booting → s.main = .awaitReady ∧ s.ready = false
  polling : s.app = .polling → s.main ≠ .done ∧ s.main ≠ .start
  wait : s.main = .awaitReady → s.app = .booting ∨ s.app = .polling
  ready : s.main = .awaitReady → s.app = .polling → s.ready = true
  early : s.main = .start ∨ s.main = .awaitReady ↔ s.ticker = .absent
  shut : s.shutdown = true ↔ (s.main = .awaitTicker ∨ s.main = .awaitApp ∨ s.main = .done)
  tick : s.ticker = .ended → s.shutdown = true
  late : s.main = .awaitApp ∨ s.main = .done → s.ticker = .ended
  ended : s.app = .ended ↔ .quit ∈ s.handled
  over : s.main = .done → s.app = .ended
  quit : s.main = .awaitApp ∨ s.main = .done → s.posters.count .quit + s.queue.count .quit + s.handled.count .quit = 1
  none : s.main ≠ .awaitApp → s.main ≠ .done → s.posters.count .quit + s.queue.count .quit + s.handled.count .quit = 0
  last : s.app = .ended → s.handled.head? = some .quit
  cells : s.cells = addAll ((s.handled.findSome? widgetsOf).getD [])
  cancelled : s.cancelled = true ↔ .key .ctrlC ∈ s.handled
  crashed : s.crashed = true ↔ (.key .ctrlA ∈ s.handled ∨ (c.interval ≤ 0 ∧ s.crashed = true ∧ s.ticker = .starting))
  negative : c.interval ≤ 0 → s.ticker = .absent ∨ s.ticker = .starting

theorem inv_init (c : Cfg) : Inv c St.init := by
  constructor <;> simp [St.init, addAll]

theorem inv_step {c : Cfg} {k : Kind} {s t : St} (hi : Inv c s) (h : Step c k s t) : Inv c t := by
  obtain ⟨h1, h2, h3, h4, h5, h6, h7, h8, h9, h10, h11, h12, h13, h14, h15, h16, h17, h18, h19⟩ := hi
  cases h with
  | ticker hc ht =>
    split
    · constructor <;> grind
    · constructor <;> grind
  | poll hc ha hq =>
    rename_i e q
    cases e with
    | update => constructor <;> simp_all [handle, widgetsOf, List.findSome?_cons]
    | replace ws => constructor <;> simp_all [handle, widgetsOf, replace_eq, List.findSome?_cons]
    | quit =>
      rw [hq, List.count_cons] at h13 h14
      simp only [beq_self_eq_true, if_true] at h13 h14
      have hm : s.main = .awaitApp := by
        by_cases h : s.main = .awaitApp
        · exact h
        · have := h14 h (h4 ha).1; omega
      have := h13 (.inl hm)
      constructor <;> simp_all [handle, widgetsOf, List.findSome?_cons]
      omega
    | key k => cases k <;> constructor <;> simp_all [handle, widgetsOf, List.findSome?_cons]
  | post hc hp hq =>
    rename_i e a b
    have hcount : (a ++ b).count .quit + (s.queue ++ [e]).count .quit = s.posters.count .quit + s.queue.count .quit := by
      rw [hp]
      simp only [List.count_append, List.count_cons, List.count_nil]
      omega
    constructor <;> grind [keyOf]
  | _ => constructor <;> grind [keyOf]

theorem inv_run {c : Cfg} {ks : List Kind} {s t : St} (hi : Inv c s) (h : Run c ks s t) : Inv c t := by
  induction h with
  | nil => exact hi
  | snoc _ hs ih => exact inv_step (ih hi) hs

/-! ## The number of steps -/

def mainRank (n : Nat) : Main → Nat
  | .start => 10 + 3 * n
  | .awaitReady => 8 + 3 * n
  | .run todo => 5 + 3 * todo.length
  | .awaitTicker => 4
  | .awaitApp => 1
  | .done => 0

def appRank : App → Nat
  | .booting => 1
  | _ => 0

def tickerRank : Ticker → Nat
  | .starting => 2
  | .waiting => 1
  | .posting => 3
  | _ => 0

def rank (c : Cfg) (s : St) : Nat :=
  mainRank c.todo.length s.main + appRank s.app + tickerRank s.ticker + s.queue.length + 2 * s.posters.length +
    (if s.crashed then 0 else 1)

/-- What a step of the given kind adds at most to the rank. -/
def extra : Kind → Nat
  | .program => 0
  | .tick => 2
  | .key _ => 1

theorem rank_step {c : Cfg} {k : Kind} {s t : St} (hi : Inv c s) (h : Step c k s t) :
    rank c t + (if k = .program then 1 else 0) ≤ rank c s + extra k := by
  cases h with
  | ticker hc ht =>
    split <;> simp [rank, extra, ht, hc, tickerRank] <;> omega
  | ready hc hm hr =>
    have : s.ticker = .absent := hi.early.1 (.inr hm)
    simp [rank, extra, hm, hc, this, tickerRank, mainRank]; omega
  | start hc hm =>
    have : s.app = .absent := (hi.start hm).1
    simp [rank, extra, hm, hc, this, appRank, mainRank]; omega
  | poll hc ha hq =>
    rename_i e q
    cases e with
    | key k => cases k <;> simp [handle, rank, extra, hc, ha, hq, appRank] <;> omega
    | _ => simp [handle, rank, extra, hc, ha, hq, appRank]; omega
  | post hc hp hq => simp [rank, extra, hc, hp]; omega
  | _ => simp [rank, extra, tickerRank, appRank, mainRank, *] <;> omega

/-! ## Events in order -/

/-- The events that came into the queue, in order. -/
def arrived (s : St) : List Event := s.handled.reverse ++ s.queue

theorem arrived_step {c : Cfg} {k : Kind} {s t : St} (h : Step c k s t) : arrived s <+: arrived t := by
  cases h with
  | ticker hc ht => split <;> exact List.prefix_refl _
  | poll hc ha hq =>
    rename_i e q
    have : arrived s = arrived (handle { s with queue := q } e) := by
      unfold arrived
      rw [hq]
      cases e with
      | key k => cases k <;> simp [handle]
      | _ => simp [handle]
    rw [this]
    exact List.prefix_refl _
  | posted hc ht hq => exact ⟨[.update], by simp [arrived]⟩
  | key k hc hq => exact ⟨[.key k], by simp [arrived]⟩
  | post hc hp hq => rename_i e _ _; exact ⟨[e], by simp [arrived]⟩
  | _ => exact List.prefix_refl _

theorem arrived_run {c : Cfg} {ks : List Kind} {s t : St} (h : Run c ks s t) : arrived s <+: arrived t := by
  induction h with
  | nil => exact List.prefix_refl _
  | snoc _ hs ih => exact ih.trans (arrived_step hs)

theorem keys_step {c : Cfg} {k : Kind} {s t : St} (hp : ∀ e ∈ s.posters, keyOf e = none) (h : Step c k s t) :
    (∀ e ∈ t.posters, keyOf e = none) ∧
    (arrived t).filterMap keyOf = (arrived s).filterMap keyOf ++ [k].filterMap pressed := by
  cases h with
  | ticker hc ht => split <;> exact ⟨hp, by simp [arrived, pressed]⟩
  | poll hc ha hq =>
    rename_i e q
    have : arrived s = arrived (handle { s with queue := q } e) := by
      unfold arrived
      rw [hq]
      cases e with
      | key k => cases k <;> simp [handle]
      | _ => simp [handle]
    refine ⟨?_, by rw [← this]; simp [pressed]⟩
    cases e with
    | key k => cases k <;> exact hp
    | _ => exact hp
  | post hc hps hq =>
    rename_i e a b
    rw [hps] at hp
    refine ⟨fun e' he' => hp e' ?_, ?_⟩
    · rcases List.mem_append.1 he' with h | h
      · exact List.mem_append_left _ h
      · exact List.mem_append_right _ (List.mem_cons_of_mem _ h)
    · have := hp e (by simp)
      simp [arrived, this, pressed]
  | posted hc ht hq => exact ⟨hp, by simp [arrived, pressed, keyOf, List.filterMap_cons]⟩
  | key k hc hq => exact ⟨hp, by simp [arrived, pressed, keyOf, List.filterMap_cons]⟩
  | replace hc hm =>
    refine ⟨fun e he => ?_, by simp [arrived, pressed]⟩
    rcases List.mem_append.1 he with h | h
    · exact hp e h
    · simp at h; subst h; rfl
  | quit hc hm ht =>
    refine ⟨fun e he => ?_, by simp [arrived, pressed]⟩
    rcases List.mem_append.1 he with h | h
    · exact hp e h
    · simp at h; subst h; rfl
  | _ => exact ⟨hp, by simp [arrived, pressed]⟩

/-! ## Replacements -/

/-- The replacements still to come from `main`. -/
def ahead (c : Cfg) : Main → List (List Widget)
  | .start => c.todo.filterMap widgetsOfAct
  | .awaitReady => c.todo.filterMap widgetsOfAct
  | .run todo => todo.filterMap widgetsOfAct
  | _ => []

/-- All replacements, wherever they are. -/
def replacements (c : Cfg) (s : St) : List (List Widget) :=
  s.handled.reverse.filterMap widgetsOf ++ s.queue.filterMap widgetsOf ++ s.posters.filterMap widgetsOf ++ ahead c s.main

theorem replacements_step {c : Cfg} {k : Kind} {s t : St} (h : Step c k s t) :
    (replacements c t).Perm (replacements c s) := by
  cases h with
  | ticker hc ht => split <;> exact List.Perm.refl _
  | poll hc ha hq =>
    rename_i e q
    unfold replacements
    rw [hq]
    cases e with
    | key k => cases k <;> simp [handle, widgetsOf, List.filterMap_cons]
    | _ => simp [handle, widgetsOf, List.filterMap_cons]
  | post hc hp hq =>
    rename_i e a b
    unfold replacements
    rw [hp]
    simp only [List.filterMap_append, List.filterMap_cons, List.filterMap_nil, List.append_assoc]
    refine List.Perm.append_left _ (List.Perm.append_left _ ?_)
    cases hw : widgetsOf e with
    | none => simp
    | some ws =>
      simp only [List.cons_append, List.nil_append]
      exact List.perm_middle.symm
  | replace hc hm => simp [replacements, hm, ahead, widgetsOf, widgetsOfAct, List.filterMap_cons]
  | start hc hm => simp [replacements, hm, ahead]
  | ready hc hm => simp [replacements, hm, ahead]
  | work hc hm => simp [replacements, hm, ahead, widgetsOfAct, List.filterMap_cons]
  | stop hc hm => simp [replacements, hm, ahead]
  | quit hc hm => simp [replacements, hm, ahead, widgetsOf, List.filterMap_cons]
  | stopped hc hm => simp [replacements, hm, ahead]
  | posted hc ht hq => simp [replacements, widgetsOf, List.filterMap_cons]
  | key k hc hq => simp [replacements, widgetsOf, List.filterMap_cons]
  | _ => exact List.Perm.refl _

end Osm.Screen
