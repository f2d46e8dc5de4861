import Verif.Lemmas.Screen

/-! # C80: the screen comes up, hears the keys, and goes away -/

namespace Osm.Props
open Osm.Screen Osm.Spec

/-- C80: nothing blocks. As long as `Stop` has not returned and nothing has panicked, the program itself can go on, without
waiting for the clock or for a key. -/
theorem C80_never_stuck (c : Cfg) (hc : 1 ≤ c.cap) (s : St) (h : Reachable c s) (hcr : s.crashed = false)
    (hd : s.main ≠ .done) : ∃ t, Step c .program s t := by
  obtain ⟨ks, h⟩ := h
  have hi := inv_run (inv_init c) h
  -- a waiting event can be posted or, the queue being full, an event can be handled
  have flow : s.app = .polling → ∀ e, (e ∈ s.posters ∨ e ∈ s.queue) → ∃ t, Step c .program s t := by
    intro ha e he
    rcases hq : s.queue with _ | ⟨e', q⟩
    · rw [hq] at he
      rcases he with he | he
      · obtain ⟨a, b, hab⟩ := List.append_of_mem he
        exact ⟨_, .post hcr hab (by rw [hq]; exact hc)⟩
      · cases he
    · exact ⟨_, .poll hcr ha hq⟩
  cases hm : s.main with
  | start => exact ⟨_, .start hcr hm⟩
  | awaitReady =>
    rcases hi.wait hm with ha | ha
    · exact ⟨_, .boot hcr ha⟩
    · exact ⟨_, .ready hcr hm (hi.ready hm ha)⟩
  | run todo =>
    cases todo with
    | nil => exact ⟨_, .stop hcr hm⟩
    | cons a todo =>
      cases a with
      | replace ws => exact ⟨_, .replace hcr hm⟩
      | work => exact ⟨_, .work hcr hm⟩
  | awaitTicker =>
    cases ht : s.ticker with
    | absent =>
      rcases hi.early.2 ht with h | h <;> (rw [hm] at h; cases h)
    | starting => exact ⟨_, .ticker hcr ht⟩
    | waiting => exact ⟨_, .tickerEnd hcr ht (hi.shut.2 (.inl hm))⟩
    | posting =>
      by_cases hq : s.queue.length < c.cap
      · exact ⟨_, .posted hcr ht hq⟩
      · have ha : s.app = .polling := by
          cases ha : s.app with
          | absent => have := hi.app0 ha; rw [hm] at this; cases this
          | booting => have := (hi.boot ha).1; rw [hm] at this; cases this
          | polling => rfl
          | ended =>
            have h0 := hi.none (by rw [hm]; exact nofun) hd
            have := List.count_pos_iff.2 (hi.ended.1 ha)
            omega
        cases hqq : s.queue with
        | nil => rw [hqq] at hq; exact absurd hc hq
        | cons e q => exact ⟨_, .poll hcr ha hqq⟩
    | ended => exact ⟨_, .quit hcr hm ht⟩
  | awaitApp =>
    cases ha : s.app with
    | absent => have := hi.app0 ha; rw [hm] at this; cases this
    | booting => have := (hi.boot ha).1; rw [hm] at this; cases this
    | ended => exact ⟨_, .stopped hcr hm ha⟩
    | polling =>
      have h1 := hi.quit (.inl hm)
      have h2 : s.handled.count .quit = 0 := by
        rw [List.count_eq_zero]
        intro hq
        have := hi.ended.2 hq
        rw [ha] at this; cases this
      refine flow ha .quit ?_
      by_cases hp : 0 < s.posters.count .quit
      · exact .inl (List.count_pos_iff.1 hp)
      · exact .inr (List.count_pos_iff.1 (by omega))
  | done => exact absurd hm hd

/-- C80: and it does not go on for ever. Apart from the ticks of the clock and the keys pressed there are at most so many
steps; every key costs at most one more, and every tick (a redraw) two. -/
theorem C80_ends (c : Cfg) (ks : List Kind) (s : St) (h : Run c ks St.init s) :
    programSteps ks ≤ 11 + 3 * c.todo.length + 2 * ticks ks + (keys ks).length := by
  have : ∀ (ks : List Kind) (s0 s : St), s0 = St.init → Run c ks s0 s →
      programSteps ks + rank c s ≤ 11 + 3 * c.todo.length + 2 * ticks ks + (keys ks).length := by
    intro ks s0 s h0 h
    induction h with
    | nil => subst h0; simp [programSteps, ticks, keys, rank, mainRank, appRank, tickerRank, St.init]; omega
    | snoc hr hs ih =>
      rename_i ks' k _ t u
      have hr2 := rank_step (inv_run (inv_init c) (h0 ▸ hr)) hs
      have ih := ih h0
      cases k with
      | program =>
        simp only [if_true, extra, programSteps, ticks, keys, List.countP_append, List.filterMap_append] at *
        simp [List.filterMap_cons, pressed] at *
        omega
      | tick =>
        simp only [extra, programSteps, ticks, keys, List.countP_append, List.filterMap_append] at *
        simp [List.filterMap_cons, pressed] at *
        omega
      | key k =>
        simp only [extra, programSteps, ticks, keys, List.countP_append, List.filterMap_append] at *
        simp [List.filterMap_cons, pressed] at *
        omega
  exact Nat.le_trans (Nat.le_add_right _ _) (this ks _ s rfl h)

/-- C80: when `Stop` has returned the event loop and the clock are at their end: whatever happens afterwards, no event is
handled any more, no update is posted, and the layout stays. -/
theorem C80_stopped (c : Cfg) (s : St) (h : Reachable c s) (hd : s.main = .done) :
    s.app = .ended ∧ s.ticker = .ended ∧ ∀ ks t, Run c ks s t →
      t.main = .done ∧ t.handled = s.handled ∧ t.cells = s.cells ∧ ticks ks = 0 := by
  obtain ⟨ks, h⟩ := h
  have hi := inv_run (inv_init c) h
  refine ⟨hi.over hd, hi.late (.inr hd), ?_⟩
  intro ks' t ht
  have : Inv c t ∧ t.main = .done ∧ t.handled = s.handled ∧ t.cells = s.cells ∧ ticks ks' = 0 := by
    clear h
    induction ht with
    | nil => exact ⟨hi, hd, rfl, rfl, rfl⟩
    | snoc _ hs ih =>
      obtain ⟨hi', h1, h2, h3, h4⟩ := ih hd hi
      have htk := hi'.late (.inr h1)
      have hap := hi'.over h1
      have hi2 := inv_step hi' hs
      have htick : ∀ k, k ≠ .tick → ∀ l : List Kind, ticks l = 0 → ticks (l ++ [k]) = 0 := by
        intro k hk l hl
        unfold ticks at *
        rw [List.countP_append, hl]
        simp [hk]
      refine ⟨hi2, ?_⟩
      cases hs with
      | post hc hp hq => exact ⟨h1, h2, h3, htick _ (by exact nofun) _ h4⟩
      | key k hc hq => exact ⟨h1, h2, h3, htick _ (by exact nofun) _ h4⟩
      | start hc hm => rw [h1] at hm; cases hm
      | boot hc hm => rw [hap] at hm; cases hm
      | ready hc hm => rw [h1] at hm; cases hm
      | ticker hc hm => rw [htk] at hm; cases hm
      | tick hc hm => rw [htk] at hm; cases hm
      | posted hc hm => rw [htk] at hm; cases hm
      | tickerEnd hc hm => rw [htk] at hm; cases hm
      | replace hc hm => rw [h1] at hm; cases hm
      | work hc hm => rw [h1] at hm; cases hm
      | stop hc hm => rw [h1] at hm; cases hm
      | quit hc hm => rw [h1] at hm; cases hm
      | stopped hc hm => rw [h1] at hm; cases hm
      | poll hc hm => rw [hap] at hm; cases hm
  exact this.2

/-- C80: the keys pressed are handled in the order in which they are pressed, and none is lost: those not handled yet are in
the queue. -/
theorem C80_keys_in_order (c : Cfg) (ks : List Kind) (s : St) (h : Run c ks St.init s) :
    keys ks = (s.handled.reverse ++ s.queue).filterMap keyOf := by
  have : ∀ (ks : List Kind) (s0 s : St), s0 = St.init → Run c ks s0 s →
      (∀ e ∈ s.posters, keyOf e = none) ∧ keys ks = (arrived s).filterMap keyOf := by
    intro ks s0 s h0 h
    induction h with
    | nil => subst h0; exact ⟨fun e he => (nomatch he), rfl⟩
    | snoc hr hs ih =>
      obtain ⟨h1, h2⟩ := ih h0
      obtain ⟨g1, g2⟩ := keys_step h1 hs
      refine ⟨g1, ?_⟩
      rw [g2, ← h2]
      simp [keys, List.filterMap_append]
  exact (this ks _ s rfl h).2

/-- C80: the command's context is cancelled exactly when a ctrl-C has been handled; in particular never without one pressed. -/
theorem C80_cancelled_iff (c : Cfg) (ks : List Kind) (s : St) (h : Run c ks St.init s) :
    (s.cancelled = true ↔ .key .ctrlC ∈ s.handled) ∧ (s.cancelled = true → .ctrlC ∈ keys ks) := by
  have hi := (inv_run (inv_init c) h).cancelled
  refine ⟨hi, fun hc => ?_⟩
  rw [C80_keys_in_order c ks s h]
  exact List.mem_filterMap.2 ⟨_, List.mem_append_left _ (List.mem_reverse.2 (hi.1 hc)), rfl⟩

/-- C80: every key pressed before the end of the program's work was noticed (`Stop` waiting for the clock) has been handled
when `Stop` returns. -/
theorem C80_keys_heard (c : Cfg) (ks ks' : List Kind) (s t : St) (h : Run c ks St.init s) (hs : s.main ≠ .awaitApp)
    (hs' : s.main ≠ .done) (h' : Run c ks' s t) (ht : t.main = .done) :
    keys ks <+: t.handled.reverse.filterMap keyOf := by
  have hi := inv_run (inv_init c) h
  have hi' := inv_run hi h'
  obtain ⟨rest, hrest⟩ := arrived_run h'
  have hlast := hi'.last (hi'.over ht)
  rw [C80_keys_in_order c ks s h]
  have hnq : Event.quit ∉ arrived s := by
    have := hi.none hs hs'
    unfold arrived
    intro hq
    rcases List.mem_append.1 hq with hq | hq
    · have := List.count_pos_iff.2 (List.mem_reverse.1 hq); omega
    · have := List.count_pos_iff.2 hq; omega
  have hpre : arrived s <+: t.handled.reverse := by
    cases hh : t.handled with
    | nil => rw [hh] at hlast; cases hlast
    | cons e es =>
      rw [hh] at hlast
      cases hlast
      have e1 : arrived t = es.reverse ++ Event.quit :: t.queue := by
        unfold arrived
        rw [hh]
        simp
      rw [e1] at hrest
      have hlen : (arrived s).length ≤ es.reverse.length := by
        apply Nat.le_of_not_lt
        intro hlt
        have h1 := congrArg (fun l => l[es.reverse.length]?) hrest
        rw [List.getElem?_append_left hlt, List.getElem?_append_right (Nat.le_refl _)] at h1
        rw [Nat.sub_self] at h1
        exact hnq (List.mem_of_getElem? h1)
      have h3 : arrived s <+: es.reverse :=
        List.prefix_of_prefix_length_le ⟨rest, hrest⟩ ⟨_, rfl⟩ hlen
      rw [List.reverse_cons]
      exact h3.trans ⟨_, rfl⟩
  exact hpre.filterMap _

/-- C80: a panic has one of two reasons: ctrl-A was pressed, or the refresh interval is not positive. -/
theorem C80_panics (c : Cfg) (ks : List Kind) (s : St) (h : Run c ks St.init s) (hc : s.crashed = true) :
    .ctrlA ∈ keys ks ∨ c.interval ≤ 0 := by
  rcases (inv_run (inv_init c) h).crashed.1 hc with h1 | h1
  · left
    rw [C80_keys_in_order c ks s h]
    exact List.mem_filterMap.2 ⟨_, List.mem_append_left _ (List.mem_reverse.2 h1), rfl⟩
  · exact .inr h1.1

/-- C80: with a negative refresh interval, which `parseArgs` accepts, `Stop` never returns: with `C80_never_stuck` and
`C80_ends`, every run ends in a panic. -/
theorem C80_negative_interval (c : Cfg) (hn : c.interval < 0) (s : St) (h : Reachable c s) :
    s.main ≠ .done ∧ s.main ≠ .awaitApp := by
  obtain ⟨ks, h⟩ := h
  have hi := inv_run (inv_init c) h
  constructor
  all_goals
    intro hm
    have h1 : s.ticker = .ended := hi.late (by rw [hm]; simp)
    rcases hi.negative (Int.le_of_lt hn) with h2 | h2 <;> (rw [h1] at h2; cases h2)

/-! ## Widgets -/

/-- C80: the layout is always that of the replacement handled last (empty before the first): the widgets in order, the last
taking the room left over. -/
theorem C80_layout (c : Cfg) (s : St) (h : Reachable c s) :
    LaidOut s.cells ((s.handled.findSome? widgetsOf).getD []) := by
  obtain ⟨ks, h⟩ := h
  rw [(inv_run (inv_init c) h).cells]
  exact addAll_laid _

/-- C80: every replacement handled is one the command asked for, and each is handled at most as often. -/
theorem C80_replacements (c : Cfg) (s : St) (h : Reachable c s) :
    ∃ others, (s.handled.filterMap widgetsOf ++ others).Perm (c.todo.filterMap widgetsOfAct) := by
  obtain ⟨ks, h⟩ := h
  have : ∀ (ks : List Kind) (s0 s : St), s0 = St.init → Run c ks s0 s →
      (replacements c s).Perm (c.todo.filterMap widgetsOfAct) := by
    intro ks s0 s h0 h
    induction h with
    | nil => subst h0; simp [replacements, St.init, ahead]
    | snoc _ hs ih => exact (replacements_step hs).trans (ih h0)
  have := this ks _ s rfl h
  unfold replacements at this
  rw [List.append_assoc, List.append_assoc, List.filterMap_reverse] at this
  exact ⟨_, ((List.reverse_perm _).symm.append_right _).trans this⟩

/-- C80: a command which sets its widgets once (all but rewritenodes) shows nothing or these. -/
theorem C80_one_layout (c : Cfg) (ws : List Widget) (h1 : c.todo.filterMap widgetsOfAct = [ws]) (s : St) (h : Reachable c s) :
    LaidOut s.cells [] ∨ LaidOut s.cells ws := by
  have hl := C80_layout c s h
  obtain ⟨others, ho⟩ := C80_replacements c s h
  rw [h1] at ho
  cases hf : s.handled.findSome? widgetsOf with
  | none => rw [hf] at hl; exact .inl hl
  | some ws' =>
    rw [hf] at hl
    obtain ⟨e, he, hw⟩ := List.exists_of_findSome?_eq_some hf
    have : ws' ∈ s.handled.filterMap widgetsOf := List.mem_filterMap.2 ⟨e, he, hw⟩
    have := ho.subset (List.mem_append_left _ this)
    simp at this
    subst this
    exact .inr hl

theorem reach {c : Cfg} {s t : St} {k : Kind} : Reachable c s → Step c k s t → Reachable c t
  | ⟨_, h⟩, hs => ⟨_, h.snoc hs⟩

theorem extend {c : Cfg} {s t u : St} {ks : List Kind} {k : Kind} (h : Run c ks s t) (hs : Step c k t u) :
    Run c (ks ++ [k]) s u := .snoc h hs

/-- The beginning of a run: the screen is up, the clock is running. -/
def up (todo : List Act) : St := ⟨.run todo, .polling, .waiting, true, false, false, false, [], [], [], []⟩

theorem run_up (cap : Nat) (interval : Int) (todo : List Act) (h : 0 < interval) :
    Reachable ⟨cap, interval, todo⟩ (up todo) := by
  have := Step.ticker (c := ⟨cap, interval, todo⟩) (s := ⟨.run todo, .polling, .starting, true, false, false, false, [], [], [], []⟩) rfl rfl
  rw [if_neg (by show ¬ interval ≤ 0; omega)] at this
  exact reach (reach (reach (reach ⟨_, .nil⟩ (.start rfl rfl)) (.boot rfl rfl)) (.ready rfl rfl rfl)) this

/-- What does not hold: two replacements may be handled in the wrong order, since each is posted by a goroutine of its own. Here
the second pass of rewritenodes goes on under the widgets of the first. -/
theorem C80_stale_layout : ∃ s, Reachable ⟨10, 1, [.replace [1], .work, .replace [2], .work]⟩ s ∧
    s.main = .run [.work] ∧ s.handled.filterMap widgetsOf = [[1], [2]] ∧ LaidOut s.cells [1] := by
  have h := run_up 10 1 [.replace [1], .work, .replace [2], .work] (by decide)
  refine ⟨⟨.run [.work], .polling, .waiting, true, false, false, false, [], [], [⟨1, 1⟩], [.replace [1], .replace [2]]⟩, ?_, rfl, rfl,
    addAll_laid [1]⟩
  refine reach (reach (reach (reach (reach (reach (reach h (.replace rfl rfl)) (.work rfl rfl)) (.replace rfl rfl))
    (.post (a := [.replace [1]]) (b := []) (e := .replace [2]) rfl rfl (by decide)))
    (.post (a := []) (b := []) (e := .replace [1]) rfl rfl (by decide)))
    (.poll (e := .replace [2]) (q := [.replace [1]]) rfl rfl rfl)) (.poll (e := .replace [1]) (q := []) rfl rfl rfl)

/-- What does not hold either: the widgets of a command that is done quickly may never be shown. -/
theorem C80_never_shown : ∃ s, Reachable ⟨10, 1, [.replace [1], .work]⟩ s ∧ s.main = .done ∧ s.cells = [] := by
  have h := run_up 10 1 [.replace [1], .work] (by decide)
  refine ⟨⟨.done, .ended, .ended, true, true, false, false, [], [.replace [1]], [], [.quit]⟩, ?_, rfl, rfl⟩
  refine reach (reach (reach (reach (reach (reach (reach (reach h (.replace rfl rfl)) (.work rfl rfl)) (.stop rfl rfl))
    (.tickerEnd rfl rfl rfl)) (.quit rfl rfl rfl))
    (.post (a := [.replace [1]]) (b := []) (e := .quit) rfl rfl (by decide)))
    (.poll (e := .quit) (q := []) rfl rfl rfl)) (.stopped rfl rfl rfl)

/-- A run as one wants it: the widgets are shown, ctrl-C is pressed and heard, the screen goes away. -/
example : ∃ ks s, Run ⟨10, 1, [.replace [1, 2], .work]⟩ ks St.init s ∧ s.main = .done ∧ LaidOut s.cells [1, 2] ∧
    s.cancelled = true ∧ Kind.key .ctrlC ∈ ks := by
  obtain ⟨ks, h⟩ := run_up 10 1 [.replace [1, 2], .work] (by decide)
  refine ⟨_, ⟨.done, .ended, .ended, true, true, true, false, [], [], addAll [1, 2], [.quit, .key .ctrlC, .replace [1, 2]]⟩,
    extend (extend (extend (extend (extend (extend (extend (extend (extend (extend (extend h (.replace rfl rfl))
      (.post (a := []) (b := []) (e := .replace [1, 2]) rfl rfl (by decide)))
      (.poll (e := .replace [1, 2]) (q := []) rfl rfl rfl)) (.key .ctrlC rfl (by decide)))
      (.poll (e := .key .ctrlC) (q := []) rfl rfl rfl)) (.work rfl rfl)) (.stop rfl rfl)) (.tickerEnd rfl rfl rfl))
      (.quit rfl rfl rfl)) (.post (a := []) (b := []) (e := .quit) rfl rfl (by decide))) (.poll (e := .quit) (q := []) rfl rfl rfl) |>.snoc
        (.stopped rfl rfl rfl), rfl, addAll_laid _, rfl, by simp⟩

end Osm.Props
