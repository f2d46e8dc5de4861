import Verif.Lemmas.Race

/-!
# The beginning of a run, and what may race
-/

namespace Osm.Race
open Osm Osm.T Osm.Pbf Osm.Spec.Race

variable {O : Type}

/-! ### The beginning -/

/-- Everything that has been accessed. -/
def Any (e : Ev) : Prop := e.act.loc ≠ none

theorem knows_go {tr : Trace} {t u : Thread} (h : KnowsAll tr u Any) :
    KnowsAll (tr ++ [⟨u, .go t⟩, ⟨t, .start⟩]) t Any ∧ KnowsAll (tr ++ [⟨u, .go t⟩, ⟨t, .start⟩]) u Any := by
  have hq : ∀ {v : Thread}, ∀ e ∈ ([⟨u, .go t⟩, ⟨t, .start⟩] : Trace), Any e → e.thread = v := by
    intro v e he ha
    simp only [List.mem_cons, List.not_mem_nil, or_false] at he
    rcases he with rfl | rfl <;> exact absurd rfl ha
  exact ⟨h.learn Learn.go hq, h.append hq⟩

theorem knows_quiet {tr evs : Trace} {t : Thread} (h : KnowsAll tr t Any) (hq : ∀ e ∈ evs, e.act.loc = none) :
    KnowsAll (tr ++ evs) t Any :=
  h.append fun e he ha => absurd (hq e he) ha

theorem startWorkers_quiet (n : Nat) : ∀ e ∈ startWorkers n, e.act.loc = none := by
  intro e he
  simp only [startWorkers, List.mem_flatMap, List.mem_cons, List.not_mem_nil, or_false] at he
  obtain ⟨k, _, rfl | rfl⟩ := he <;> rfl

theorem startWorkers_succ (n : Nat) :
    startWorkers (n + 1) = startWorkers n ++ [⟨.main, .go (.worker n)⟩, ⟨.worker n, .start⟩] := by
  simp [startWorkers, List.range_succ]

theorem knows_workers {tr : Trace} (h : KnowsAll tr .main Any) (n : Nat) :
    KnowsAll (tr ++ startWorkers n) .main Any ∧ ∀ k, k < n → KnowsAll (tr ++ startWorkers n) (.worker k) Any := by
  induction n with
  | zero => exact ⟨knows_quiet h (startWorkers_quiet 0), fun k hk => by omega⟩
  | succ n ih =>
    rw [startWorkers_succ, ← List.append_assoc]
    obtain ⟨h1, h2⟩ := knows_go (t := .worker n) ih.1
    refine ⟨h2, fun k hk => ?_⟩
    rcases Nat.lt_or_eq_of_le (Nat.le_of_lt_succ hk) with hk | rfl
    · refine knows_quiet (ih.2 k hk) ?_
      simp [Act.loc]
    · exact h1

theorem knows_opening (c : Cfg O) (W : Nat) {before : Trace} (hb : Prepares before) (t : Thread)
    (ht : t = .main ∨ Helper t) (hx : Exists c W t) : KnowsAll (opening c W before) t Any := by
  have h0 : KnowsAll (before ++ [⟨.caller, .write .state⟩]) .caller Any := by
    refine KnowsAll.own fun e he _ => ?_
    rcases List.mem_append.1 he with he | he
    · exact (hb e he).1
    · simp only [List.mem_cons, List.not_mem_nil, or_false] at he
      rw [he]
  have h1 := (knows_go (t := .main) h0).1
  have h2 : KnowsAll (before ++ [⟨.caller, .write .state⟩, ⟨.caller, .go .main⟩, ⟨.main, .start⟩, ⟨.main, .write .input⟩])
      .main Any := by
    have := h1.append (evs := [⟨.main, .write .input⟩]) fun e he _ => by
      simp only [List.mem_cons, List.not_mem_nil, or_false] at he
      rw [he]
    simpa using this
  have h3 : KnowsAll (before ++ [⟨.caller, .write .state⟩, ⟨.caller, .go .main⟩, ⟨.main, .start⟩, ⟨.main, .write .input⟩] ++
      (if c.hasWriter then startWriter else [])) .main Any := by
    refine knows_quiet h2 ?_
    split <;> simp [startWriter, Act.loc]
  have h4 := knows_workers h3 W
  cases t with
  | main => exact h4.1
  | worker k => exact h4.2 k hx
  | writer =>
    have hx : c.hasWriter = true := hx
    refine knows_quiet ?_ (startWorkers_quiet W)
    have := knows_quiet (knows_go (t := .writer) h2).1 (evs := [⟨.main, .go .reorder⟩, ⟨.reorder, .start⟩]) (by simp [Act.loc])
    simpa [hx, startWriter] using this
  | _ => simp [Helper] at ht

/-- The events of the beginning. -/
theorem opening_mem {c : Cfg O} {W : Nat} {before : Trace} {e : Ev} (h : e ∈ opening c W before) :
    e ∈ before ∨ e = ⟨.caller, .write .state⟩ ∨ e = ⟨.main, .write .input⟩ ∨
      (e.act.loc = none ∧ (∃ t, e.act = .go t ∨ e.act = .start) ∧ Exists c W e.thread) := by
  simp only [opening, List.mem_append, List.mem_cons, List.not_mem_nil, or_false] at h
  rcases h with ((h | h | h | h | h) | h) | h
  · exact .inl h
  · exact .inr (.inl h)
  · subst h
    exact .inr (.inr (.inr ⟨rfl, ⟨_, .inl rfl⟩, trivial⟩))
  · subst h
    exact .inr (.inr (.inr ⟨rfl, ⟨.main, .inr rfl⟩, trivial⟩))
  · exact .inr (.inr (.inl h))
  · cases hc : c.hasWriter
    · simp [hc] at h
    · simp only [hc, if_true, startWriter, List.mem_cons, List.not_mem_nil, or_false] at h
      rcases h with rfl | rfl | rfl | rfl
      · exact .inr (.inr (.inr ⟨rfl, ⟨_, .inl rfl⟩, trivial⟩))
      · exact .inr (.inr (.inr ⟨rfl, ⟨.main, .inr rfl⟩, hc⟩))
      · exact .inr (.inr (.inr ⟨rfl, ⟨_, .inl rfl⟩, trivial⟩))
      · exact .inr (.inr (.inr ⟨rfl, ⟨.main, .inr rfl⟩, hc⟩))
  · simp only [startWorkers, List.mem_flatMap, List.mem_range, List.mem_cons, List.not_mem_nil, or_false] at h
    obtain ⟨k, hk, rfl | rfl⟩ := h
    · exact .inr (.inr (.inr ⟨rfl, ⟨_, .inl rfl⟩, trivial⟩))
    · exact .inr (.inr (.inr ⟨rfl, ⟨.main, .inr rfl⟩, hk⟩))

/-- Which accesses there are at the beginning. -/
theorem opening_acc {c : Cfg O} {W : Nat} {before : Trace} (hb : Prepares before) {e : Ev} (h : e ∈ opening c W before)
    {l : Loc} (ha : e.act.loc = some l) :
    (e.thread = .caller ∧ e.act.atomic = false ∧ (l = .given ∨ (∃ v, l = .total v) ∨ l = .own .caller ∨ l = .state)) ∨
      (e = ⟨.main, .write .input⟩ ∧ l = .input) := by
  rcases opening_mem h with h | h | h | h
  · obtain ⟨h1, l', h2, h3⟩ := hb e h
    have : l' = l := by
      rcases h3 with h3 | h3 <;> rw [h3] at ha <;> simpa [Act.loc] using ha
    subst this
    refine .inl ⟨h1, by rcases h3 with h3 | h3 <;> rw [h3] <;> rfl, ?_⟩
    rcases h2 with h2 | h2 | h2
    · exact .inl h2
    · exact .inr (.inl h2)
    · exact .inr (.inr (.inl h2))
  · subst h
    simp [Act.loc] at ha
    exact .inl ⟨rfl, rfl, .inr (.inr (.inr ha.symm))⟩
  · subst h
    simp [Act.loc] at ha
    exact .inr ⟨rfl, ha.symm⟩
  · rw [h.1] at ha; cases ha

theorem Inv.init {c : Cfg O} {pw : Bool} {W : Nat} {before : Trace} (hb : Prepares before) :
    Inv c pw W (Run.init c W before) where
  pipe := ⟨0, .refl⟩
  chan := by
    intro o
    have hz : ∀ (p : Ev → Bool), (∀ e ∈ opening c W before, p e = false) → (opening c W before).countP p = 0 := by
      intro p hp
      rw [List.countP_eq_zero]
      intro e he
      simp [hp e he]
    have he : ∀ e ∈ opening c W before, (∃ l, e.act.loc = some l) ∨ ∃ t, e.act = .go t ∨ e.act = .start := by
      intro e he
      rcases opening_mem he with h | h | h | h
      · obtain ⟨_, l, _, h | h⟩ := hb e h <;> exact .inl ⟨l, by rw [h]; rfl⟩
      · subst h; exact .inl ⟨_, rfl⟩
      · subst h; exact .inl ⟨_, rfl⟩
      · exact .inr h.2.1
    show sends o (opening c W before) = recvs o (opening c W before)
    unfold sends recvs
    rw [hz, hz]
    all_goals
      intro e h
      obtain ⟨t, a⟩ := e
      rcases he _ h with ⟨l, h⟩ | ⟨u, h | h⟩
      · cases a <;> simp_all [Act.loc]
      · dsimp only at h; subst h; rfl
      · dsimp only at h; subst h; rfl
  allowed := by
    intro e he
    unfold Allowed
    cases hl : e.act.loc with
    | none => trivial
    | some l =>
      rcases opening_acc hb he hl with ⟨h1, h2, h3⟩ | ⟨h1, h2⟩
      · rcases h3 with rfl | ⟨v, rfl⟩ | rfl | rfl <;> simp [h1, h2]
      · subst h1 h2
        simp
  threads := by
    intro e he
    rcases opening_mem he with h | h | h | h
    · rw [(hb e h).1]; trivial
    · subst h; trivial
    · subst h; trivial
    · exact h.2.2
  early := by
    refine fun _ => ⟨rfl, ?_, rfl⟩
    unfold stored
    rw [List.any_eq_false]
    intro e he
    rw [decide_eq_true_eq]
    intro hx
    rcases opening_acc hb he (l := .state) (by rw [hx]; rfl) with ⟨_, h2, _⟩ | ⟨_, h2⟩
    · rw [hx] at h2; cases h2
    · cases h2
  earlySize := by
    intro _ e he ha
    rcases opening_acc hb he ha with ⟨_, _, h⟩ | ⟨_, h⟩
    · simp at h
    · cases h
  waitedDone := nofun
  ended := by
    intro t hi hx ha
    exfalso
    apply ha
    cases t with
    | caller => exact hi.elim
    | ui => exact hi.elim
    | main => exact nofun
    | worker k =>
      refine ⟨⟨.idle, []⟩, ?_, nofun⟩
      have hx : k < W := hx
      simp [Run.init, St.init, hx]
    | reorder =>
      have hx : c.hasWriter = true := hx
      simp [Alive, Run.init, St.init, hx]
    | writer =>
      have hx : c.hasWriter = true := hx
      simp [Alive, Run.init, St.init, hx]
  joined := by
    intro t hi hm hw
    exfalso
    cases t <;> simp [Run.init, St.init, rank, waitRank] at hw
  joinedC := nofun
  base := by
    intro _ t ht hx
    refine (knows_opening c W hb t ht hx).mono fun e _ h => ?_
    rcases h with h | h | ⟨v, h⟩ | h <;> simp [Any, h.1]
  shown := nofun
  stores := by
    intro i j e f hi hj he
    exfalso
    rcases opening_acc hb (List.mem_of_getElem? hi) he.1 with ⟨_, _, h⟩ | ⟨_, h⟩
    · simp at h
    · cases h
  saw := nofun
  owns := by
    intro _ t m ho
    cases t with
    | worker k =>
      obtain ⟨w, h1, h2⟩ := ho
      have := List.mem_of_getElem? h1
      rw [(List.mem_replicate.1 this).2] at h2
      cases h2
    | reorder => cases ho.1
    | writer => cases ho
    | _ => exact ho.elim
  freshR := by
    intro _ e he m ha
    rcases opening_acc hb he ha with ⟨_, _, h⟩ | ⟨_, h⟩
    · simp at h
    · cases h
  bufs := by simp [Run.init]
  bufsLt := by simp [Run.init]
  freshB := by
    intro e he n ha
    rcases opening_acc hb he ha with ⟨_, _, h⟩ | ⟨_, h⟩
    · simp at h
    · cases h
  held := by intro k n h; cases h
  pooled := by intro n h; cases h

theorem Reachable.inv {c : Cfg O} {pw : Bool} {W : Nat} (hl : c.file.length < 2 ^ 63) {r : Run O}
    (h : Reachable c pw W r) : Inv c pw W r := by
  induction h with
  | init hb => exact Inv.init hb
  | step _ hc hs ih => exact ih.step hl hc hs

/-! ### What may race -/

section
variable {c : Cfg O} {pw : Bool} {W : Nat} {r r' : Run O} {evs : Trace}

/-- Everything that is not a use of a widget is known to who waited. -/
theorem later_safe (h : Inv c pw W r) (hw : r.waited = true) {a : Act Thread Loc Obj} {l : Loc} (ha : a.loc = some l)
    (h2 : ∀ n, l ≠ .buffer n) (h3 : l ≠ .size) (h4 : l ≠ .position) (h5 : l ≠ .state) (h6 : l ≠ .own .ui) :
    Safe r.trace .caller a := by
  refine (h.joinedC hw).mono fun e he hc ht => ?_
  have hl : e.act.loc = some l := hc.2.1.trans ha
  have := h.allowed e he
  unfold Allowed at this
  rw [hl] at this
  cases l <;> simp_all [Helper]

theorem conflict_loc {a b : Act Thread Loc Obj} {l : Loc} (h : Conflict a b) (hb : b.loc = some l) : a.loc = some l :=
  h.2.1.trans hb

theorem touch_safe (hl : c.file.length < 2 ^ 63) (h : Inv c pw W r) {t : Thread} {a : Act Thread Loc Obj}
    (ht : Touches r t a) : Safe r.trace t a := by
  have hB := (h.now hl).b
  have running : ∀ {u : Thread}, Alive r.pipe u → r.pipe.main ≠ .done := fun ha hd => done_ended hB hd _ ha
  have base : ∀ {u : Thread}, (u = .main ∨ Helper u) → Alive r.pipe u → KnowsAll r.trace u Base := fun hu ha =>
    h.base (running ha) _ hu (exists_of_alive hB ha)
  have own : ∀ {u : Thread} {b : Act Thread Loc Obj}, b.loc = some (.own u) →
      (Alive r.pipe u ∨ u = .caller ∨ u = .ui) → Safe r.trace u b := by
    intro u b hb hu
    refine KnowsAll.own fun e he hc => ?_
    have := h.allowed e he
    unfold Allowed at this
    rw [conflict_loc hc hb] at this
    rcases this with h1 | ⟨h1, h2, h3⟩
    · exact h1
    · rcases hu with hu | hu | hu
      · exact absurd hu (done_ended hB (h.waitedDone h1) _)
      · rw [h2, hu]
      · exact absurd hu h3
  have owned : ∀ {u : Thread} {m : Nat} {b : Act Thread Loc Obj}, b.loc = some (.result m) → Alive r.pipe u →
      Owns r.pipe m u → Safe r.trace u b := by
    intro u m b hb hu ho
    exact (h.owns (h.not_waited (running hu)) u m ho).mono fun e _ hc => conflict_loc hc hb
  cases ht with
  | ownRead hu | ownWrite hu => exact own rfl hu
  | headerRead _ _ hd =>
    refine (base (.inl rfl) hd).mono fun e _ hc => .inl ⟨conflict_loc hc rfl, ?_⟩
    simpa [Act.writes] using hc.2.2.1
  | workerInput ha | writerInput ha =>
    refine (base (.inr (by trivial)) ha).mono fun e _ hc => .inl ⟨conflict_loc hc rfl, ?_⟩
    simpa [Act.writes] using hc.2.2.1
  | workerGiven ha | writerGiven ha =>
    refine (base (.inr (by trivial)) ha).mono fun e _ hc => .inr (.inl ⟨conflict_loc hc rfl, ?_⟩)
    simpa [Act.writes] using hc.2.2.1
  | callerGiven =>
    refine KnowsAll.own fun e he hc => ?_
    have := h.allowed e he
    unfold Allowed at this
    rw [conflict_loc hc rfl] at this
    have hw : e.act.writes = true := by simpa [Act.writes] using hc.2.2.1
    rcases this with h1 | h1
    · exact h1
    · rw [hw] at h1; cases h1.1
  | buildRead h1 h2 | buildWrite h1 h2 =>
    exact owned rfl ⟨_, h1, by rw [h2]; nofun⟩ ⟨_, h1, by rw [h2]; simp [WorkerPc.holds]⟩
  | useRead ha hm | useWrite ha hm => exact owned rfl ha hm
  | countRead ha | countWrite ha =>
    refine (base (.inr (by trivial)) ha).mono fun e _ hc => .inr (.inr (.inl ⟨_, conflict_loc hc rfl, ?_⟩))
    have := hc.2.2.2
    simpa [Act.atomic] using this
  | bufferRead _ hh | bufferWrite _ hh => exact (h.held _ _ hh).mono fun e _ hc => conflict_loc hc rfl
  | positionRead _ _ | positionWrite _ _ =>
    refine KnowsAll.own fun e he hc => ?_
    have := h.allowed e he
    unfold Allowed at this
    rw [conflict_loc hc rfl] at this
    have h3 := hc.2.2
    obtain ⟨u, b⟩ := e
    cases b <;> simp_all [Act.writes, Act.atomic]
  | sizeRead _ _ =>
    refine KnowsAll.own fun e he hc => ?_
    have := h.allowed e he
    unfold Allowed at this
    rw [conflict_loc hc rfl] at this
    have h3 := hc.2.2
    obtain ⟨u, b⟩ := e
    cases b <;> simp_all [Act.writes, Act.atomic]
  | stateWrite _ hd =>
    refine (base (.inl rfl) hd).mono fun e _ hc => .inr (.inr (.inr ⟨conflict_loc hc rfl, ?_⟩))
    have := hc.2.2.2
    simpa [Act.atomic] using this
  | uiPosition _ =>
    refine KnowsAll.own fun e he hc => ?_
    have := h.allowed e he
    unfold Allowed at this
    rw [conflict_loc hc rfl] at this
    have h3 := hc.2.2
    obtain ⟨u, b⟩ := e
    cases b <;> simp_all [Act.writes, Act.atomic]
  | uiSize _ hs =>
    refine (h.saw hs).mono fun e _ hc => ⟨conflict_loc hc rfl, ?_⟩
    simpa [Act.writes] using hc.2.2.1
  | laterRead h1 h2 h3 h4 h5 h6 | laterWrite h1 h2 h3 h4 h5 h6 => exact later_safe h h1 rfl h2 h3 h4 h5 h6

theorem look_safe (h : Inv c pw W r) (hs : r.shown = true) : Safe r.trace .ui (.atomicRead .state) := by
  refine (h.shown hs).mono fun e _ hc => ⟨conflict_loc hc rfl, ?_⟩
  have := hc.2.2.2
  simpa [Act.atomic] using this

theorem unmap_safe (hl : c.file.length < 2 ^ 63) (h : Inv c pw W r) (hm : r.pipe.main = .unmap) :
    Safe r.trace .main (.write .input) := by
  intro i e he hc
  have hw := h.not_waited (by rw [hm]; nofun)
  have := h.allowed e (List.mem_of_getElem? he)
  unfold Allowed at this
  rw [conflict_loc hc rfl] at this
  by_cases ht : e.thread = .main
  · exact ht ▸ Knows.own he
  · refine h.joined e.thread ?_ ht ?_ i e he rfl
    · cases hx : e.thread <;> simp_all [Helper, Inner]
    · rw [hm]
      cases hx : e.thread <;> simp [waitRank, rank]

/-- The size of the file, written when the reading begins and read by the widget that shows the passes. -/
def SizeRace (tr : Trace) (i j : Nat) : Prop :=
  (tr[i]? = some ⟨.ui, .read .size⟩ ∧ tr[j]? = some ⟨.main, .write .size⟩) ∨
    (tr[i]? = some ⟨.main, .write .size⟩ ∧ tr[j]? = some ⟨.ui, .read .size⟩)

theorem sizeRace_append {tr evs : Trace} {i j : Nat} (h : SizeRace tr i j) : SizeRace (tr ++ evs) i j := by
  rcases h with ⟨h1, h2⟩ | ⟨h1, h2⟩
  · exact .inl ⟨get_append h1, get_append h2⟩
  · exact .inr ⟨get_append h1, get_append h2⟩

theorem race_last {tr : Trace} {f : Ev} {i j : Nat} (h : Race (tr ++ [f]) i j) :
    Race tr i j ∨ (j = tr.length ∧ ∃ e, tr[i]? = some e ∧ Conflict e.act f.act ∧ ¬ Knows tr f.thread i) := by
  obtain ⟨hlt, e, g, he, hg, hc, hb, hb'⟩ := h
  have hj := lt_of_get hg
  rw [List.length_append, List.length_singleton] at hj
  rcases Nat.lt_or_eq_of_le (Nat.le_of_lt_succ hj) with hj | rfl
  · rw [get_append_lt hj] at hg
    rw [get_append_lt (by omega)] at he
    exact .inl ⟨hlt, e, g, he, hg, hc, fun h => hb (before_append h), fun h => hb' (before_append h)⟩
  · rw [get_last] at hg
    cases hg
    rw [get_append_lt hlt] at he
    exact .inr ⟨rfl, e, he, hc, fun hk => hb (hk.before (Nat.le_refl _) (get_last ..) rfl)⟩

/-- A race that a step adds is one about the size of the file. -/
theorem step_race (hl : c.file.length < 2 ^ 63) (h : Inv c pw W r) (hs : RStep c pw r r') {i j : Nat}
    (hr : Race r'.trace i j) : Race r.trace i j ∨ (pw = true ∧ SizeRace r'.trace i j) := by
  cases hs with
  | @pipe evs s' hm _ =>
    rcases moves_access hm with hq | ⟨h1, h2, rfl⟩
    · exact .inl (race_quiet hq hr)
    · dsimp only at hr
      rw [show r.trace ++ [⟨.main, .write .input⟩, ⟨.main, .close .finished⟩] =
        (r.trace ++ [⟨.main, .write .input⟩]) ++ [⟨.main, .close .finished⟩] by simp] at hr
      refine .inl (race_snoc (f := ⟨.main, .write .input⟩) (unmap_safe hl h h1) (race_quiet ?_ hr))
      simp [Act.loc]
  | setup hrd =>
    dsimp only at hr ⊢
    rw [show r.trace ++ [⟨.main, .atomicWrite .position⟩, ⟨.main, .write .size⟩] =
      (r.trace ++ [⟨.main, .atomicWrite .position⟩]) ++ [⟨.main, .write .size⟩] by simp] at hr ⊢
    have hpos : Safe r.trace .main (.atomicWrite .position) := by
      refine KnowsAll.own fun e he hc => ?_
      have := h.allowed e he
      unfold Allowed at this
      rw [conflict_loc hc rfl] at this
      have h3 := hc.2.2
      obtain ⟨u, b⟩ := e
      cases b <;> simp_all [Act.writes, Act.atomic]
    rcases race_last hr with hr | ⟨rfl, e, he, hc, hk⟩
    · exact .inl (race_snoc (f := ⟨.main, .atomicWrite .position⟩) hpos hr)
    · have hlt := lt_of_get he
      rw [List.length_append, List.length_singleton] at hlt
      rcases Nat.lt_or_eq_of_le (Nat.le_of_lt_succ hlt) with hlt | rfl
      · have he' := he
        rw [get_append_lt hlt] at he'
        obtain ⟨hp, rfl⟩ := h.earlySize hrd e (List.mem_of_getElem? he') (conflict_loc hc rfl)
        exact .inr ⟨hp, .inl ⟨get_append he, get_last ..⟩⟩
      · rw [get_last] at he
        cases he
        simp [Conflict, Act.loc] at hc
  | touch ht => exact .inl (race_snoc (f := ⟨_, _⟩) (touch_safe hl h ht) hr)
  | attach _ =>
    refine .inl (race_quiet ?_ hr)
    simp [Act.loc]
  | look hsh => exact .inl (race_snoc (f := ⟨_, _⟩) (look_safe h hsh) hr)
  | passSize hp _ =>
    rcases race_last hr with hr | ⟨rfl, e, he, hc, hk⟩
    · exact .inl hr
    · refine .inr ⟨hp, .inr ⟨get_append ?_, get_last ..⟩⟩
      have := h.allowed e (List.mem_of_getElem? he)
      unfold Allowed at this
      rw [conflict_loc hc rfl] at this
      have h3 := hc.2.2
      have h4 := hc.2.1
      rw [he]
      obtain ⟨u, b⟩ := e
      cases b <;> simp_all [Act.writes, Act.atomic, Act.loc]
  | wait _ _ | getPooled _ _ | put _ _ =>
    refine .inl (race_quiet ?_ hr)
    simp [Act.loc]
  | getNew _ => exact .inl hr
  | evict _ => exact .inl hr

end

end Osm.Race
