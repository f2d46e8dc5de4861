import Verif.Lemmas.RacePipe

/-!
# The invariant behind the absence of data races
-/

namespace Osm.Race
open Osm Osm.T Osm.Pbf Osm.Spec.Race

variable {O : Type}

/-- An access of the location. -/
def Acc (l : Loc) (e : Ev) : Prop := e.act.loc = some l
/-- A write of the location. -/
def Wr (l : Loc) (e : Ev) : Prop := e.act.loc = some l ∧ e.act.writes = true
/-- An access of the location that is not atomic. -/
def Plain (l : Loc) (e : Ev) : Prop := e.act.loc = some l ∧ e.act.atomic = false

/-- By a goroutine that the pipeline has started. -/
def Helper : Thread → Prop
  | .worker _ | .writer => True
  | _ => False

/-- Who may access what. -/
def Allowed (waited : Bool) (e : Ev) : Prop :=
  match e.act.loc with
  | none => True
  | some .input => e.thread = .main ∨ (e.act.writes = false ∧ Helper e.thread) ∨ (waited = true ∧ e.thread = .caller)
  | some .given => e.thread = .caller ∨ (e.act.writes = false ∧ Helper e.thread)
  | some (.result _) => Helper e.thread ∨ (waited = true ∧ e.thread = .caller)
  | some (.total _) => e.thread = .caller ∨ (e.act.atomic = true ∧ Helper e.thread)
  | some (.own t) => e.thread = t ∨ (waited = true ∧ e.thread = .caller ∧ t ≠ .ui)
  | some .size => e.act.atomic = false ∧ (e.thread = .main ∨ (e.thread = .ui ∧ e.act.writes = false))
  | some .position => (e.thread = .main ∧ (e.act.atomic = true ∨ e.act.writes = false)) ∨
      (e.thread = .ui ∧ e.act.atomic = true ∧ e.act.writes = false)
  | some .state => (e.thread = .caller ∧ e.act.atomic = false) ∨ (e.thread = .main ∧ e.act.atomic = true) ∨
      (e.thread = .ui ∧ e.act.atomic = true ∧ e.act.writes = false)
  | some (.buffer _) => ∃ k, e.thread = .worker k

/-- The event with which a goroutine ends. -/
def LastEv (tr : Trace) (t : Thread) : Prop :=
  ∃ d : Nat, tr[d]? = some (⟨t, endAct t⟩ : Ev) ∧ ∀ (j : Nat) (f : Ev), tr[j]? = some f → f.thread = t → j ≤ d

/-- What the goroutines that use it know from the start. -/
def Base (e : Ev) : Prop := Wr .input e ∨ Wr .given e ∨ (∃ v, Plain (.total v) e) ∨ Plain .state e

/-- Running: part of the pipeline and not ended, or not part of it. -/
def Active (s : St O) (t : Thread) : Prop := Alive s t ∨ t = .caller ∨ t = .ui

/-- The accesses that a step makes. -/
inductive NewEv (pw : Bool) (r r' : Run O) : Ev → Prop where
  | quiet {e} : e.act.loc = none → NewEv pw r r' e
  | touch {e} : Touches r e.thread e.act → NewEv pw r r' e
  | unmap : r.pipe.main = .unmap → r'.pipe.main = .done → NewEv pw r r' ⟨.main, .write .input⟩
  | position : r.ready = false → NewEv pw r r' ⟨.main, .atomicWrite .position⟩
  | size : r.ready = false → NewEv pw r r' ⟨.main, .write .size⟩
  | look : NewEv pw r r' ⟨.ui, .atomicRead .state⟩
  | passSize : pw = true → NewEv pw r r' ⟨.ui, .read .size⟩

theorem touches_active {r : Run O} {t : Thread} {a : Act Thread Loc Obj} (h : Touches r t a) : Active r.pipe t := by
  cases h with
  | ownRead h | ownWrite h => exact h
  | headerRead _ _ h | positionRead _ h | positionWrite _ h | sizeRead _ h | stateWrite _ h => exact .inl h
  | workerInput h | writerInput h | workerGiven h | writerGiven h | useRead h _ | useWrite h _ | countRead h | countWrite h
  | bufferRead h _ | bufferWrite h _ => exact .inl h
  | callerGiven | laterRead | laterWrite => exact .inr (.inl rfl)
  | buildRead h1 h2 | buildWrite h1 h2 => exact .inl ⟨_, h1, by rw [h2]; simp⟩
  | uiPosition | uiSize => exact .inr (.inr rfl)

/-- The invariant. -/
structure Inv (c : Cfg O) (pw : Bool) (W : Nat) (r : Run O) : Prop where
  pipe : Pbf.Reachable c W r.pipe
  chan : ∀ o, sends o r.trace = recvs o r.trace
  allowed : ∀ e ∈ r.trace, Allowed r.waited e
  threads : ∀ e ∈ r.trace, Exists c W e.thread
  early : r.ready = false → r.pipe.main = .load ∧ stored r.trace = false ∧ r.saw = false
  earlySize : r.ready = false → ∀ e ∈ r.trace, Acc .size e → pw = true ∧ e = ⟨.ui, .read .size⟩
  waitedDone : r.waited = true → r.pipe.main = .done
  ended : ∀ t, Inner t → Exists c W t → ¬ Alive r.pipe t → LastEv r.trace t
  joined : ∀ t, Inner t → t ≠ .main → waitRank t ≤ rank r.pipe.main → KnowsAll r.trace .main fun e => e.thread = t
  joinedC : r.waited = true → KnowsAll r.trace .caller fun e => e.thread ≠ .ui
  base : r.pipe.main ≠ .done → ∀ t, (t = .main ∨ Helper t) → Exists c W t → KnowsAll r.trace t Base
  shown : r.shown = true → KnowsAll r.trace .ui (Plain .state)
  stores : ∀ (i j : Nat) e f, r.trace[i]? = some e → r.trace[j]? = some f → Wr .size e → Wr .state f → f.act.atomic = true → i < j
  saw : r.saw = true → KnowsAll r.trace .ui (Wr .size)
  owns : r.waited = false → ∀ t m, Owns r.pipe m t → KnowsAll r.trace t (Acc (.result m))
  freshR : r.waited = false → ∀ e ∈ r.trace, ∀ m, Acc (.result m) e → m < r.pipe.index
  bufs : (r.held.map (·.2) ++ r.pool).Nodup
  bufsLt : ∀ n ∈ r.held.map (·.2) ++ r.pool, n < r.fresh
  freshB : ∀ e ∈ r.trace, ∀ n, Acc (.buffer n) e → n < r.fresh
  held : ∀ k n, (k, n) ∈ r.held → KnowsAll r.trace (.worker k) (Acc (.buffer n))
  pooled : ∀ n ∈ r.pool, ∃ d t, r.trace[d]? = some ⟨t, .put (.buffer n)⟩ ∧
    ∀ i e, r.trace[i]? = some e → Acc (.buffer n) e → Before r.trace i d

/-- What every step does. -/
structure Does (c : Cfg O) (pw : Bool) (r r' : Run O) (evs : Trace) : Prop where
  trace : r'.trace = r.trace ++ evs
  active : ∀ e ∈ evs, Active r.pipe e.thread
  new : ∀ e ∈ evs, NewEv pw r r' e
  chan : ∀ o, sends o evs = recvs o evs
  ready : r.ready = true → r'.ready = true
  waited : r.waited = true → r'.waited = true
  moves : Moves c r.pipe evs r'.pipe ∨ r'.pipe = r.pipe

theorem does {c : Cfg O} {pw : Bool} {r r' : Run O} (he : r.ready = false → r.pipe.main = .load)
    (h : RStep c pw r r') : ∃ evs, Does c pw r r' evs := by
  cases h with
  | @pipe evs s' hm hr =>
    refine ⟨evs, rfl, fun e he => .inl (moves_alive hm e he), fun e he => ?_, moves_channels hm, id, id, .inl hm⟩
    rcases moves_access hm with hq | ⟨h1, h2, rfl⟩
    · exact .quiet (hq e he)
    · simp only [List.mem_cons, List.not_mem_nil, or_false] at he
      rcases he with rfl | rfl
      · exact .unmap h1 h2
      · exact .quiet rfl
  | setup hr =>
    refine ⟨_, rfl, ?_, ?_, ?_, fun _ => rfl, id, .inr rfl⟩
    · simp [Active, Alive, he hr]
    · simp only [List.mem_cons, List.not_mem_nil, or_false]
      rintro e (rfl | rfl)
      · exact .position hr
      · exact .size hr
    · intro o; simp [sends, recvs]
  | touch ht =>
    refine ⟨_, rfl, ?_, ?_, ?_, id, id, .inr rfl⟩
    · simp only [List.mem_cons, List.not_mem_nil, or_false]
      rintro e rfl
      exact touches_active ht
    · simp only [List.mem_cons, List.not_mem_nil, or_false]
      rintro e rfl
      exact .touch ht
    · intro o; cases ht <;> simp [sends, recvs]
  | attach =>
    refine ⟨_, rfl, ?_, ?_, ?_, id, id, .inr rfl⟩
    · simp [Active]
    · simp only [List.mem_cons, List.not_mem_nil, or_false]
      rintro e (rfl | rfl) <;> exact .quiet rfl
    · intro o; cases o <;> simp [sends, recvs]
  | look =>
    refine ⟨_, rfl, ?_, ?_, ?_, id, id, .inr rfl⟩
    · simp [Active]
    · simp only [List.mem_cons, List.not_mem_nil, or_false]
      rintro e rfl; exact .look
    · intro o; simp [sends, recvs]
  | passSize hp =>
    refine ⟨_, rfl, ?_, ?_, ?_, id, id, .inr rfl⟩
    · simp [Active]
    · simp only [List.mem_cons, List.not_mem_nil, or_false]
      rintro e rfl; exact .passSize hp
    · intro o; simp [sends, recvs]
  | wait =>
    refine ⟨_, rfl, ?_, ?_, ?_, id, fun _ => rfl, .inr rfl⟩
    · simp [Active]
    · simp only [List.mem_cons, List.not_mem_nil, or_false]
      rintro e rfl; exact .quiet rfl
    · intro o; simp [sends, recvs]
  | getPooled ha =>
    refine ⟨_, rfl, ?_, ?_, ?_, id, id, .inr rfl⟩
    · simp only [List.mem_cons, List.not_mem_nil, or_false]
      rintro e rfl; exact .inl ha
    · simp only [List.mem_cons, List.not_mem_nil, or_false]
      rintro e rfl; exact .quiet rfl
    · intro o; simp [sends, recvs]
  | getNew ha =>
    exact ⟨[], by simp, by simp, by simp, by simp [sends, recvs], id, id, .inr rfl⟩
  | put ha =>
    refine ⟨_, rfl, ?_, ?_, ?_, id, id, .inr rfl⟩
    · simp only [List.mem_cons, List.not_mem_nil, or_false]
      rintro e rfl; exact .inl ha
    · simp only [List.mem_cons, List.not_mem_nil, or_false]
      rintro e rfl; exact .quiet rfl
    · intro o; simp [sends, recvs]
  | evict =>
    exact ⟨[], by simp, by simp, by simp, by simp [sends, recvs], id, id, .inr rfl⟩

theorem touches_allowed {r : Run O} {t : Thread} {a : Act Thread Loc Obj} (h : Touches r t a) : Allowed r.waited ⟨t, a⟩ := by
  cases h with
  | @laterRead l h1 h2 h3 h4 h5 h6 | @laterWrite l h1 h2 h3 h4 h5 h6 =>
    cases l <;> simp_all [Allowed, Act.loc, Act.writes, Act.atomic]
  | _ => simp_all [Allowed, Act.loc, Act.writes, Act.atomic, Helper]

theorem allowed_mono {w w' : Bool} (hw : w = true → w' = true) {e : Ev} (h : Allowed w e) : Allowed w' e := by
  cases w
  · unfold Allowed at h ⊢
    split at h <;> simp_all
    rcases h with h | h
    · exact .inl h
    · exact .inr (.inl h)
  · rw [hw rfl]; exact h

theorem new_allowed {pw : Bool} {r r' : Run O} (hw : r.waited = true → r'.waited = true) {e : Ev}
    (h : NewEv pw r r' e) : Allowed r'.waited e := by
  cases h with
  | quiet h => simp [Allowed, h]
  | touch h => exact allowed_mono hw (touches_allowed h)
  | _ => simp [Allowed, Act.loc, Act.writes, Act.atomic]

theorem exists_of_active {c : Cfg O} {W : Nat} {s : St O} (hB : BInv c W s) {t : Thread} (h : Active s t) : Exists c W t := by
  rcases h with h | rfl | rfl
  · exact exists_of_alive hB h
  · trivial
  · trivial

theorem lastEv_append {tr evs : Trace} {t : Thread} (h : LastEv tr t) (hn : ∀ e ∈ evs, e.thread ≠ t) :
    LastEv (tr ++ evs) t := by
  obtain ⟨d, h1, h2⟩ := h
  refine ⟨d, get_append h1, fun j f hj hf => ?_⟩
  by_cases hlt : j < tr.length
  · rw [get_append_lt hlt] at hj
    exact h2 j f hj hf
  · rw [List.getElem?_append_right (by omega)] at hj
    exact absurd hf (hn f (List.mem_of_getElem? hj))

theorem lastEv_new {tr : Trace} {t : Thread} (e : Ev) : LastEv (tr ++ [e, ⟨t, endAct t⟩]) t :=
  ⟨tr.length + 1, get_pair1 .., fun j f hj _ => by have := lt_of_get hj; simp at this; omega⟩

theorem learn_end {tr : Trace} {t : Thread} (hm : t ≠ .main) (h : LastEv tr t) :
    Learn tr (tr ++ [⟨.main, .wait (group t)⟩]) .main t := by
  obtain ⟨d, h1, h2⟩ := h
  have he : endAct t = .done (group t) := by
    cases t <;> first | rfl | exact absurd rfl hm
  rw [he] at h1
  exact Learn.last (f := ⟨.main, .wait (group t)⟩) h1 rfl h2 (.wait (lt_of_get h1) (get_append h1) (get_last ..))

theorem learn_finished {tr : Trace} (h : LastEv tr .main) :
    Learn tr (tr ++ [⟨.caller, .recvClosed .finished⟩]) .caller .main := by
  obtain ⟨d, h1, h2⟩ := h
  exact Learn.last (f := ⟨.caller, .recvClosed .finished⟩) h1 rfl h2 (.close (lt_of_get h1) (get_append h1) (get_last ..))

/-! ### Every step keeps the invariant -/

section
variable {c : Cfg O} {pw : Bool} {W : Nat} {r r' : Run O} {evs : Trace}

theorem Inv.now (hl : c.file.length < 2 ^ 63) (h : Inv c pw W r) : Pbf.Inv c W r.pipe := h.pipe.inv hl

theorem main_mono (hd : Does c pw r r' evs) (h : r'.pipe.main ≠ .done) : r.pipe.main ≠ .done := by
  intro hx
  rcases hd.moves with hm | hm
  · exact h (done_stays hm hx)
  · rw [hm] at h; exact h hx

/-- While `processFileWork` runs, nobody has waited for it. -/
theorem Inv.not_waited (h : Inv c pw W r) (hm : r.pipe.main ≠ .done) : r.waited = false := by
  cases hw : r.waited
  · rfl
  · exact absurd (h.waitedDone hw) hm

theorem keep_pipe (h : Inv c pw W r) (hc : r.pipe.crashed = false) (hd : Does c pw r r' evs) :
    Pbf.Reachable c W r'.pipe := by
  rcases hd.moves with hm | hm
  · exact h.pipe.step ⟨hc, hm.step⟩
  · rw [hm]; exact h.pipe

theorem keep_chan (h : Inv c pw W r) (hd : Does c pw r r' evs) (o : Obj) : sends o r'.trace = recvs o r'.trace := by
  rw [hd.trace]
  have h1 := h.chan o
  have h2 := hd.chan o
  unfold sends recvs at *
  rw [List.countP_append, List.countP_append, h1, h2]

theorem keep_allowed (h : Inv c pw W r) (hd : Does c pw r r' evs) : ∀ e ∈ r'.trace, Allowed r'.waited e := by
  intro e he
  rw [hd.trace, List.mem_append] at he
  rcases he with he | he
  · exact allowed_mono hd.waited (h.allowed e he)
  · exact new_allowed hd.waited (hd.new e he)

theorem keep_threads (hl : c.file.length < 2 ^ 63) (h : Inv c pw W r) (hd : Does c pw r r' evs) :
    ∀ e ∈ r'.trace, Exists c W e.thread := by
  intro e he
  rw [hd.trace, List.mem_append] at he
  rcases he with he | he
  · exact h.threads e he
  · exact exists_of_active (h.now hl).b (hd.active e he)

/-- The ended do nothing. -/
theorem silent (hd : Does c pw r r' evs) {t : Thread} (hi : Inner t) (ha : ¬ Alive r.pipe t) : ∀ e ∈ evs, e.thread ≠ t := by
  rintro e he rfl
  rcases hd.active e he with h | h | h
  · exact ha h
  · rw [h] at hi; exact hi
  · rw [h] at hi; exact hi

theorem keep_ended (h : Inv c pw W r) (hd : Does c pw r r' evs) (t : Thread) (hi : Inner t) (hx : Exists c W t)
    (ha : ¬ Alive r'.pipe t) : LastEv r'.trace t := by
  rw [hd.trace]
  rcases hd.moves with hm | hm
  · rcases ended_from hm hi ha with h' | ⟨e, rfl⟩
    · exact lastEv_append (h.ended t hi hx h') (silent hd hi h')
    · exact lastEv_new e
  · rw [hm] at ha
    exact lastEv_append (h.ended t hi hx ha) (silent hd hi ha)

theorem keep_joined (hl : c.file.length < 2 ^ 63) (h : Inv c pw W r) (hd : Does c pw r r' evs) (t : Thread) (hi : Inner t)
    (hm : t ≠ .main) (hw : waitRank t ≤ rank r'.pipe.main) : KnowsAll r'.trace .main fun e => e.thread = t := by
  have old : waitRank t ≤ rank r.pipe.main → KnowsAll r'.trace .main fun e => e.thread = t := by
    intro hw
    rw [hd.trace]
    refine (h.joined t hi hm hw).append fun e he ht => ?_
    exact absurd ht (silent hd hi (joined_ended (h.now hl).b hi hm hw) e he)
  rcases hd.moves with hmv | hmv
  · by_cases hx : Exists c W t
    · rcases joined_from hmv hi hm hx hw with h' | ⟨rfl, ha⟩
      · exact old h'
      · rw [hd.trace]
        refine KnowsAll.learn (u := t) (KnowsAll.own fun e _ h => h) (learn_end hm (h.ended t hi hx ha)) ?_
        intro e he ht
        simp at he
        rw [he]
    · intro i e he ht
      exact absurd (ht ▸ keep_threads hl h hd e (List.mem_of_getElem? he)) hx
  · rw [hmv] at hw
    exact old hw

theorem new_base (h : Inv c pw W r) (hd : Does c pw r r' evs) (hm : r'.pipe.main ≠ .done) : ∀ e ∈ evs, ¬ Base e := by
  have hw := h.not_waited (main_mono hd hm)
  intro e he hb
  have hn := hd.new e he
  cases hn with
  | quiet hq => simp [Base, Wr, Plain, hq] at hb
  | touch ht =>
    obtain ⟨t, a⟩ := e
    have ht : Touches r t a := ht
    cases ht <;> simp_all [Base, Wr, Plain, Act.loc, Act.writes, Act.atomic]
  | unmap _ h => exact hm h
  | _ => simp [Base, Wr, Plain, Act.loc, Act.writes, Act.atomic] at hb

theorem keep_base (h : Inv c pw W r) (hd : Does c pw r r' evs) (hm : r'.pipe.main ≠ .done) (t : Thread)
    (ht : t = .main ∨ Helper t) (hx : Exists c W t) : KnowsAll r'.trace t Base := by
  rw [hd.trace]
  exact (h.base (main_mono hd hm) t ht hx).append fun e he hb => absurd hb (new_base h hd hm e he)

theorem new_plain (hd : Does c pw r r' evs) : ∀ e ∈ evs, ¬ Plain .state e := by
  intro e he hb
  have hn := hd.new e he
  cases hn with
  | quiet hq => simp [Plain, hq] at hb
  | touch ht =>
    obtain ⟨t, a⟩ := e
    have ht : Touches r t a := ht
    cases ht <;> simp_all [Plain, Act.loc, Act.atomic]
  | _ => simp [Plain, Act.loc, Act.atomic] at hb

theorem keep_shown (h : Inv c pw W r) (hs : RStep c pw r r') (hd : Does c pw r r' evs) (hw : r'.shown = true) :
    KnowsAll r'.trace .ui (Plain .state) := by
  have old : r.shown = true → KnowsAll r'.trace .ui (Plain .state) := by
    intro hw
    rw [hd.trace]
    exact (h.shown hw).append fun e he hb => absurd hb (new_plain hd e he)
  cases hs with
  | attach _ =>
    refine KnowsAll.learn (u := .caller) (KnowsAll.own fun e he hp => ?_) (Learn.message (h.chan _)) ?_
    · have := h.allowed e he
      simp only [Allowed, hp.1, hp.2] at this
      grind
    · intro e he hb
      simp only [List.mem_cons, List.not_mem_nil, or_false] at he
      rcases he with rfl | rfl <;> simp [Plain, Act.loc] at hb
  | _ => exact old hw

theorem stored_append (tr evs : Trace) : stored (tr ++ evs) = (stored tr || stored evs) := List.any_append

theorem new_store (hd : Does c pw r r' evs) (hr : r.ready = false) : stored evs = false := by
  unfold stored
  rw [List.any_eq_false]
  intro e he
  have hn := hd.new e he
  cases hn with
  | quiet hq =>
    rw [decide_eq_true_eq]
    intro h
    rw [h] at hq
    simp [Act.loc] at hq
  | touch ht =>
    obtain ⟨t, a⟩ := e
    have ht : Touches r t a := ht
    cases ht <;> simp_all
  | _ => simp

theorem keep_early (h : Inv c pw W r) (hs : RStep c pw r r') (hd : Does c pw r r' evs) (hr : r'.ready = false) :
    r'.pipe.main = .load ∧ stored r'.trace = false ∧ r'.saw = false := by
  have hr0 : r.ready = false := by
    cases hx : r.ready
    · rfl
    · rw [hd.ready hx] at hr; cases hr
  obtain ⟨h1, h2, h3⟩ := h.early hr0
  refine ⟨?_, ?_, ?_⟩
  · cases hs with
    | pipe hm hor =>
      rcases hor with hor | hor
      · rw [hor] at hr0; cases hr0
      · exact hor.trans h1
    | setup => cases hr
    | _ => exact h1
  · rw [hd.trace, stored_append, h2, new_store hd hr0]
    rfl
  · cases hs <;> assumption

theorem keep_earlySize (h : Inv c pw W r) (hs : RStep c pw r r') (hd : Does c pw r r' evs) (hr : r'.ready = false) (e : Ev)
    (he : e ∈ r'.trace) (ha : Acc .size e) : pw = true ∧ e = ⟨.ui, .read .size⟩ := by
  have hr0 : r.ready = false := by
    cases hx : r.ready
    · rfl
    · rw [hd.ready hx] at hr; cases hr
  cases hs with
  | setup => cases hr
  | passSize hp _ =>
    rcases List.mem_append.1 he with he | he
    · exact h.earlySize hr0 e he ha
    · simp only [List.mem_cons, List.not_mem_nil, or_false] at he
      exact ⟨hp, he⟩
  | touch ht =>
    rcases List.mem_append.1 he with he | he
    · exact h.earlySize hr0 e he ha
    · simp only [List.mem_cons, List.not_mem_nil, or_false] at he
      subst he
      have := (h.early hr0).2.2
      have hw := fun hw => h.waitedDone hw
      cases ht <;> simp_all [Acc, Act.loc]
  | pipe hm _ =>
    rcases List.mem_append.1 he with he | he
    · exact h.earlySize hr0 e he ha
    · rcases moves_access hm with hq | ⟨_, _, hq⟩
      · rw [Acc, hq e he] at ha; cases ha
      · subst hq
        simp only [List.mem_cons, List.not_mem_nil, or_false] at he
        rcases he with rfl | rfl <;> simp [Acc, Act.loc] at ha
  | getNew | evict => exact h.earlySize hr0 e he ha
  | attach =>
    rcases List.mem_append.1 he with he | he
    · exact h.earlySize hr0 e he ha
    · simp only [List.mem_cons, List.not_mem_nil, or_false] at he
      rcases he with rfl | rfl <;> simp [Acc, Act.loc] at ha
  | look | wait | getPooled | put =>
    rcases List.mem_append.1 he with he | he
    · exact h.earlySize hr0 e he ha
    · simp only [List.mem_cons, List.not_mem_nil, or_false] at he
      subst he
      simp [Acc, Act.loc] at ha

theorem keep_waited (h : Inv c pw W r) (hs : RStep c pw r r') (hw : r'.waited = true) : r'.pipe.main = .done := by
  cases hs with
  | pipe hm _ => exact done_stays hm (h.waitedDone hw)
  | wait hm _ => exact hm
  | _ => exact h.waitedDone hw

theorem done_rank (h : r.pipe.main = .done) (t : Thread) : waitRank t ≤ rank r.pipe.main := by
  rw [h]
  cases t <;> simp [waitRank, rank]

theorem keep_joinedC (hl : c.file.length < 2 ^ 63) (h : Inv c pw W r) (hs : RStep c pw r r') (hd : Does c pw r r' evs)
    (hw : r'.waited = true) : KnowsAll r'.trace .caller fun e => e.thread ≠ .ui := by
  cases hw0 : r.waited
  · cases hs with
    | wait hm _ =>
      have hlast := h.ended .main trivial trivial (by simp [Alive, hm])
      intro i e he ht
      by_cases hi : i < r.trace.length
      · rw [get_append_lt hi] at he
        by_cases hc : e.thread = .caller
        · exact hc ▸ Knows.own (get_append he)
        · refine learn_finished hlast i ?_
          by_cases hmn : e.thread = .main
          · exact hmn ▸ Knows.own he
          · refine h.joined e.thread ?_ hmn (done_rank hm _) i e he rfl
            cases hx : e.thread <;> simp_all [Inner]
      · rw [List.getElem?_append_right (by omega)] at he
        have := List.mem_of_getElem? he
        simp only [List.mem_cons, List.not_mem_nil, or_false] at this
        subst this
        rw [← List.getElem?_append_right (by omega)] at he
        exact Knows.own he
    | _ => simp_all
  · rw [hd.trace]
    refine (h.joinedC hw0).append fun e he ht => ?_
    rcases hd.active e he with h' | h' | h'
    · exact absurd h' (done_ended (h.now hl).b (h.waitedDone hw0) _)
    · exact h'
    · exact absurd h' ht

theorem new_size (hd : Does c pw r r' evs) {e : Ev} (he : e ∈ evs) (hw : Wr .size e) : r.ready = false := by
  have hn := hd.new e he
  cases hn with
  | quiet hq => simp [Wr, hq] at hw
  | touch ht =>
    obtain ⟨t, a⟩ := e
    have ht : Touches r t a := ht
    cases ht <;> simp_all [Wr, Act.loc, Act.writes]
  | position h => exact h
  | size h => exact h
  | _ => simp [Wr, Act.loc, Act.writes] at hw

theorem wr_state {e : Ev} (h : Wr .state e) (ha : e.act.atomic = true) : e.act = .atomicWrite .state := by
  obtain ⟨h1, h2⟩ := h
  obtain ⟨t, a⟩ := e
  cases a <;> simp_all [Act.loc, Act.writes, Act.atomic]

theorem stored_mem {tr : Trace} {e : Ev} (he : e ∈ tr) (hw : Wr .state e) (ha : e.act.atomic = true) : stored tr = true := by
  unfold stored
  rw [List.any_eq_true]
  exact ⟨e, he, by rw [decide_eq_true_eq]; exact wr_state hw ha⟩

theorem keep_stores (h : Inv c pw W r) (hd : Does c pw r r' evs) (i j : Nat) (e f : Ev) (hi : r'.trace[i]? = some e)
    (hj : r'.trace[j]? = some f) (he : Wr .size e) (hf : Wr .state f) (ha : f.act.atomic = true) : i < j := by
  rw [hd.trace] at hi hj
  by_cases hil : i < r.trace.length
  · by_cases hjl : j < r.trace.length
    · rw [get_append_lt hil] at hi
      rw [get_append_lt hjl] at hj
      exact h.stores i j e f hi hj he hf ha
    · omega
  · rw [List.getElem?_append_right (by omega)] at hi
    have hr := new_size hd (List.mem_of_getElem? hi) he
    by_cases hjl : j < r.trace.length
    · rw [get_append_lt hjl] at hj
      have := stored_mem (List.mem_of_getElem? hj) hf ha
      rw [(h.early hr).2.1] at this
      cases this
    · rw [List.getElem?_append_right (by omega)] at hj
      have := stored_mem (List.mem_of_getElem? hj) hf ha
      rw [new_store hd hr] at this
      cases this

/-- The last store. -/
theorem last_store {tr : Trace} (h : stored tr = true) : ∃ (i : Nat) (t : Thread), tr[i]? = some (⟨t, .atomicWrite .state⟩ : Ev) ∧
    ∀ (k : Nat) (v : Thread), i < k → tr[k]? ≠ some (⟨v, .atomicWrite .state⟩ : Ev) := by
  induction tr using T.snoc_induction with
  | h0 => cases h
  | h1 tr e ih =>
    by_cases he : e.act = .atomicWrite .state
    · refine ⟨tr.length, e.thread, ?_, fun k v hk hx => ?_⟩
      · rw [get_last, ← he]
      · have := lt_of_get hx
        simp at this
        omega
    · rw [stored_append] at h
      have hs : stored [e] = false := by simp [stored, he]
      rw [hs, Bool.or_false] at h
      obtain ⟨i, t, h1, h2⟩ := ih h
      refine ⟨i, t, get_append h1, fun k v hk hx => ?_⟩
      have hkl := lt_of_get hx
      simp at hkl
      rcases Nat.lt_or_eq_of_le (Nat.le_of_lt_succ hkl) with hlt | rfl
      · rw [get_append_lt hlt] at hx
        exact h2 k v hk hx
      · rw [get_last] at hx
        cases hx
        exact he rfl

theorem keep_saw (h : Inv c pw W r) (hs : RStep c pw r r') (hd : Does c pw r r' evs) (hw : r'.saw = true) :
    KnowsAll r'.trace .ui (Wr .size) := by
  have old : r.saw = true → KnowsAll r'.trace .ui (Wr .size) := by
    intro hw
    rw [hd.trace]
    refine (h.saw hw).append fun e he hb => ?_
    have := (h.early (new_size hd he hb)).2.2
    rw [hw] at this
    cases this
  cases hs with
  | look hsh =>
    have hw : stored r.trace = true := hw
    obtain ⟨i, t, h1, h2⟩ := last_store hw
    intro j e he hz
    have hlt : j < r.trace.length := by
      apply Classical.byContradiction
      intro hj
      dsimp only at he
      rw [List.getElem?_append_right (by omega)] at he
      have := List.mem_of_getElem? he
      simp only [List.mem_cons, List.not_mem_nil, or_false] at this
      subst this
      simp [Wr, Act.loc] at hz
    dsimp only at he ⊢
    rw [get_append_lt hlt] at he
    have hji : j < i := h.stores j i e _ he h1 hz ⟨rfl, rfl⟩ rfl
    have hmain : e.thread = .main := by
      have := h.allowed e (List.mem_of_getElem? he)
      simp only [Allowed, hz.1, hz.2] at this
      grind
    have htm : t = .main := by
      have := h.allowed _ (List.mem_of_getElem? h1)
      simp only [Allowed, Act.loc, Act.writes, Act.atomic] at this
      grind
    have hil := lt_of_get h1
    refine ⟨r.trace.length, _, get_last .., rfl, .inr ?_⟩
    refine .tail (.single (.inl ⟨hji, e, _, get_append he, get_append h1, hmain.trans htm.symm⟩)) (.inr ?_)
    refine .observe hil (get_append h1) (get_last ..) fun k v hk hkl => ?_
    rw [get_append_lt hkl]
    exact h2 k v hk
  | _ => exact old hw

/-! ### Results -/

/-- Only who has a result uses it. -/
theorem new_result (hd : Does c pw r r' evs) (hw : r'.waited = false) {e : Ev} (he : e ∈ evs) {m : Nat}
    (ha : Acc (.result m) e) : Owns r.pipe m e.thread := by
  have hw0 : r.waited = false := by
    cases hx : r.waited
    · rfl
    · rw [hd.waited hx] at hw; cases hw
  have hn := hd.new e he
  cases hn with
  | quiet hq => simp [Acc, hq] at ha
  | touch ht =>
    obtain ⟨t, a⟩ := e
    have ht : Touches r t a := ht
    cases ht with
    | buildRead h1 h2 | buildWrite h1 h2 =>
      simp [Acc, Act.loc] at ha
      exact ⟨_, h1, by rw [h2]; simp [WorkerPc.holds, ha]⟩
    | useRead _ h | useWrite _ h =>
      simp [Acc, Act.loc] at ha
      subst ha
      exact h
    | _ => simp_all [Acc, Act.loc]
  | _ => simp [Acc, Act.loc] at ha

theorem waited_before (hd : Does c pw r r' evs) (hw : r'.waited = false) : r.waited = false := by
  cases hx : r.waited
  · rfl
  · rw [hd.waited hx] at hw; cases hw

theorem keep_owns (hl : c.file.length < 2 ^ 63) (h : Inv c pw W r) (hd : Does c pw r r' evs) (hw : r'.waited = false)
    (t : Thread) (m : Nat) (ho : Owns r'.pipe m t) : KnowsAll r'.trace t (Acc (.result m)) := by
  have hw0 := waited_before hd hw
  have hH := hands_of hl h.pipe
  have hI := h.now hl
  have same : Owns r.pipe m t → KnowsAll r'.trace t (Acc (.result m)) := by
    intro ho
    rw [hd.trace]
    exact (h.owns hw0 t m ho).append fun e he ha => owns_unique hI hH (new_result hd hw he ha) ho
  rcases hd.moves with hm | hm
  · rcases owns_from hl hI hm ho with ho | hlt | ⟨u, ch, ho, hev⟩
    · exact same ho
    · intro i e he ha
      rw [hd.trace] at he
      have := List.mem_append.1 (List.mem_of_getElem? he)
      rcases this with he' | he'
      · have := h.freshR hw0 e he' m ha; omega
      · have := owns_lt hI hH (new_result hd hw he' ha); omega
    · rw [hd.trace, hev]
      refine (h.owns hw0 u m ho).learn (Learn.message (h.chan _)) fun e he ha => ?_
      simp only [List.mem_cons, List.not_mem_nil, or_false] at he
      rcases he with rfl | rfl <;> simp [Acc, Act.loc] at ha
  · rw [hm] at ho
    exact same ho

theorem keep_freshR (hl : c.file.length < 2 ^ 63) (h : Inv c pw W r) (hd : Does c pw r r' evs) (hw : r'.waited = false)
    (e : Ev) (he : e ∈ r'.trace) (m : Nat) (ha : Acc (.result m) e) : m < r'.pipe.index := by
  have hi : r.pipe.index ≤ r'.pipe.index := by
    rcases hd.moves with hm | hm
    · exact index_mono hm
    · rw [hm]; exact Nat.le_refl _
  rw [hd.trace, List.mem_append] at he
  rcases he with he | he
  · have := h.freshR (waited_before hd hw) e he m ha; omega
  · have := owns_lt (h.now hl) (hands_of hl h.pipe) (new_result hd hw he ha); omega

/-! ### Buffers -/

theorem new_buffer (hd : Does c pw r r' evs) {e : Ev} (he : e ∈ evs) {n : Nat} (ha : Acc (.buffer n) e) :
    ∃ k, e.thread = .worker k ∧ (k, n) ∈ r.held := by
  have hn := hd.new e he
  cases hn with
  | quiet hq => simp [Acc, hq] at ha
  | touch ht =>
    obtain ⟨t, a⟩ := e
    have ht : Touches r t a := ht
    cases ht with
    | bufferRead _ h | bufferWrite _ h =>
      simp [Acc, Act.loc] at ha
      subst ha
      exact ⟨_, rfl, h⟩
    | _ => simp_all [Acc, Act.loc]
  | _ => simp [Acc, Act.loc] at ha

theorem keep_bufs (h : Inv c pw W r) (hs : RStep c pw r r') :
    (r'.held.map (·.2) ++ r'.pool).Nodup ∧ (∀ n ∈ r'.held.map (·.2) ++ r'.pool, n < r'.fresh) ∧ r.fresh ≤ r'.fresh := by
  have h1 := h.bufs
  have h2 := h.bufsLt
  cases hs with
  | @getPooled k p1 n p2 _ hp =>
    rw [hp] at h1 h2
    have hperm : (r.held.map (·.2) ++ (p1 ++ n :: p2)).Perm (((k, n) :: r.held).map (·.2) ++ (p1 ++ p2)) := by
      rw [← List.append_assoc]
      refine List.perm_middle.trans ?_
      simp
    exact ⟨hperm.nodup_iff.1 h1, fun x hx => h2 x (hperm.mem_iff.2 hx), Nat.le_refl _⟩
  | @getNew k _ =>
    refine ⟨?_, ?_, Nat.le_succ _⟩
    · dsimp only
      rw [List.map_cons, List.cons_append, List.nodup_cons]
      exact ⟨fun hx => by have := h2 _ hx; omega, h1⟩
    · intro x hx
      dsimp only at hx ⊢
      rw [List.map_cons, List.cons_append, List.mem_cons] at hx
      rcases hx with rfl | hx
      · omega
      · have := h2 x hx; omega
  | @put k b1 n b2 _ hp =>
    rw [hp] at h1 h2
    have hperm : ((b1 ++ (k, n) :: b2).map (·.2) ++ r.pool).Perm ((b1 ++ b2).map (·.2) ++ n :: r.pool) := by
      refine List.Perm.trans ?_ List.perm_middle.symm
      simp only [List.map_append, List.map_cons, List.append_assoc, List.cons_append]
      exact List.perm_middle
    exact ⟨hperm.nodup_iff.1 h1, fun x hx => h2 x (hperm.mem_iff.2 hx), Nat.le_refl _⟩
  | @evict p1 n p2 hp =>
    rw [hp] at h1 h2
    refine ⟨?_, fun x hx => h2 x ?_, Nat.le_refl _⟩
    · refine List.Nodup.sublist ?_ h1
      simp
    · dsimp only at hx
      simp only [List.mem_append, List.mem_cons] at hx ⊢
      grind
  | _ => exact ⟨h1, h2, Nat.le_refl _⟩

theorem keep_freshB (h : Inv c pw W r) (hs : RStep c pw r r') (hd : Does c pw r r' evs) (e : Ev) (he : e ∈ r'.trace) (n : Nat)
    (ha : Acc (.buffer n) e) : n < r'.fresh := by
  have hf := (keep_bufs h hs).2.2
  rw [hd.trace, List.mem_append] at he
  rcases he with he | he
  · have := h.freshB e he n ha; omega
  · obtain ⟨k, _, hk⟩ := new_buffer hd he ha
    have := h.bufsLt n (List.mem_append_left _ (List.mem_map.2 ⟨_, hk, rfl⟩))
    omega

/-- Nobody has what somebody else has. -/
theorem held_once (h : Inv c pw W r) {k k' n : Nat} (h1 : (k, n) ∈ r.held) (h2 : (k', n) ∈ r.held) : k = k' := by
  have := (List.nodup_append.1 h.bufs).1
  generalize r.held = l at *
  induction l with
  | nil => cases h1
  | cons p l ih =>
    rw [List.map_cons, List.nodup_cons] at this
    rcases List.mem_cons.1 h1 with e1 | m1 <;> rcases List.mem_cons.1 h2 with e2 | m2
    · rw [← e1] at e2; cases e2; rfl
    · exact absurd (List.mem_map.2 ⟨_, m2, by rw [← e1]⟩) this.1
    · exact absurd (List.mem_map.2 ⟨_, m1, by rw [← e2]⟩) this.1
    · exact ih m1 m2 this.2

theorem held_not_pooled (h : Inv c pw W r) {k n : Nat} (h1 : (k, n) ∈ r.held) (h2 : n ∈ r.pool) : False :=
  (List.nodup_append.1 h.bufs).2.2 n (List.mem_map.2 ⟨_, h1, rfl⟩) n h2 rfl

theorem keep_held (h : Inv c pw W r) (hs : RStep c pw r r') (hd : Does c pw r r' evs) (k n : Nat) (hk : (k, n) ∈ r'.held) :
    KnowsAll r'.trace (.worker k) (Acc (.buffer n)) := by
  have old : (k, n) ∈ r.held → KnowsAll r'.trace (.worker k) (Acc (.buffer n)) := by
    intro hk
    rw [hd.trace]
    refine (h.held k n hk).append fun e he ha => ?_
    obtain ⟨k', h1, h2⟩ := new_buffer hd he ha
    rw [h1, held_once h hk h2]
  cases hs with
  | @getPooled k' p1 n' p2 hal hp =>
    rcases List.mem_cons.1 hk with e1 | m1
    · cases e1
      obtain ⟨d, t, h1, h2⟩ := h.pooled n (by rw [hp]; simp)
      intro i e he ha
      have hlt : i < r.trace.length := by
        apply Classical.byContradiction
        intro hj
        dsimp only at he
        rw [List.getElem?_append_right (by omega)] at he
        have := List.mem_of_getElem? he
        simp only [List.mem_cons, List.not_mem_nil, or_false] at this
        subst this
        simp [Acc, Act.loc] at ha
      dsimp only at he ⊢
      rw [get_append_lt hlt] at he
      refine ⟨r.trace.length, _, get_last .., rfl, .inr ?_⟩
      exact .tail (before_append (h2 i e he ha)) (.inr (.pool (lt_of_get h1) (get_append h1) (get_last ..)))
    · exact old m1
  | @getNew k' hal =>
    rcases List.mem_cons.1 hk with e1 | m1
    · cases e1
      intro i e he ha
      have := h.freshB e (List.mem_of_getElem? he) _ ha
      omega
    · exact old m1
  | @put k' b1 n' b2 hal hp =>
    refine old ?_
    rw [hp]
    dsimp only at hk
    simp only [List.mem_append, List.mem_cons] at hk ⊢
    grind
  | _ => exact old hk

theorem keep_pooled (h : Inv c pw W r) (hs : RStep c pw r r') (hd : Does c pw r r' evs) (n : Nat) (hn : n ∈ r'.pool) :
    ∃ d t, r'.trace[d]? = some ⟨t, .put (.buffer n)⟩ ∧
      ∀ i e, r'.trace[i]? = some e → Acc (.buffer n) e → Before r'.trace i d := by
  have old : n ∈ r.pool → ∃ d t, r'.trace[d]? = some ⟨t, .put (.buffer n)⟩ ∧
      ∀ i e, r'.trace[i]? = some e → Acc (.buffer n) e → Before r'.trace i d := by
    intro hn
    obtain ⟨d, t, h1, h2⟩ := h.pooled n hn
    rw [hd.trace]
    refine ⟨d, t, get_append h1, fun i e he ha => ?_⟩
    by_cases hlt : i < r.trace.length
    · rw [get_append_lt hlt] at he
      exact before_append (h2 i e he ha)
    · rw [List.getElem?_append_right (by omega)] at he
      obtain ⟨k', _, h2⟩ := new_buffer hd (List.mem_of_getElem? he) ha
      exact (held_not_pooled h h2 hn).elim
  cases hs with
  | @getPooled k' p1 n' p2 hal hp =>
    refine old ?_
    rw [hp]
    dsimp only at hn
    simp only [List.mem_append, List.mem_cons] at hn ⊢
    grind
  | @evict p1 n' p2 hp =>
    refine old ?_
    rw [hp]
    dsimp only at hn
    simp only [List.mem_append, List.mem_cons] at hn ⊢
    grind
  | @put k' b1 n' b2 hal hp =>
    rcases List.mem_cons.1 hn with rfl | hn
    · refine ⟨r.trace.length, _, get_last .., fun i e he ha => ?_⟩
      have hlt : i < r.trace.length := by
        apply Classical.byContradiction
        intro hj
        dsimp only at he
        rw [List.getElem?_append_right (by omega)] at he
        have := List.mem_of_getElem? he
        simp only [List.mem_cons, List.not_mem_nil, or_false] at this
        subst this
        simp [Acc, Act.loc] at ha
      dsimp only at he ⊢
      rw [get_append_lt hlt] at he
      exact (h.held k' n (by rw [hp]; simp) i e he ha).before (Nat.le_refl _) (get_last ..) rfl
    · exact old hn
  | _ => exact old hn

theorem Inv.step (hl : c.file.length < 2 ^ 63) (h : Inv c pw W r) (hc : r.pipe.crashed = false) (hs : RStep c pw r r') :
    Inv c pw W r' := by
  obtain ⟨evs, hd⟩ := does (fun hr => (h.early hr).1) hs
  exact {
    pipe := keep_pipe h hc hd
    chan := keep_chan h hd
    allowed := keep_allowed h hd
    threads := keep_threads hl h hd
    early := keep_early h hs hd
    earlySize := keep_earlySize h hs hd
    waitedDone := keep_waited h hs
    ended := keep_ended h hd
    joined := keep_joined hl h hd
    joinedC := keep_joinedC hl h hs hd
    base := keep_base h hd
    shown := keep_shown h hs hd
    stores := keep_stores h hd
    saw := keep_saw h hs hd
    owns := keep_owns hl h hd
    freshR := keep_freshR hl h hd
    bufs := (keep_bufs h hs).1
    bufsLt := (keep_bufs h hs).2.1
    freshB := keep_freshB h hs hd
    held := keep_held h hs hd
    pooled := keep_pooled h hs hd }

end

end Osm.Race
