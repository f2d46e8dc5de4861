import Verif.Model.RaceTracker
import Verif.Lemmas.RaceOrder

/-!
# The invariant behind the absence of data races in the tracker
-/

namespace Osm.RaceTracker
open Osm.Spec.Race Osm.Race

/-- An access of the location. -/
def Acc (l : Loc) (e : Ev) : Prop := e.act.loc = some l

/-- An access of the location that is not atomic. -/
def Plain (l : Loc) (e : Ev) : Prop := e.act.loc = some l ∧ e.act.atomic = false

/-- What the caller writes before anything is started. -/
def Base (e : Ev) : Prop := e.thread = .caller ∧ (Acc .list e ∨ Acc .version e ∨ ∃ f, Acc (.shared f) e)

/-- What whoever has the mutex knows: the accesses of the list, and how the words of the workers in it were made. -/
def Guarded (ws : List Nat) (e : Ev) : Prop := Acc .list e ∨ ∃ k ∈ ws, ∃ f, Plain (.word k f) e

/-- Who may access what. -/
def Allowed (e : Ev) : Prop :=
  match e.act.loc with
  | none => True
  | some .list => True
  | some .version => e.act.atomic = true ∨ e.thread = .caller
  | some (.word k _) => e.thread = .worker k ∨ e.act.atomic = true
  | some (.shared _) => e.act.atomic = true ∨ e.thread = .caller
  | some (.widgets _) => e.thread = .caller ∨ e.thread = .ui

/-- Releases the mutex: so that the next one to take it learns of it. -/
def Releases (e : Ev) : Prop := e.act = .unlock .mutex ∨ (e.act = .runlock .mutex ∧ e.thread = .ui)

/-- Has been started. -/
def Started (r : Run) : Thread → Prop
  | .caller | .main => True
  | .worker k => r.pc k ≠ .off
  | .writer => r.writer = true
  | .ui => 0 < r.shown

/-- In its critical section. -/
def Critical : Pc → Bool
  | .adding | .filled | .removing | .emptied => true
  | _ => false

/-- Its state is complete. -/
def Complete : Pc → Bool
  | .off | .fresh => false
  | _ => true

structure Inv (r : Run) : Prop where
  chan : ∀ o, sends o r.trace = recvs o r.trace
  allowed : ∀ e ∈ r.trace, Allowed e
  critical : ∀ k, Critical (r.pc k) = true ↔ r.hold = some (.worker k)
  holder : ∀ t, r.hold = some t → (∃ k, t = .worker k) ∨ t = .ui
  uiShown : r.hold = some .ui → 0 < r.shown
  base : ∀ t, Started r t → KnowsAll r.trace t Base
  held : ∀ t, r.hold = some t → KnowsAll r.trace t (Guarded r.list)
  free : r.hold = none → ∀ i e, r.trace[i]? = some e → Guarded r.list e → Base e ∨ ∃ d f, r.trace[d]? = some f ∧
    Releases f ∧ Before r.trace i d
  listed : ∀ k ∈ r.list, Complete (r.pc k) = true
  knownC : ∀ k ∈ r.known, Complete (r.pc k) = true
  known : ∀ k ∈ r.known, ∀ f, KnowsAll r.trace .ui (Plain (.word k f))
  words : ∀ e ∈ r.trace, ∀ k f, Acc (.word k f) e → e.thread = .worker k ∨ Complete (r.pc k) = true
  fresh : ∀ e ∈ r.trace, ∀ p, Acc (.widgets p) e → e.thread = .caller ∨ p < r.shown
  widgets : ∀ p < r.shown, KnowsAll r.trace .ui (Acc (.widgets p))
  race : RaceFree r.trace

/-- What a step may do, as far as memory is concerned. -/
inductive New (r : Run) : Ev → Prop where
  | quiet {e} : e.act.loc = none → New r e
  | made : New r ⟨.caller, .write (.widgets r.shown)⟩
  | make {k f} : r.pc k = .fresh → New r ⟨.worker k, .write (.word k f)⟩
  | list {e} : r.hold = some e.thread → Acc .list e → New r e
  | bump {k} : r.pc k ≠ .off → New r ⟨.worker k, .atomicWrite .version⟩
  | store {k f} : Complete (r.pc k) = true → New r ⟨.worker k, .atomicWrite (.word k f)⟩
  | tell {f} : r.writer = true → New r ⟨.writer, .atomicWrite (.shared f)⟩
  | version : 0 < r.shown → New r ⟨.ui, .atomicRead .version⟩
  | look {k f} : k ∈ r.known → New r ⟨.ui, .atomicRead (.word k f)⟩
  | told {f} : 0 < r.shown → New r ⟨.ui, .atomicRead (.shared f)⟩
  | widget {e p} : p < r.shown → e.thread = .ui → Acc (.widgets p) e → New r e

theorem news {r r' : Run} (hi : ∀ k, Critical (r.pc k) = true ↔ r.hold = some (.worker k)) (h : RStep r r') :
    ∃ evs, r'.trace = r.trace ++ evs ∧ (∀ e ∈ evs, New r e) ∧
      ((∀ e ∈ evs, e.act.loc = none) ∨ ∃ t, ∀ e ∈ evs, e.thread = t) := by
  have one : ∀ e, New r e → r'.trace = r.trace ++ [e] → ∃ evs, r'.trace = r.trace ++ evs ∧ (∀ e ∈ evs, New r e) ∧
      ((∀ e ∈ evs, e.act.loc = none) ∨ ∃ t, ∀ e ∈ evs, e.thread = t) := by
    intro e he ht
    refine ⟨[e], ht, ?_, .inr ⟨e.thread, ?_⟩⟩ <;> simp_all
  have quiet : ∀ evs : Trace, (∀ e ∈ evs, e.act.loc = none) → r'.trace = r.trace ++ evs → ∃ evs, r'.trace = r.trace ++ evs ∧
      (∀ e ∈ evs, New r e) ∧ ((∀ e ∈ evs, e.act.loc = none) ∨ ∃ t, ∀ e ∈ evs, e.thread = t) :=
    fun evs hq ht => ⟨evs, ht, fun e he => .quiet (hq e he), .inl hq⟩
  have pair : ∀ k, r.hold = some (.worker k) →
      r'.trace = r.trace ++ [⟨.worker k, .read .list⟩, ⟨.worker k, .write .list⟩] →
      ∃ evs, r'.trace = r.trace ++ evs ∧ (∀ e ∈ evs, New r e) ∧
        ((∀ e ∈ evs, e.act.loc = none) ∨ ∃ t, ∀ e ∈ evs, e.thread = t) := by
    intro k hk ht
    refine ⟨_, ht, ?_, .inr ⟨.worker k, by simp⟩⟩
    intro e he
    simp only [List.mem_cons, List.not_mem_nil, or_false] at he
    rcases he with rfl | rfl <;> exact .list hk rfl
  cases h with
  | startWorker hk => exact quiet _ (by simp [Act.loc]) rfl
  | startWriter hk => exact quiet _ (by simp [Act.loc]) rfl
  | widgets => exact one _ .made rfl
  | «show» => exact quiet _ (by simp [Act.loc]) rfl
  | make hk => exact one _ (.make hk) rfl
  | made hk => exact quiet _ (by simp) rfl
  | lockAdd hk hn => exact quiet _ (by simp [Act.loc]) rfl
  | add hk => exact pair _ ((hi _).1 (by rw [hk]; rfl)) rfl
  | unlockAdd hk => exact quiet _ (by simp [Act.loc]) rfl
  | bumpAdd hk => exact one _ (.bump (by rw [hk]; simp)) rfl
  | store hk => exact one _ (.store (by rw [hk]; rfl)) rfl
  | lockRemove hk hn => exact quiet _ (by simp [Act.loc]) rfl
  | remove hk => exact pair _ ((hi _).1 (by rw [hk]; rfl)) rfl
  | unlockRemove hk => exact quiet _ (by simp [Act.loc]) rfl
  | bumpRemove hk => exact one _ (.bump (by rw [hk]; simp)) rfl
  | writerStore hw => exact one _ (.tell hw) rfl
  | version hs => exact one _ (.version hs) rfl
  | rlock hs hn => exact quiet _ (by simp [Act.loc]) rfl
  | states hh => exact one ⟨.ui, .read .list⟩ (.list hh rfl) rfl
  | runlock hh => exact quiet _ (by simp [Act.loc]) rfl
  | look hs hk => exact one _ (.look hk) rfl
  | lookWriter hs => exact one _ (.told hs) rfl
  | widgetsRead hp => exact one ⟨.ui, .read (.widgets _)⟩ (.widget hp rfl rfl) rfl
  | widgetsWrite hp => exact one ⟨.ui, .write (.widgets _)⟩ (.widget hp rfl rfl) rfl

/-! ### What a new event is not -/

theorem New.not_base {r : Run} {e : Ev} (hh : ∀ t, r.hold = some t → (∃ k, t = .worker k) ∨ t = .ui) (h : New r e) :
    ¬ Base e := by
  rintro ⟨ht, hb⟩
  cases h with
  | quiet hq => simp [Acc, hq] at hb
  | made => simp [Acc, Act.loc] at hb
  | list hk _ => have := hh _ hk; simp [ht] at this
  | widget _ h2 _ => simp [ht] at h2
  | _ => simp at ht

theorem New.guarded {r : Run} {e : Ev} {ws : List Nat} (hl : ∀ k ∈ ws, Complete (r.pc k) = true) (h : New r e)
    (hg : Guarded ws e) : r.hold = some e.thread := by
  cases h with
  | quiet hq => simp [Guarded, Acc, Plain, hq] at hg
  | list hk _ => exact hk
  | make hk =>
    simp [Guarded, Acc, Plain, Act.loc] at hg
    obtain ⟨j, hj, rfl, _⟩ := hg
    have := hl _ hj
    rw [hk] at this
    simp [Complete] at this
  | widget _ _ h3 =>
    have h3' : e.act.loc = _ := h3
    simp [Guarded, Acc, Plain, h3'] at hg
  | _ => simp [Guarded, Acc, Plain, Act.loc, Act.atomic] at hg

theorem New.plain {r : Run} {e : Ev} {k f : Nat} (hl : Complete (r.pc k) = true) (h : New r e) :
    ¬ Plain (.word k f) e := by
  intro hg
  cases h with
  | quiet hq => simp [Plain, hq] at hg
  | list _ h3 =>
    have h3' : e.act.loc = _ := h3
    simp [Plain, h3'] at hg
  | make hk =>
    simp [Plain, Act.loc] at hg
    rw [← hg.1.1, hk] at hl
    simp [Complete] at hl
  | widget _ _ h3 =>
    have h3' : e.act.loc = _ := h3
    simp [Plain, h3'] at hg
  | _ => simp [Plain, Act.loc, Act.atomic] at hg

theorem New.allowed {r : Run} {e : Ev} (h : New r e) : Allowed e := by
  cases h with
  | quiet hq => simp [Allowed, hq]
  | list _ h3 =>
    have h3' : e.act.loc = _ := h3
    simp [Allowed, h3']
  | widget _ h2 h3 =>
    have h3' : e.act.loc = _ := h3
    simp [Allowed, h3', h2]
  | _ => simp [Allowed, Act.loc, Act.atomic]

theorem New.word {r : Run} {e : Ev} {k f : Nat} (hk : ∀ k ∈ r.known, Complete (r.pc k) = true) (h : New r e)
    (ha : Acc (.word k f) e) : e.thread = .worker k ∨ Complete (r.pc k) = true := by
  cases h with
  | quiet hq => simp [Acc, hq] at ha
  | list _ h3 =>
    have h3' : e.act.loc = _ := h3
    simp [Acc, h3'] at ha
  | widget _ h2 h3 =>
    have h3' : e.act.loc = _ := h3
    simp [Acc, h3'] at ha
  | look hm =>
    simp [Acc, Act.loc] at ha
    exact .inr (ha.1 ▸ hk _ hm)
  | make _ => simp [Acc, Act.loc] at ha; simp [ha.1]
  | store _ => simp [Acc, Act.loc] at ha; simp [ha.1]
  | _ => simp [Acc, Act.loc] at ha

theorem New.fresh {r : Run} {e : Ev} {p : Nat} (h : New r e) (ha : Acc (.widgets p) e) :
    e.thread = .caller ∨ p < r.shown := by
  cases h with
  | quiet hq => simp [Acc, hq] at ha
  | list _ h3 =>
    have h3' : e.act.loc = _ := h3
    simp [Acc, h3'] at ha
  | widget h1 h2 h3 =>
    have h3' : e.act.loc = _ := h3
    simp [Acc, h3'] at ha
    exact .inr (ha ▸ h1)
  | made => exact .inl rfl
  | _ => simp [Acc, Act.loc] at ha

theorem New.widgets {r : Run} {e : Ev} {p : Nat} (h : New r e) (hp : p < r.shown) (ha : Acc (.widgets p) e) :
    e.thread = .ui := by
  cases h with
  | quiet hq => simp [Acc, hq] at ha
  | list _ h3 =>
    have h3' : e.act.loc = _ := h3
    simp [Acc, h3'] at ha
  | widget h1 h2 h3 => exact h2
  | made => simp [Acc, Act.loc] at ha; omega
  | _ => simp [Acc, Act.loc] at ha

/-- A new event may be made. -/
theorem New.safe {r : Run} {e : Ev} (hi : Inv r) (h : New r e) : Safe r.trace e.thread e.act := by
  cases h with
  | quiet hq => intro i g hg hc; exact absurd (hc.2.1.trans hq) hc.1
  | made =>
    refine KnowsAll.own fun g hg hc => ?_
    have := hi.fresh g hg r.shown hc.2.1
    simp only [Nat.lt_irrefl, or_false] at this
    exact this
  | make hk =>
    refine KnowsAll.own fun g hg hc => ?_
    have := hi.words g hg _ _ hc.2.1
    rw [hk] at this
    simpa [Complete] using this
  | list hk ha => exact (hi.held _ hk).mono fun g _ hc => .inl (hc.2.1.trans ha)
  | bump hk =>
    refine (hi.base (.worker _) hk).mono fun g hg hc => ?_
    have ha := hi.allowed g hg
    have hl : g.act.loc = some .version := hc.2.1
    simp only [Allowed, hl] at ha
    exact ⟨ha.resolve_left fun hq => hc.2.2.2 ⟨hq, rfl⟩, .inr (.inl hl)⟩
  | version hk =>
    refine (hi.base .ui hk).mono fun g hg hc => ?_
    have ha := hi.allowed g hg
    have hl : g.act.loc = some .version := hc.2.1
    simp only [Allowed, hl] at ha
    exact ⟨ha.resolve_left fun hq => hc.2.2.2 ⟨hq, rfl⟩, .inr (.inl hl)⟩
  | tell hk =>
    refine (hi.base .writer hk).mono fun g hg hc => ?_
    have ha := hi.allowed g hg
    have hl : g.act.loc = some (.shared _) := hc.2.1
    simp only [Allowed, hl] at ha
    exact ⟨ha.resolve_left fun hq => hc.2.2.2 ⟨hq, rfl⟩, .inr (.inr ⟨_, hl⟩)⟩
  | told hk =>
    refine (hi.base .ui hk).mono fun g hg hc => ?_
    have ha := hi.allowed g hg
    have hl : g.act.loc = some (.shared _) := hc.2.1
    simp only [Allowed, hl] at ha
    exact ⟨ha.resolve_left fun hq => hc.2.2.2 ⟨hq, rfl⟩, .inr (.inr ⟨_, hl⟩)⟩
  | store hk =>
    refine KnowsAll.own fun g hg hc => ?_
    have ha := hi.allowed g hg
    have hl : g.act.loc = some (.word _ _) := hc.2.1
    simp only [Allowed, hl] at ha
    exact ha.resolve_right fun hq => hc.2.2.2 ⟨hq, rfl⟩
  | @look k f hk =>
    refine (hi.known k hk f).mono fun g hg hc => ⟨hc.2.1, ?_⟩
    cases hq : g.act.atomic
    · rfl
    · exact absurd ⟨hq, rfl⟩ hc.2.2.2
  | widget hp ht ha =>
    rw [ht]
    exact (hi.widgets _ hp).mono fun g _ hc => hc.2.1.trans ha

/-- Events of one goroutine, each of which may be made, and so may all of them. -/
theorem raceFree_thread {tr evs : Trace} {t : Thread} (h : RaceFree tr) (ht : ∀ e ∈ evs, e.thread = t)
    (hs : ∀ e ∈ evs, Safe tr t e.act) : RaceFree (tr ++ evs) := by
  rintro i j ⟨hlt, e, f, he, hf, hc, hb, hb'⟩
  by_cases hj : j < tr.length
  · rw [get_append_lt hj] at hf
    rw [get_append_lt (by omega)] at he
    exact h i j ⟨hlt, e, f, he, hf, hc, fun h => hb (before_append h), fun h => hb' (before_append h)⟩
  · have hf' := hf
    rw [List.getElem?_append_right (by omega)] at hf'
    have hfm := List.mem_of_getElem? hf'
    by_cases hil : i < tr.length
    · have he' := he
      rw [get_append_lt hil] at he'
      exact hb ((hs f hfm i e he' hc).before (by omega) hf (ht f hfm))
    · have he' := he
      rw [List.getElem?_append_right (by omega)] at he'
      exact hb (.single (.inl ⟨hlt, e, f, he, hf, (ht e (List.mem_of_getElem? he')).trans (ht f hfm).symm⟩))

theorem mem_new {tr evs : Trace} {e : Ev} {P : Ev → Prop} (h1 : ∀ e ∈ tr, P e) (h2 : ∀ e ∈ evs, P e)
    (h : e ∈ tr ++ evs) : P e := (List.mem_append.1 h).elim (h1 e) (h2 e)

/-! ### How the state changes -/

theorem complete_mono {r r' : Run} (h : RStep r r') (k : Nat) (hc : Complete (r.pc k) = true) :
    Complete (r'.pc k) = true := by
  cases h <;> simp only [Run.goes, Run.does] <;> first | exact hc | (split <;> first | rfl | (subst_vars; simp_all [Complete]))

theorem shown_mono {r r' : Run} (h : RStep r r') : r.shown ≤ r'.shown := by
  cases h <;> simp [Run.goes, Run.does]

theorem keep_critical {r r' : Run} (hi : ∀ k, Critical (r.pc k) = true ↔ r.hold = some (.worker k)) (h : RStep r r')
    (k : Nat) : Critical (r'.pc k) = true ↔ r'.hold = some (.worker k) := by
  have hk := hi k
  cases h <;> simp only [Run.goes, Run.does] <;> try exact hk
  case startWorker j h1 => have := hi j; split <;> simp_all [Critical]
  case made j h1 => have := hi j; split <;> simp_all [Critical]
  case lockAdd j h1 h2 => have := hi j; split <;> simp_all [Critical]; omega
  case add j h1 => have := hi j; split <;> simp_all [Critical]
  case unlockAdd j h1 => have := hi j; split <;> simp_all [Critical]; omega
  case bumpAdd j h1 => have := hi j; split <;> simp_all [Critical]
  case lockRemove j h1 h2 => have := hi j; split <;> simp_all [Critical]; omega
  case remove j h1 => have := hi j; split <;> simp_all [Critical]
  case unlockRemove j h1 => have := hi j; split <;> simp_all [Critical]; omega
  case bumpRemove j h1 => have := hi j; split <;> simp_all [Critical]
  case rlock h1 h2 => simp_all
  case runlock h1 => simp_all


theorem keep_holder {r r' : Run} (hi : ∀ t, r.hold = some t → (∃ k, t = .worker k) ∨ t = .ui) (h : RStep r r')
    (t : Thread) (ht : r'.hold = some t) : (∃ k, t = .worker k) ∨ t = .ui := by
  cases h <;> simp only [Run.goes, Run.does] at ht <;> first | exact hi t ht | (cases ht; done) | (cases ht; simp; done)

theorem keep_uiShown {r r' : Run} (hi : r.hold = some .ui → 0 < r.shown) (h : RStep r r')
    (ht : r'.hold = some .ui) : 0 < r'.shown := by
  cases h <;> simp only [Run.goes, Run.does] at ht ⊢ <;> first | exact hi ht | simp_all

theorem keep_listed {r r' : Run} (hi : ∀ k ∈ r.list, Complete (r.pc k) = true) (h : RStep r r')
    (k : Nat) (hk : k ∈ r'.list) : Complete (r'.pc k) = true := by
  have hm := complete_mono h k
  cases h <;> try exact hm (hi k hk)
  case add j hj =>
    simp only [Run.goes, List.mem_append, List.mem_singleton] at hk ⊢
    rcases hk with hk | rfl
    · exact hm (hi k hk)
    · simp [Complete]
  case remove j hj => exact hm (hi k (List.mem_of_mem_erase hk))

theorem keep_knownC {r r' : Run} (hl : ∀ k ∈ r.list, Complete (r.pc k) = true)
    (hi : ∀ k ∈ r.known, Complete (r.pc k) = true) (h : RStep r r')
    (k : Nat) (hk : k ∈ r'.known) : Complete (r'.pc k) = true := by
  have hm := complete_mono h k
  cases h <;> try exact hm (hi k hk)
  case states hj => exact (List.mem_append.1 hk).elim (fun h => hl k h) (fun h => hi k h)

theorem keep_chan {r r' : Run} (hi : ∀ o, sends o r.trace = recvs o r.trace) (h : RStep r r') (o : Obj) :
    sends o r'.trace = recvs o r'.trace := by
  have := hi o
  cases h <;> simp only [Run.goes, Run.does] <;> simp_all [sends, recvs, List.countP_append, List.countP_cons]

theorem keep_base {r r' : Run} (hi : Inv r) (h : RStep r r') (t : Thread) (ht : Started r' t) :
    KnowsAll r'.trace t Base := by
  obtain ⟨evs, he, hn, -⟩ := news hi.critical h
  have nb : ∀ e ∈ evs, Base e → False := fun e he hb => (hn e he).not_base hi.holder hb
  have old : Started r t → KnowsAll r'.trace t Base := fun ht => by
    rw [he]; exact (hi.base t ht).append fun e he hb => (nb e he hb).elim
  cases h with
  | @startWorker k hk =>
    by_cases htk : t = .worker k
    · subst htk
      exact (hi.base .main trivial).learn Learn.go fun e he hb => by
        simp only [List.mem_cons, List.not_mem_nil, or_false] at he
        rcases he with rfl | rfl <;> simp [Base] at hb
    · apply old
      cases t <;> simp_all [Started, Run.goes]
  | startWriter hk =>
    by_cases htk : t = .writer
    · subst htk
      exact (hi.base .main trivial).learn Learn.go fun e he hb => by
        simp only [List.mem_cons, List.not_mem_nil, or_false] at he
        rcases he with rfl | rfl <;> simp [Base] at hb
    · apply old
      cases t <;> simp_all [Started, Run.does]
  | «show» =>
    by_cases htk : t = .ui
    · subst htk
      exact (hi.base .caller trivial).learn (Learn.message (hi.chan .events)) fun e he hb => by
        simp only [List.mem_cons, List.not_mem_nil, or_false] at he
        rcases he with rfl | rfl <;> simp [Base, Acc, Act.loc] at hb
    · apply old
      cases t <;> simp_all [Started, Run.does]
  | _ => 
    apply old
    cases t <;> simp only [Started, Run.goes, Run.does] at ht ⊢ <;> first | exact ht | (split at ht <;> simp_all)

/-- Taking the mutex. -/
theorem acquire {r : Run} (hi : Inv r) (hn : r.hold = none) {t : Thread} (ht : Started r t) {a : Act Thread Loc Obj}
    (ha : a = .lock .mutex ∨ (a = .rlock .mutex ∧ t = .ui)) :
    KnowsAll (r.trace ++ [⟨t, a⟩]) t (Guarded r.list) := by
  intro i e he hg
  by_cases hl : i < r.trace.length
  · have he' := he
    rw [get_append_lt hl] at he'
    rcases hi.free hn i e he' hg with hb | ⟨d, f, hf, hr, hb⟩
    · exact (hi.base t ht i e he' hb).append
    · refine ⟨r.trace.length, _, get_last .., rfl, .inr (.tail (before_append hb) ?_)⟩
      have hd := lt_of_get hf
      obtain ⟨u, b⟩ := f
      rcases ha with rfl | ⟨rfl, rfl⟩
      · rcases hr with hr | ⟨hr, _⟩
        · obtain rfl : b = _ := hr
          exact .inr (.mutex hd (get_append hf) (get_last ..))
        · obtain rfl : b = _ := hr
          exact .inr (.readers hd (get_append hf) (get_last ..))
      · rcases hr with hr | ⟨hr, hu⟩
        · obtain rfl : b = _ := hr
          exact .inr (.reader hd (get_append hf) (get_last ..))
        · exact .inl ⟨hd, _, _, get_append hf, get_last .., hu⟩
  · have : i = r.trace.length := by have := lt_of_get he; simp at this; omega
    subst this
    rw [get_last] at he
    cases he
    rcases ha with rfl | ⟨rfl, _⟩ <;> simp [Guarded, Acc, Plain, Act.loc] at hg

/-- Giving it back. -/
theorem release {r : Run} (hi : Inv r) {t : Thread} (ht : r.hold = some t) {a : Act Thread Loc Obj}
    (ha : Releases ⟨t, a⟩) (i : Nat) (e : Ev) (he : (r.trace ++ [⟨t, a⟩])[i]? = some e) (hg : Guarded r.list e) :
    Base e ∨ ∃ d f, (r.trace ++ [⟨t, a⟩])[d]? = some f ∧ Releases f ∧ Before (r.trace ++ [⟨t, a⟩]) i d := by
  by_cases hl : i < r.trace.length
  · have he' := he
    rw [get_append_lt hl] at he'
    exact .inr ⟨r.trace.length, _, get_last .., ha, (hi.held t ht i e he' hg).before (Nat.le_refl _) (get_last ..) rfl⟩
  · have : i = r.trace.length := by have := lt_of_get he; simp at this; omega
    subst this
    rw [get_last] at he
    cases he
    rcases ha with ha | ⟨ha, _⟩ <;> (obtain rfl : a = _ := ha; simp [Guarded, Acc, Plain, Act.loc] at hg)

theorem keep_held {r r' : Run} (hi : Inv r) (h : RStep r r') (t : Thread) (ht : r'.hold = some t) :
    KnowsAll r'.trace t (Guarded r'.list) := by
  obtain ⟨evs, he, hn, -⟩ := news hi.critical h
  have old : r.hold = some t → KnowsAll r'.trace t (Guarded r.list) := fun ht => by
    rw [he]
    refine (hi.held t ht).append fun e he hg => ?_
    have := (hn e he).guarded hi.listed hg
    rw [ht] at this
    exact (Option.some.inj this).symm
  cases h with
  | lockAdd hk hn => cases ht; exact acquire hi hn (t := .worker _) (by simp [Started, hk]) (.inl rfl)
  | lockRemove hk hn => cases ht; exact acquire hi hn (t := .worker _) (by simp [Started, hk]) (.inl rfl)
  | rlock hk hn => cases ht; exact acquire hi hn (t := .ui) hk (.inr ⟨rfl, rfl⟩)
  | unlockAdd hk => cases ht
  | unlockRemove hk => cases ht
  | runlock hk => cases ht
  | @add k hk =>
    have hk' := (hi.critical k).1 (by rw [hk]; rfl)
    have ht' : r.hold = some t := ht
    have htk : t = .worker k := by rw [hk'] at ht'; exact (Option.some.inj ht').symm
    intro i e hge hg
    rcases hg with hg | ⟨j, hj, f, hg⟩
    · exact old ht i e hge (.inl hg)
    · rcases List.mem_append.1 hj with hj | hj
      · exact old ht i e hge (.inr ⟨j, hj, f, hg⟩)
      · rw [List.mem_singleton] at hj
        subst hj
        rw [he] at hge
        have hall : Allowed e := mem_new hi.allowed (fun e he => (hn e he).allowed) (List.mem_of_getElem? hge)
        have hth : e.thread = t := by
          simp only [Allowed, hg.1, hg.2] at hall
          simp_all
        rw [he]
        exact hth ▸ Knows.own hge
  | @remove k hk =>
    refine (old ht).mono fun e _ hg => hg.imp id ?_
    rintro ⟨j, hj, f, hg⟩
    exact ⟨j, List.mem_of_mem_erase hj, f, hg⟩
  | _ => exact old ht

theorem keep_free {r r' : Run} (hi : Inv r) (h : RStep r r') (ht : r'.hold = none) (i : Nat) (e : Ev)
    (hie : r'.trace[i]? = some e) (hg : Guarded r'.list e) : Base e ∨ ∃ d f, r'.trace[d]? = some f ∧
    Releases f ∧ Before r'.trace i d := by
  obtain ⟨evs, he, hn, -⟩ := news hi.critical h
  have old : r.hold = none → r'.list = r.list → Base e ∨ ∃ d f, r'.trace[d]? = some f ∧
      Releases f ∧ Before r'.trace i d := by
    intro ht hl
    rw [hl] at hg
    rw [he] at hie ⊢
    by_cases hil : i < r.trace.length
    · rw [get_append_lt hil] at hie
      refine (hi.free ht i e hie hg).imp id ?_
      rintro ⟨d, f, h1, h2, h3⟩
      exact ⟨d, f, get_append h1, h2, before_append h3⟩
    · rw [List.getElem?_append_right (by omega)] at hie
      have := (hn e (List.mem_of_getElem? hie)).guarded hi.listed hg
      rw [ht] at this
      cases this
  cases h with
  | lockAdd hk hn => cases ht
  | lockRemove hk hn => cases ht
  | rlock hk hn => cases ht
  | @unlockAdd k hk => exact release hi ((hi.critical k).1 (by rw [hk]; rfl)) (.inl rfl) i e hie hg
  | @unlockRemove k hk => exact release hi ((hi.critical k).1 (by rw [hk]; rfl)) (.inl rfl) i e hie hg
  | runlock hk => exact release hi hk (.inr ⟨rfl, rfl⟩) i e hie hg
  | @add k hk =>
    have := (hi.critical k).1 (by rw [hk]; rfl)
    simp [Run.goes, this] at ht
  | @remove k hk =>
    have := (hi.critical k).1 (by rw [hk]; rfl)
    simp [Run.goes, this] at ht
  | states hk => simp [Run.does, hk] at ht
  | _ => exact old ht rfl

theorem keep_known {r r' : Run} (hi : Inv r) (h : RStep r r') (k : Nat) (hk : k ∈ r'.known) (f : Nat) :
    KnowsAll r'.trace .ui (Plain (.word k f)) := by
  obtain ⟨evs, he, hn, -⟩ := news hi.critical h
  have old : k ∈ r.known → KnowsAll r'.trace .ui (Plain (.word k f)) := fun hk => by
    rw [he]
    exact (hi.known k hk f).append fun e he hp => ((hn e he).plain (hi.knownC k hk) hp).elim
  cases h with
  | states hh =>
    rcases List.mem_append.1 hk with hk | hk
    · rw [he]
      exact ((hi.held .ui hh).mono fun e _ hp => .inr ⟨k, hk, f, hp⟩).append fun e he hp =>
        ((hn e he).plain (hi.listed k hk) hp).elim
    · exact old hk
  | _ => exact old hk

theorem keep_widgets {r r' : Run} (hi : Inv r) (h : RStep r r') (p : Nat) (hp : p < r'.shown) :
    KnowsAll r'.trace .ui (Acc (.widgets p)) := by
  obtain ⟨evs, he, hn, -⟩ := news hi.critical h
  have old : p < r.shown → KnowsAll r'.trace .ui (Acc (.widgets p)) := fun hp => by
    rw [he]
    exact (hi.widgets p hp).append fun e he ha => (hn e he).widgets hp ha
  cases h with
  | «show» =>
    by_cases hlt : p < r.shown
    · exact old hlt
    · refine KnowsAll.learn (u := .caller) (KnowsAll.own fun e he ha => ?_) (Learn.message (hi.chan .events)) ?_
      · exact (hi.fresh e he p ha).resolve_right hlt
      · intro e he ha
        simp only [List.mem_cons, List.not_mem_nil, or_false] at he
        rcases he with rfl | rfl <;> simp [Acc, Act.loc] at ha
  | _ => exact old hp

theorem inv_step {r r' : Run} (hi : Inv r) (h : RStep r r') : Inv r' := by
  obtain ⟨evs, he, hn, hq⟩ := news hi.critical h
  exact {
    chan := keep_chan hi.chan h
    allowed := fun e hm => mem_new hi.allowed (fun e he => (hn e he).allowed) (he ▸ hm)
    critical := keep_critical hi.critical h
    holder := keep_holder hi.holder h
    uiShown := keep_uiShown hi.uiShown h
    base := keep_base hi h
    held := keep_held hi h
    free := keep_free hi h
    listed := keep_listed hi.listed h
    knownC := keep_knownC hi.listed hi.knownC h
    known := keep_known hi h
    words := fun e hm k f ha => (mem_new (fun e he ha => hi.words e he k f ha)
      (fun e he ha => (hn e he).word hi.knownC ha) (he ▸ hm) ha).imp id (complete_mono h k)
    fresh := fun e hm p ha => (mem_new (fun e he ha => hi.fresh e he p ha)
      (fun e he ha => (hn e he).fresh ha) (he ▸ hm) ha).imp id (fun hp => Nat.lt_of_lt_of_le hp (shown_mono h))
    widgets := keep_widgets hi h
    race := by
      rw [he]
      rcases hq with hq | ⟨t, ht⟩
      · exact hi.race.quiet hq
      · exact raceFree_thread hi.race ht fun e hm => ht e hm ▸ (hn e hm).safe hi }

/-! ### The beginning -/

theorem opening_mem {n : Nat} {e : Ev} (h : e ∈ opening n) : (e.thread = .caller ∧ (e.act = .write .list ∨
    e.act = .write .version ∨ ∃ f, e.act = .write (.shared f))) ∨ e = ⟨.caller, .go .main⟩ ∨ e = ⟨.main, .start⟩ := by
  simp only [opening, List.mem_append, List.mem_cons, List.not_mem_nil, or_false, List.mem_map] at h
  rcases h with ((rfl | rfl) | ⟨f, _, rfl⟩) | rfl | rfl <;> simp

theorem opening_split (n : Nat) : ∃ pre : Trace, opening n = pre ++ [⟨.caller, .go .main⟩, ⟨.main, .start⟩] ∧
    (∀ e ∈ pre, e.thread = .caller) := by
  refine ⟨_, rfl, fun e he => ?_⟩
  simp only [List.mem_append, List.mem_cons, List.not_mem_nil, or_false, List.mem_map] at he
  rcases he with (rfl | rfl) | ⟨f, _, rfl⟩ <;> rfl

theorem inv_init (n : Nat) : Inv (Run.init n) := by
  obtain ⟨pre, hpre, hc⟩ := opening_split n
  have acc : ∀ e ∈ opening n, e.act.loc ≠ none → e.thread = .caller := by
    intro e he hl
    rcases opening_mem he with h | rfl | rfl
    · exact h.1
    · rfl
    · simp [Act.loc] at hl
  have mainKnows : KnowsAll (opening n) .main Base := by
    rw [hpre]
    refine KnowsAll.learn (u := .caller) (KnowsAll.own fun e he _ => hc e he) Learn.go fun e he hb => ?_
    simp only [List.mem_cons, List.not_mem_nil, or_false] at he
    rcases he with rfl | rfl <;> simp [Base, Acc, Act.loc] at hb
  exact {
    chan := fun o => by
      have h1 : sends o (opening n) = 0 := by
        refine List.countP_eq_zero.2 fun e he => ?_
        rcases opening_mem he with ⟨_, h | h | ⟨f, h⟩⟩ | rfl | rfl <;> simp_all
      have h2 : recvs o (opening n) = 0 := by
        refine List.countP_eq_zero.2 fun e he => ?_
        rcases opening_mem he with ⟨_, h | h | ⟨f, h⟩⟩ | rfl | rfl <;> simp_all
      exact h1.trans h2.symm
    allowed := fun e he => by
      rcases opening_mem he with ⟨h0, h | h | ⟨f, h⟩⟩ | rfl | rfl <;> simp_all [Allowed, Act.loc]
    critical := fun k => by simp [Run.init, Critical]
    holder := fun t ht => by simp [Run.init] at ht
    uiShown := fun h => by simp [Run.init] at h
    base := fun t ht => by
      cases t with
      | caller => exact KnowsAll.own fun e _ hb => hb.1
      | main => exact mainKnows
      | _ => simp [Started, Run.init] at ht
    held := fun t ht => by simp [Run.init] at ht
    free := fun _ i e he hg => .inl (by
      rcases hg with hg | ⟨k, hk, _⟩
      · exact ⟨acc e (List.mem_of_getElem? he) (by simp [show e.act.loc = _ from hg]), .inl hg⟩
      · simp [Run.init] at hk)
    listed := fun k hk => by simp [Run.init] at hk
    knownC := fun k hk => by simp [Run.init] at hk
    known := fun k hk => by simp [Run.init] at hk
    words := fun e he k f ha => by
      rcases opening_mem he with ⟨_, h | h | ⟨f, h⟩⟩ | rfl | rfl <;> simp_all [Acc, Act.loc]
    fresh := fun e he p ha => .inl (acc e he (by simp [show e.act.loc = _ from ha]))
    widgets := fun p hp => by simp [Run.init] at hp
    race := by
      rintro i j ⟨hlt, e, f, he, hf, hc, hb, _⟩
      have h1 := acc e (List.mem_of_getElem? he) hc.1
      have h2 := acc f (List.mem_of_getElem? hf) (hc.2.1 ▸ hc.1)
      exact hb (.single (.inl ⟨hlt, e, f, he, hf, h1.trans h2.symm⟩)) }

theorem Reachable.inv {n : Nat} {r : Run} (h : Reachable n r) : Inv r := by
  induction h with
  | init => exact inv_init n
  | step _ hs ih => exact inv_step ih hs

end Osm.RaceTracker
