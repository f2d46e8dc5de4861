import Verif.Spec.Race

/-!
# What a goroutine knows: the part of a trace that happens before whatever it does next
-/

namespace Osm.Race
open Osm.Spec.Race

variable {T L S : Type} [DecidableEq S]

/-- The event at `i` happens before whatever `t` does next. -/
def Knows (tr : List (Event T L S)) (t : T) (i : Nat) : Prop :=
  ∃ j e, tr[j]? = some e ∧ e.thread = t ∧ (i = j ∨ Before tr i j)

theorem get_append {tr evs : List (Event T L S)} {i : Nat} {e : Event T L S} (h : tr[i]? = some e) :
    (tr ++ evs)[i]? = some e := by
  obtain ⟨hi, _⟩ := List.getElem?_eq_some_iff.1 h
  rw [List.getElem?_append_left hi, h]

theorem lt_of_get {tr : List (Event T L S)} {i : Nat} {e : Event T L S} (h : tr[i]? = some e) : i < tr.length :=
  (List.getElem?_eq_some_iff.1 h).1

theorem get_append_lt {tr evs : List (Event T L S)} {i : Nat} (h : i < tr.length) : (tr ++ evs)[i]? = tr[i]? :=
  List.getElem?_append_left h

theorem take_append_lt {tr evs : List (Event T L S)} {i : Nat} (h : i ≤ tr.length) :
    (tr ++ evs).take i = tr.take i := by
  rw [List.take_append_of_le_length h]

theorem program_append {tr evs : List (Event T L S)} {i j : Nat} (h : Program tr i j) : Program (tr ++ evs) i j := by
  obtain ⟨hlt, e, f, he, hf, ht⟩ := h
  exact ⟨hlt, e, f, get_append he, get_append hf, ht⟩

theorem sync_append {tr evs : List (Event T L S)} {i j : Nat} (h : Sync tr i j) : Sync (tr ++ evs) i j := by
  cases h with
  | go hlt h1 h2 => exact .go hlt (get_append h1) (get_append h2)
  | message hlt h1 h2 h3 =>
    refine .message hlt (get_append h1) (get_append h2) ?_
    have := lt_of_get h2
    rw [take_append_lt (by omega), take_append_lt (by omega), h3]
  | close hlt h1 h2 => exact .close hlt (get_append h1) (get_append h2)
  | wait hlt h1 h2 => exact .wait hlt (get_append h1) (get_append h2)
  | pool hlt h1 h2 => exact .pool hlt (get_append h1) (get_append h2)
  | mutex hlt h1 h2 => exact .mutex hlt (get_append h1) (get_append h2)
  | reader hlt h1 h2 => exact .reader hlt (get_append h1) (get_append h2)
  | readers hlt h1 h2 => exact .readers hlt (get_append h1) (get_append h2)
  | observe hlt h1 h2 h3 =>
    refine .observe hlt (get_append h1) (get_append h2) fun k v hik hkj => ?_
    have := lt_of_get h2
    rw [get_append_lt (by omega)]
    exact h3 k v hik hkj

theorem before_append {tr evs : List (Event T L S)} {i j : Nat} (h : Before tr i j) : Before (tr ++ evs) i j := by
  induction h with
  | single h => exact .single (h.imp program_append sync_append)
  | tail _ h ih => exact .tail ih (h.imp program_append sync_append)

theorem sync_lt {tr : List (Event T L S)} {i j : Nat} (h : Sync tr i j) : i < j := by
  cases h <;> assumption

theorem before_lt {tr : List (Event T L S)} {i j : Nat} (h : Before tr i j) : i < j := by
  induction h with
  | single h => exact h.elim (·.1) sync_lt
  | tail _ h ih => exact Nat.lt_trans ih (h.elim (·.1) sync_lt)

theorem Knows.append {tr evs : List (Event T L S)} {t : T} {i : Nat} (h : Knows tr t i) : Knows (tr ++ evs) t i := by
  obtain ⟨j, e, h1, h2, h3⟩ := h
  exact ⟨j, e, get_append h1, h2, h3.imp id before_append⟩

theorem Knows.own {tr : List (Event T L S)} {i : Nat} {e : Event T L S} (h : tr[i]? = some e) : Knows tr e.thread i :=
  ⟨i, e, h, rfl, .inl rfl⟩

/-- What a goroutine knows happens before any later event of its. -/
theorem Knows.before {tr : List (Event T L S)} {t : T} {i n : Nat} {e : Event T L S} (h : Knows tr t i)
    (hn : tr.length ≤ n) {tr' : List (Event T L S)} (he : (tr ++ tr')[n]? = some e) (ht : e.thread = t) :
    Before (tr ++ tr') i n := by
  obtain ⟨j, f, h1, h2, h3⟩ := h
  have hp : Before (tr ++ tr') j n :=
    .single (.inl ⟨by have := lt_of_get h1; omega, f, e, get_append h1, he, h2.trans ht.symm⟩)
  rcases h3 with rfl | h3
  · exact hp
  · exact .trans (before_append h3) hp

/-- The same, up to an event that is already there and is the last one of its goroutine. -/
theorem Knows.before_last {tr : List (Event T L S)} {t : T} {i d : Nat} {e : Event T L S} (h : Knows tr t i)
    (he : tr[d]? = some e) (ht : e.thread = t) (hd : ∀ j f, tr[j]? = some f → f.thread = t → j ≤ d) :
    i = d ∨ Before tr i d := by
  obtain ⟨j, f, h1, h2, h3⟩ := h
  rcases Nat.lt_or_eq_of_le (hd j f h1 h2) with hlt | rfl
  · have hp : Before tr j d := .single (.inl ⟨hlt, f, e, h1, he, h2.trans ht.symm⟩)
    rcases h3 with rfl | h3
    · exact .inr hp
    · exact .inr (.trans h3 hp)
  · exact h3

/-- `t` learns everything that `u` knows. -/
def Learn (tr tr' : List (Event T L S)) (t u : T) : Prop := ∀ i, Knows tr u i → Knows tr' t i

theorem Learn.self {tr : List (Event T L S)} (evs : List (Event T L S)) (t : T) : Learn tr (tr ++ evs) t t :=
  fun _ h => h.append

theorem get_last (tr : List (Event T L S)) (e : Event T L S) : (tr ++ [e])[tr.length]? = some e := by
  simp

theorem get_pair0 (tr : List (Event T L S)) (e f : Event T L S) : (tr ++ [e, f])[tr.length]? = some e := by
  simp

theorem get_pair1 (tr : List (Event T L S)) (e f : Event T L S) : (tr ++ [e, f])[tr.length + 1]? = some f := by
  simp

/-- Two events in a row, the first synchronized before the second. -/
theorem Learn.pair {tr : List (Event T L S)} {e f : Event T L S}
    (h : Sync (tr ++ [e, f]) tr.length (tr.length + 1)) : Learn tr (tr ++ [e, f]) f.thread e.thread := by
  intro i hi
  refine ⟨tr.length + 1, f, get_pair1 .., rfl, .inr ?_⟩
  exact .tail (hi.before (Nat.le_refl _) (get_pair0 ..) rfl) (.inr h)

theorem Learn.message {tr : List (Event T L S)} {t u : T} {c : S} (h : sends c tr = recvs c tr) :
    Learn tr (tr ++ [⟨u, .send c⟩, ⟨t, .recv c⟩]) t u := by
  refine Learn.pair (.message (by omega) (get_pair0 ..) (get_pair1 ..) ?_)
  have e1 : (tr ++ [⟨u, .send c⟩, ⟨t, .recv c⟩] : List (Event T L S)).take tr.length = tr := by simp
  have e2 : (tr ++ [⟨u, .send c⟩, ⟨t, .recv c⟩] : List (Event T L S)).take (tr.length + 1) = tr ++ [⟨u, .send c⟩] := by
    rw [List.take_append, List.take_of_length_le (by omega)]
    simp
  rw [e1, e2, h]
  simp [recvs, List.countP_append]

theorem Learn.go {tr : List (Event T L S)} {t u : T} :
    Learn tr (tr ++ [⟨u, .go t⟩, ⟨t, .start⟩]) t u :=
  Learn.pair (.go (by omega) (get_pair0 ..) (get_pair1 ..))

/-- A new event that an old one, the last of its goroutine, is synchronized before. -/
theorem Learn.last {tr : List (Event T L S)} {f : Event T L S} {u : T} {d : Nat} {e : Event T L S}
    (he : tr[d]? = some e) (ht : e.thread = u) (hd : ∀ j f, tr[j]? = some f → f.thread = u → j ≤ d)
    (h : Sync (tr ++ [f]) d tr.length) : Learn tr (tr ++ [f]) f.thread u := by
  intro i hi
  refine ⟨tr.length, f, get_last .., rfl, .inr ?_⟩
  rcases hi.before_last he ht hd with rfl | hb
  · exact .single (.inr h)
  · exact .tail (before_append hb) (.inr h)

/-- `t` knows all events of the given kind. -/
def KnowsAll (tr : List (Event T L S)) (t : T) (P : Event T L S → Prop) : Prop :=
  ∀ i e, tr[i]? = some e → P e → Knows tr t i

theorem KnowsAll.own {tr : List (Event T L S)} {t : T} {P : Event T L S → Prop}
    (h : ∀ e ∈ tr, P e → e.thread = t) : KnowsAll tr t P := fun _ _ he hp =>
  h _ (List.mem_of_getElem? he) hp ▸ Knows.own he

theorem KnowsAll.mono {tr : List (Event T L S)} {t : T} {P Q : Event T L S → Prop} (h : KnowsAll tr t P)
    (hq : ∀ e ∈ tr, Q e → P e) : KnowsAll tr t Q := fun i e he hp => h i e he (hq e (List.mem_of_getElem? he) hp)

theorem KnowsAll.learn {tr evs : List (Event T L S)} {t u : T} {P : Event T L S → Prop} (h : KnowsAll tr u P)
    (hl : Learn tr (tr ++ evs) t u) (hn : ∀ e ∈ evs, P e → e.thread = t) : KnowsAll (tr ++ evs) t P := by
  intro i e he hp
  by_cases hi : i < tr.length
  · rw [get_append_lt hi] at he
    exact hl i (h i e he hp)
  · have hm : e ∈ evs := by
      rw [List.getElem?_append_right (by omega)] at he
      exact List.mem_of_getElem? he
    exact hn e hm hp ▸ Knows.own he

theorem KnowsAll.append {tr evs : List (Event T L S)} {t : T} {P : Event T L S → Prop} (h : KnowsAll tr t P)
    (hn : ∀ e ∈ evs, P e → e.thread = t) : KnowsAll (tr ++ evs) t P := h.learn (Learn.self evs t) hn

/-- `t` may make this access next. -/
def Safe (tr : List (Event T L S)) (t : T) (a : Act T L S) : Prop :=
  KnowsAll tr t fun e => Conflict e.act a

/-- No access races with another. -/
def RaceFree (tr : List (Event T L S)) : Prop := ∀ i j, ¬ Race tr i j

theorem RaceFree.quiet {tr evs : List (Event T L S)} (h : RaceFree tr) (hq : ∀ e ∈ evs, e.act.loc = none) :
    RaceFree (tr ++ evs) := by
  rintro i j ⟨hlt, e, f, he, hf, hc, hb, hb'⟩
  have hj : j < tr.length := by
    apply Classical.byContradiction
    intro hj
    rw [List.getElem?_append_right (by omega)] at hf
    exact hc.1 (hc.2.1.trans (hq f (List.mem_of_getElem? hf)))
  rw [get_append_lt hj] at hf
  rw [get_append_lt (by omega)] at he
  exact h i j ⟨hlt, e, f, he, hf, hc, fun h => hb (before_append h), fun h => hb' (before_append h)⟩

/-- Races of a longer trace, if the last event may be made. -/
theorem race_snoc {tr : List (Event T L S)} {f : Event T L S} {i j : Nat} (hs : Safe tr f.thread f.act)
    (h : Race (tr ++ [f]) i j) : Race tr i j := by
  obtain ⟨hlt, e, g, he, hg, hc, hb, hb'⟩ := h
  have hj := lt_of_get hg
  rw [List.length_append, List.length_singleton] at hj
  rcases Nat.lt_or_eq_of_le (Nat.le_of_lt_succ hj) with hj | rfl
  · rw [get_append_lt hj] at hg
    rw [get_append_lt (by omega)] at he
    exact ⟨hlt, e, g, he, hg, hc, fun h => hb (before_append h), fun h => hb' (before_append h)⟩
  · rw [get_last] at hg
    cases hg
    rw [get_append_lt hlt] at he
    exact absurd ((hs i e he hc).before (Nat.le_refl _) (get_last ..) rfl) hb

theorem race_quiet {tr evs : List (Event T L S)} {i j : Nat} (hq : ∀ e ∈ evs, e.act.loc = none)
    (h : Race (tr ++ evs) i j) : Race tr i j := by
  obtain ⟨hlt, e, f, he, hf, hc, hb, hb'⟩ := h
  have hj : j < tr.length := by
    apply Classical.byContradiction
    intro hj
    rw [List.getElem?_append_right (by omega)] at hf
    exact hc.1 (hc.2.1.trans (hq f (List.mem_of_getElem? hf)))
  rw [get_append_lt hj] at hf
  rw [get_append_lt (by omega)] at he
  exact ⟨hlt, e, f, he, hf, hc, fun h => hb (before_append h), fun h => hb' (before_append h)⟩

end Osm.Race
