import Verif.Spec.Pbf

namespace Osm.Pbf
open Osm Osm.Spec

variable {O : Type}

theorem lookup_filter (l : Held O) (k i : Nat) :
    (l.filter (fun p => !(p.1 == k))).lookup i = if i = k then none else l.lookup i := by
  induction l with
  | nil => simp
  | cons p l ih =>
    obtain ⟨a, o⟩ := p
    by_cases ha : a = k
    · subst ha
      rw [List.filter_cons_of_neg (by simp), ih]
      by_cases hi : i = a
      · simp [hi]
      · rw [if_neg hi, if_neg hi, List.lookup_cons, beq_false_of_ne hi]
    · rw [List.filter_cons_of_pos (by simp [ha]), List.lookup_cons, ih, List.lookup_cons]
      by_cases hia : i = a
      · subst hia
        simp [ha]
      · rw [beq_false_of_ne hia]

theorem lookup_insert (l : Held O) (k i : Nat) (o : O) :
    (l.insert k o).lookup i = if i = k then some o else l.lookup i := by
  unfold Held.insert
  rw [List.lookup_cons, lookup_filter]
  by_cases h : i = k
  · simp [h]
  · rw [beq_false_of_ne h]
    simp [h]

theorem lookup_none_filter (l : Held O) (k : Nat) (h : l.lookup k = none) :
    l.filter (fun p => !(p.1 == k)) = l := by
  rw [List.filter_eq_self]
  intro p hp
  rw [List.lookup_eq_none_iff] at h
  have := h p hp
  rw [bne_iff_ne] at this
  simp only [Bool.not_eq_eq_eq_not, Bool.not_true, beq_eq_false_iff_ne]
  exact fun e => this e.symm

theorem nodup_filter (l : Held O) (h : (l.map (·.1)).Nodup) (q : Nat × O → Bool) :
    ((l.filter q).map (·.1)).Nodup :=
  (List.Sublist.map _ (List.filter_sublist)).nodup h

theorem length_filter (l : Held O) (h : (l.map (·.1)).Nodup) (k : Nat) (o : O) (hk : l.lookup k = some o) :
    (l.filter (fun p => !(p.1 == k))).length + 1 = l.length := by
  induction l with
  | nil => simp at hk
  | cons p l ih =>
    obtain ⟨a, o'⟩ := p
    simp only [List.map_cons, List.nodup_cons] at h
    by_cases ha : a = k
    · subst ha
      have hn : l.lookup a = none := by
        rw [List.lookup_eq_none_iff]
        intro p hp
        rw [bne_iff_ne]
        rintro rfl
        exact h.1 (List.mem_map_of_mem hp)
      rw [List.filter_cons_of_neg (by simp), lookup_none_filter l a hn, List.length_cons]
    · rw [List.filter_cons_of_pos (by simp [ha]), List.length_cons, List.length_cons, ih h.2]
      rw [List.lookup_cons, beq_false_of_ne (fun e => ha e.symm)] at hk
      exact hk

theorem pop_some {l l' : Held O} {k : Nat} {o : O} (h : l.pop k = some (o, l')) :
    l.lookup k = some o ∧ l' = l.filter (fun p => !(p.1 == k)) := by
  unfold Held.pop at h
  split at h
  · next o' ho => cases h; exact ⟨ho, rfl⟩
  · cases h

theorem pop_none {l : Held O} {k : Nat} (h : l.pop k = none) : l.lookup k = none := by
  unfold Held.pop at h
  split at h
  · cases h
  · next ho => exact ho

/-- What the reorderer knows after receiving `seen` and sending `out`. -/
structure RInv (seen : List (Nat × O)) (rob : Held O) (next : Nat) (out : List O) : Prop where
  nodup : (rob.map (·.1)).Nodup
  held : ∀ i, rob.lookup i = if i < next then none else seen.lookup i
  sent : out.map some = (List.range next).map (fun i => seen.lookup i)
  count : rob.length + next = seen.length

theorem RInv.init : RInv ([] : List (Nat × O)) [] 0 [] :=
  ⟨by simp, by simp, by simp, by simp⟩

theorem RInv.seen_some {seen : List (Nat × O)} {rob : Held O} {next : Nat} {out : List O}
    (h : RInv seen rob next out) (i : Nat) (hi : i < next) : ∃ o, seen.lookup i = some o := by
  have hl : out.length = next := by simpa using congrArg List.length h.sent
  have := congrArg (fun l => l[i]?) h.sent
  simp only [List.getElem?_map, List.getElem?_range hi, Option.map_some] at this
  rw [List.getElem?_eq_getElem (by omega)] at this
  simp only [Option.map_some, Option.some.injEq] at this
  exact ⟨_, this.symm⟩

theorem RInv.insert {seen : List (Nat × O)} {rob : Held O} {next : Nat} {out : List O}
    (h : RInv seen rob next out) (i : Nat) (o : O) (hi : seen.lookup i = none) :
    RInv (seen ++ [(i, o)]) (rob.insert i o) next out := by
  have hge : ¬ i < next := by
    intro hlt
    obtain ⟨o', ho⟩ := h.seen_some i hlt
    rw [hi] at ho; cases ho
  have hr : rob.lookup i = none := by rw [h.held, if_neg hge, hi]
  have hl : ∀ j, (seen ++ [(i, o)]).lookup j = if j = i then some o else seen.lookup j := by
    intro j
    rw [List.lookup_append]
    by_cases hj : j = i
    · subst hj; simp [hi]
    · rw [List.lookup_cons, beq_false_of_ne hj]
      simp [hj]
  refine ⟨?_, ?_, ?_, ?_⟩
  · unfold Held.insert
    rw [lookup_none_filter rob i hr, List.map_cons, List.nodup_cons]
    refine ⟨?_, h.nodup⟩
    intro hm
    obtain ⟨p, hp, hpi⟩ := List.mem_map.1 hm
    rw [List.lookup_eq_none_iff] at hr
    have := hr p hp
    rw [bne_iff_ne] at this
    exact this hpi.symm
  · intro j
    rw [lookup_insert, hl]
    by_cases hj : j = i
    · subst hj; simp [hge]
    · rw [if_neg hj, if_neg hj, h.held]
  · rw [h.sent]
    apply List.map_congr_left
    intro j hj
    rw [hl, if_neg]
    rintro rfl
    exact hge (List.mem_range.1 hj)
  · unfold Held.insert
    rw [lookup_none_filter rob i hr, List.length_cons, List.length_append, List.length_singleton, ← h.count]
    omega

theorem RInv.pop {seen : List (Nat × O)} {rob rob' : Held O} {next : Nat} {out : List O} {o : O}
    (h : RInv seen rob next out) (hp : rob.pop next = some (o, rob')) :
    RInv seen rob' (next + 1) (out ++ [o]) := by
  obtain ⟨ho, rfl⟩ := pop_some hp
  have hs : seen.lookup next = some o := by
    have := h.held next
    rw [if_neg (by omega), ho] at this
    exact this.symm
  refine ⟨nodup_filter _ h.nodup _, ?_, ?_, ?_⟩
  · intro i
    rw [lookup_filter, h.held]
    by_cases h1 : i = next
    · simp [h1]
    · rw [if_neg h1]
      by_cases h2 : i < next
      · rw [if_pos h2, if_pos (by omega)]
      · rw [if_neg h2, if_neg (by omega)]
  · rw [List.map_append, h.sent, List.range_succ, List.map_append]
    simp [hs]
  · have := length_filter rob h.nodup next o ho
    have := h.count
    omega

theorem drain_inv : ∀ (fuel : Nat) (seen : List (Nat × O)) (rob : Held O) (next : Nat) (out : List O),
    RInv seen rob next out → rob.length < fuel →
    RInv seen (drain fuel rob next).2.1 (drain fuel rob next).2.2 (out ++ (drain fuel rob next).1) ∧
    seen.lookup (drain fuel rob next).2.2 = none
  | 0, _, _, _, _, _, hf => by omega
  | fuel + 1, seen, rob, next, out, h, hf => by
    unfold drain
    cases hp : rob.pop next with
    | none =>
      have := pop_none hp
      rw [h.held, if_neg (by omega)] at this
      exact ⟨by simpa using h, this⟩
    | some r =>
      obtain ⟨o, rob'⟩ := r
      have h' := h.pop hp
      have hlen : rob'.length < fuel := by
        have := h.count
        have := h'.count
        omega
      have ih := drain_inv fuel seen rob' (next + 1) (out ++ [o]) h' hlen
      simpa using ih

theorem reorderLoop_inv : ∀ (arrivals seen : List (Nat × O)) (rob : Held O) (next : Nat) (out : List O),
    RInv seen rob next out → seen.lookup next = none → ((seen ++ arrivals).map (·.1)).Nodup →
    ∃ next', RInv (seen ++ arrivals) (reorderLoop rob next arrivals).2 next'
      (out ++ (reorderLoop rob next arrivals).1) ∧ (seen ++ arrivals).lookup next' = none
  | [], seen, rob, next, out, h, hn, _ => ⟨next, by simpa [reorderLoop] using h, by simpa using hn⟩
  | (i, o) :: arrivals, seen, rob, next, out, h, _, hd => by
    have hi : seen.lookup i = none := by
      rw [List.lookup_eq_none_iff]
      intro p hp
      simp only [List.map_append, List.map_cons, List.nodup_append] at hd
      rw [bne_iff_ne]
      intro e
      exact hd.2.2 p.1 (List.mem_map_of_mem hp) i (by simp) e.symm
    have h1 := h.insert i o hi
    obtain ⟨h2, h3⟩ := drain_inv _ _ _ _ _ h1 (Nat.lt_succ_self _)
    have ih := reorderLoop_inv arrivals (seen ++ [(i, o)]) _ _ _ h2 h3 (by simpa using hd)
    obtain ⟨next', h4, h5⟩ := ih
    refine ⟨next', ?_, by simpa using h5⟩
    unfold reorderLoop
    simpa using h4

end Osm.Pbf
