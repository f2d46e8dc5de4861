import Verif.Spec.NodeIndex

namespace Osm.NodeIndex
open Osm Osm.Spec

theorem count_eq (e : IndexElement) : e.Count.toNat = rCount e := by
  unfold IndexElement.Count coCount rCount
  rw [UInt64.toNat_and]
  exact Nat.and_two_pow_sub_one_eq_mod _ 24

theorem offset_eq (e : IndexElement) : e.Offset.toNat = rOffset e := by
  unfold IndexElement.Offset coOffset rOffset
  rw [UInt64.toNat_shiftRight, Nat.shiftRight_eq_div_pow]
  rfl

theorem rCount_lt (e : IndexElement) : rCount e < 2 ^ 24 := Nat.mod_lt _ (by decide)
theorem rOffset_lt (e : IndexElement) : rOffset e < 2 ^ 40 := by
  unfold rOffset
  have := e.countOffset.toNat_lt
  omega
theorem rFirst_lt (e : IndexElement) : rFirst e < 2 ^ 64 := e.baseId.toNat_lt

theorem last_eq (e : IndexElement) (h1 : 1 ≤ rCount e) (h2 : rFirst e + rCount e ≤ 2 ^ 64) :
    e.LastID.toNat = rFirst e + rCount e - 1 := by
  unfold IndexElement.LastID IndexElement.FirstID
  rw [UInt64.toNat_sub, UInt64.toNat_add, count_eq]
  rw [show (1 : UInt64).toNat = 1 from rfl]
  have := rFirst_lt e
  have : e.baseId.toNat = rFirst e := rfl
  omega

theorem compareId_eq (e : IndexElement) (id : UInt64) (h1 : 1 ≤ rCount e)
    (h2 : rFirst e + rCount e ≤ 2 ^ 64) :
    e.compareId id = if id.toNat < rFirst e then -1 else if rFirst e + rCount e ≤ id.toNat then 1 else 0 := by
  unfold IndexElement.compareId
  have hl := last_eq e h1 h2
  simp only [UInt64.lt_iff_toNat_lt, hl, IndexElement.FirstID, gt_iff_lt]
  have : e.baseId.toNat = rFirst e := rfl
  rw [this]
  have : (rFirst e + rCount e - 1 < id.toNat) ↔ rFirst e + rCount e ≤ id.toNat := by omega
  simp only [this]

theorem contains_eq (e : IndexElement) (id : UInt64) (h1 : 1 ≤ rCount e)
    (h2 : rFirst e + rCount e ≤ 2 ^ 64) : e.contains id = true ↔ rHas e id.toNat := by
  unfold IndexElement.contains rHas
  have hl := last_eq e h1 h2
  simp only [Bool.and_eq_true, decide_eq_true_eq, UInt64.le_iff_toNat_le, hl, IndexElement.FirstID,
    ge_iff_le]
  have : e.baseId.toNat = rFirst e := rfl
  rw [this]
  omega

theorem offsetForID_eq (e : IndexElement) (id : UInt64) (h1 : 1 ≤ rCount e)
    (h2 : rFirst e + rCount e ≤ 2 ^ 64) (h : rHas e id.toNat) :
    ∃ o, e.OffsetForID id = .ok o ∧ o.toNat = rOffset e + (id.toNat - rFirst e) := by
  unfold IndexElement.OffsetForID
  rw [(contains_eq e id h1 h2).2 h]
  refine ⟨_, rfl, ?_⟩
  have := rOffset_lt e
  have := rCount_lt e
  have := id.toNat_lt
  have e1 : e.baseId.toNat = rFirst e := rfl
  unfold rHas at h
  simp only [UInt64.toNat_add, UInt64.toNat_sub, IndexElement.FirstID, offset_eq, e1]
  omega

/-- The slot of an id in a range. -/
theorem loc_ok {es : List IndexElement} {locs : List Int64} (wf : WellFormed es locs)
    {e : IndexElement} (he : e ∈ es) (id : UInt64) (h : rHas e id.toNat) :
    ∃ o l, e.OffsetForID id = .ok o ∧ locAt locs o = .ok l ∧
      locs[rOffset e + (id.toNat - rFirst e)]? = some l := by
  obtain ⟨o, h1, h2⟩ := offsetForID_eq e id (wf.nonempty e he) (wf.ids e he) h
  have := wf.slots e he
  unfold rHas at h
  have hlt : rOffset e + (id.toNat - rFirst e) < locs.length := by omega
  refine ⟨o, locs[rOffset e + (id.toNat - rFirst e)], h1, ?_, List.getElem?_eq_getElem hlt⟩
  unfold locAt
  rw [h2, List.getElem?_eq_getElem hlt]
  rfl

/-- Only one range contains an id. -/
theorem rHas_unique {es : List IndexElement} {locs : List Int64} (wf : WellFormed es locs)
    {a b : IndexElement} (ha : a ∈ es) (hb : b ∈ es) {id : Nat} (h1 : rHas a id) (h2 : rHas b id) :
    a = b := by
  have hs := wf.sorted
  clear wf
  unfold rHas at h1 h2
  induction es with
  | nil => simp at ha
  | cons e es ih =>
    rw [List.pairwise_cons] at hs
    rcases List.mem_cons.1 ha with rfl | ha' <;> rcases List.mem_cons.1 hb with rfl | hb'
    · rfl
    · have := hs.1 _ hb'; omega
    · have := hs.1 _ ha'; omega
    · exact ih ha' hb' hs.2

theorem hasLoc_unique {es : List IndexElement} {locs : List Int64} (wf : WellFormed es locs)
    {id : Nat} {l l' : Int64} (h : HasLoc es locs id l) (h' : HasLoc es locs id l') : l = l' := by
  obtain ⟨a, ha, ha1, ha2, _⟩ := h
  obtain ⟨b, hb, hb1, hb2, _⟩ := h'
  have := rHas_unique wf ha hb ha1 hb1
  subst this
  rw [ha2] at hb2
  simpa using hb2

/-- The order of ranges by index. -/
theorem sorted_get {es : List IndexElement} {locs : List Int64} (wf : WellFormed es locs)
    {i j : Nat} (hij : i < j) (hj : j < es.length) :
    rFirst es[i] + rCount es[i] ≤ rFirst es[j] :=
  (List.pairwise_iff_getElem.1 wf.sorted) i j (by omega) hj hij

/-- Everything below `lo` ends before the id, everything from `hi` starts after it. -/
def Bracket (es : List IndexElement) (id : Nat) (lo hi : Nat) : Prop :=
  (∀ k (hk : k < es.length), k < lo → rFirst es[k] + rCount es[k] ≤ id) ∧
  (∀ k (hk : k < es.length), hi ≤ k → id < rFirst es[k])

theorem search_ok {es : List IndexElement} {locs : List Int64} (wf : WellFormed es locs) (id : UInt64) :
    ∀ (fuel lo hi : Nat), hi - lo < fuel → lo ≤ hi → hi ≤ es.length → Bracket es id.toNat lo hi →
    ∃ p, search es id fuel lo hi = .ok p ∧ p ≤ es.length ∧
      ∀ k (hk : k < es.length), rHas es[k] id.toNat → k = p := by
  intro fuel
  induction fuel with
  | zero => intro lo hi h; omega
  | succ fuel ih =>
    intro lo hi hf hle hhi hb
    unfold search
    rcases Nat.lt_or_ge lo hi with hlt | hge
    · rw [if_pos hlt]
      have hm : (lo + hi) / 2 < es.length := by omega
      have hmem : es[(lo + hi) / 2] ∈ es := List.getElem_mem hm
      dsimp only
      rw [List.getElem?_eq_getElem hm]
      simp only [Res.ofOption_some, Res.ok_bind]
      rw [compareId_eq _ id (wf.nonempty _ hmem) (wf.ids _ hmem)]
      by_cases h1 : id.toNat < rFirst es[(lo + hi) / 2]
      · rw [if_pos h1, if_pos (by decide)]
        refine ih lo _ (by omega) (by omega) (by omega) ⟨hb.1, fun k hk hk2 => ?_⟩
        rcases Nat.lt_or_ge ((lo + hi) / 2) k with h | h
        · have := sorted_get wf h hk
          have := wf.nonempty _ hmem
          omega
        · have : k = (lo + hi) / 2 := by omega
          subst this; exact h1
      · rw [if_neg h1]
        by_cases h2 : rFirst es[(lo + hi) / 2] + rCount es[(lo + hi) / 2] ≤ id.toNat
        · rw [if_pos h2, if_neg (by decide), if_neg (by decide)]
          refine ih _ hi (by omega) (by omega) hhi ⟨fun k hk hk2 => ?_, hb.2⟩
          rcases Nat.lt_or_ge k ((lo + hi) / 2) with h | h
          · have := sorted_get wf h hm
            omega
          · have : k = (lo + hi) / 2 := by omega
            subst this; exact h2
        · rw [if_neg h2, if_neg (by decide), if_pos (by decide)]
          refine ⟨_, rfl, by omega, fun k hk hh => ?_⟩
          unfold rHas at hh
          rcases Nat.lt_trichotomy k ((lo + hi) / 2) with h | h | h
          · have := sorted_get wf h hm; omega
          · exact h
          · have := sorted_get wf h hk; omega
    · rw [if_neg (by omega)]
      refine ⟨lo, rfl, by omega, fun k hk hh => ?_⟩
      unfold rHas at hh
      rcases Nat.lt_or_ge k lo with h | h
      · have := hb.1 k hk h; omega
      · have := hb.2 k hk (by omega); omega

/-- What a lookup must return. -/
def Correct (si : SubIdx) (id : UInt64) (hint : Int) (r : Found) : Prop :=
  (r.ok = true → HasLoc si.element si.locations id.toNat r.loc) ∧
  (r.ok = false → r.loc = 0 ∧ ∀ l, ¬ HasLoc si.element si.locations id.toNat l) ∧
  (r.hint = hint ∨ (0 ≤ r.hint ∧ r.hint < si.element.length)) ∧
  r.counted.length = 1

theorem not_hasLoc_of_no_range {es : List IndexElement} {locs : List Int64} {id : Nat}
    (h : ∀ e ∈ es, ¬ rHas e id) (l : Int64) : ¬ HasLoc es locs id l := by
  rintro ⟨e, he, h1, _⟩
  exact h e he h1

theorem correct_hit {si : SubIdx} (wf : WellFormed si.element si.locations) {k : Nat}
    (hk : k < si.element.length) (id : UInt64) (hint : Int) (hh : rHas si.element[k] id.toNat)
    {o : UInt64} {l : Int64} (h3 : si.locations[rOffset si.element[k] + (id.toNat - rFirst si.element[k])]? = some l)
    (c : Counter) (h' : Int) (hh' : h' = k) : Correct si id hint ⟨l, h', l ≠ 0, [c]⟩ := by
  have hmem : si.element[k] ∈ si.element := List.getElem_mem hk
  refine ⟨fun h => ?_, fun h => ?_, Or.inr ?_, rfl⟩
  · exact ⟨_, hmem, hh, h3, by simpa using h⟩
  · have hz : l = 0 := by simpa using h
    refine ⟨hz, ?_⟩
    rintro l' ⟨e, he, h5, h6, h7⟩
    have := rHas_unique wf hmem he hh h5
    subst this
    rw [h3] at h6
    simp only [Option.some.injEq] at h6
    exact h7 (h6 ▸ hz)
  · subst hh'
    dsimp only
    omega

theorem findBetween_ok {si : SubIdx} (wf : WellFormed si.element si.locations) (id : UInt64) (hint : Int)
    (lo hi : Nat) (h1 : lo ≤ hi) (h2 : hi ≤ si.element.length)
    (hb : Bracket si.element id.toNat lo hi) :
    ∃ r, si.findBetween id hint lo hi = .ok r ∧ Correct si id hint r := by
  obtain ⟨p, hp, hple, hu⟩ := search_ok wf id (si.element.length + 1) lo hi (by omega) h1 h2 hb
  have miss : (∀ e ∈ si.element, ¬ rHas e id.toNat) →
      Correct si id hint ⟨0, hint, false, [.missDefault]⟩ := fun h =>
    ⟨fun h => by simp at h, fun _ => ⟨rfl, not_hasLoc_of_no_range h⟩, Or.inl rfl, rfl⟩
  unfold SubIdx.findBetween
  rw [hp]
  simp only [Res.ok_bind]
  rcases Nat.lt_or_ge p si.element.length with hlt | hge
  · rw [List.getElem?_eq_getElem hlt]
    have hmem : si.element[p] ∈ si.element := List.getElem_mem hlt
    dsimp only
    by_cases hc : rHas si.element[p] id.toNat
    · rw [(contains_eq _ id (wf.nonempty _ hmem) (wf.ids _ hmem)).2 hc]
      obtain ⟨o, l, e1, e2, e3⟩ := loc_ok wf hmem id hc
      simp only [Bool.not_true, Bool.false_eq_true, if_false, e1, Res.ok_bind, e2]
      exact ⟨_, rfl, correct_hit wf hlt id hint hc (o := o) e3 _ _ rfl⟩
    · have hf : si.element[p].contains id = false := by
        rw [← Bool.not_eq_true]
        exact fun h => hc ((contains_eq _ id (wf.nonempty _ hmem) (wf.ids _ hmem)).1 h)
      rw [hf]
      refine ⟨_, rfl, miss fun e he hh => ?_⟩
      obtain ⟨k, hk, rfl⟩ := List.getElem_of_mem he
      have := hu k hk hh
      subst this
      exact hc hh
  · rw [List.getElem?_eq_none hge]
    refine ⟨_, rfl, miss fun e he hh => ?_⟩
    obtain ⟨k, hk, rfl⟩ := List.getElem_of_mem he
    have := hu k hk hh
    omega

theorem findNode_ok {si : SubIdx} (hw : WellFormedSub si) (id : UInt64) (hint : Int) (hh : 0 ≤ hint) :
    ∃ r, si.findNode id hint = .ok r ∧ Correct si id hint r := by
  obtain ⟨wf, ht⟩ := hw
  unfold SubIdx.findNode
  by_cases h1 : id > si.Top
  · rw [if_pos h1]
    refine ⟨_, rfl, fun h => by simp at h, fun _ => ⟨rfl, not_hasLoc_of_no_range ?_⟩, Or.inl rfl, rfl⟩
    intro e he h
    have := ht e he
    have h1 : si.Top.toNat < id.toNat := UInt64.lt_iff_toNat_lt.1 h1
    unfold rHas at h
    omega
  · rw [if_neg h1]
    have trivialBr : Bracket si.element id.toNat 0 si.element.length :=
      ⟨fun k _ h => by omega, fun k _ h => by omega⟩
    by_cases h2 : hint < si.element.length
    · rw [if_pos h2, if_neg (by omega)]
      have hk : hint.toNat < si.element.length := by omega
      have hmem : si.element[hint.toNat] ∈ si.element := List.getElem_mem hk
      rw [List.getElem?_eq_getElem hk]
      simp only [Res.ofOption_some, Res.ok_bind]
      rw [compareId_eq _ id (wf.nonempty _ hmem) (wf.ids _ hmem)]
      by_cases h3 : id.toNat < rFirst si.element[hint.toNat]
      · rw [if_pos h3, if_pos rfl]
        refine findBetween_ok wf id hint _ _ (by omega) (by omega) ⟨fun k _ h => by omega, fun k hk2 h => ?_⟩
        rcases Nat.lt_or_ge hint.toNat k with h' | h'
        · have := sorted_get wf h' hk2
          omega
        · have : k = hint.toNat := by omega
          subst this; exact h3
      · rw [if_neg h3]
        by_cases h4 : rFirst si.element[hint.toNat] + rCount si.element[hint.toNat] ≤ id.toNat
        · rw [if_pos h4, if_neg (by decide), if_neg (by decide)]
          refine findBetween_ok wf id hint _ _ (by omega) (by omega) ⟨fun k hk2 h => ?_, fun k _ h => by omega⟩
          have := sorted_get wf h hk
          omega
        · rw [if_neg h4, if_neg (by decide), if_pos rfl]
          have hr : rHas si.element[hint.toNat] id.toNat := by unfold rHas; omega
          obtain ⟨o, l, e1, e2, e3⟩ := loc_ok wf hmem id hr
          rw [e1]
          simp only [Res.ok_bind]
          rw [e2]
          simp only [Res.ok_bind]
          exact ⟨_, rfl, correct_hit wf hk id hint hr (o := o) e3 _ _ (by omega)⟩
    · rw [if_neg h2]
      exact findBetween_ok wf id hint _ _ (by omega) (by omega) trivialBr

end Osm.NodeIndex
