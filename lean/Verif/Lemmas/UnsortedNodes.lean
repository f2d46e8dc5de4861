import Verif.Spec.Unsorted
import Verif.Lemmas.NodeOutput
import Verif.Lemmas.SubIndex

/-! # The node index of a source in any order -/

namespace Osm.NodeIndex
open Osm Osm.Spec

/-- Non-empty ranges whose slots exist, in any order. -/
structure Usable (es : List IndexElement) (locs : List Int64) : Prop where
  nonempty : ∀ e ∈ es, 1 ≤ rCount e
  ids : ∀ e ∈ es, rFirst e + rCount e ≤ 2 ^ 64
  slots : ∀ e ∈ es, rOffset e + rCount e ≤ locs.length

/-- The ranges do not go down; the last id of one may be the first of the next. -/
def Climbs (es : List IndexElement) : Prop := es.Pairwise fun a b => rFirst a + rCount a ≤ rFirst b + 1

theorem WellFormed.usable {es : List IndexElement} {locs : List Int64} (h : WellFormed es locs) : Usable es locs :=
  ⟨h.nonempty, h.ids, h.slots⟩

theorem Usable.loc {es : List IndexElement} {locs : List Int64} (u : Usable es locs)
    {e : IndexElement} (he : e ∈ es) (id : UInt64) (h : rHas e id.toNat) :
    ∃ o l, e.OffsetForID id = .ok o ∧ locAt locs o = .ok l ∧
      locs[rOffset e + (id.toNat - rFirst e)]? = some l := by
  obtain ⟨o, h1, h2⟩ := offsetForID_eq e id (u.nonempty e he) (u.ids e he) h
  have := u.slots e he
  unfold rHas at h
  have hlt : rOffset e + (id.toNat - rFirst e) < locs.length := by omega
  refine ⟨o, locs[rOffset e + (id.toNat - rFirst e)], h1, ?_, List.getElem?_eq_getElem hlt⟩
  unfold locAt
  rw [h2, List.getElem?_eq_getElem hlt]
  rfl

theorem climbs_get {es : List IndexElement} (h : Climbs es) {i j : Nat} (hij : i < j) (hj : j < es.length) :
    rFirst es[i] + rCount es[i] ≤ rFirst es[j] + 1 :=
  (List.pairwise_iff_getElem.1 h) i j (by omega) hj hij

/-- Below `lo` everything ends before the id, from `hi` on everything starts after it, unless the bounds come from
ranges that are not in order. -/
def Between (es : List IndexElement) (id : Nat) (lo hi : Nat) : Prop := Climbs es → Bracket es id lo hi

theorem search_any {es : List IndexElement} {locs : List Int64} (u : Usable es locs) (id : UInt64) :
    ∀ (fuel lo hi : Nat), hi - lo < fuel → lo ≤ hi → hi ≤ es.length → Between es id.toNat lo hi →
    ∃ p, search es id fuel lo hi = .ok p ∧ p ≤ es.length ∧
      (Climbs es → (∃ e ∈ es, rHas e id.toNat) → ∃ h : p < es.length, rHas es[p] id.toNat) := by
  intro fuel
  induction fuel with
  | zero => intro lo hi h; omega
  | succ fuel ih =>
    intro lo hi hf hle hhi hb
    unfold search
    rcases Nat.lt_or_ge lo hi with hlt | hge
    · rw [if_pos hlt]
      have hm : (lo + hi) / 2 < es.length := by omega
      have hmem : es[(lo + hi) / 2] ∈ es := List.getElem_mem hm
      have hne := u.nonempty _ hmem
      dsimp only
      rw [List.getElem?_eq_getElem hm]
      simp only [Res.ofOption_some, Res.ok_bind]
      rw [compareId_eq _ id (u.nonempty _ hmem) (u.ids _ hmem)]
      by_cases h1 : id.toNat < rFirst es[(lo + hi) / 2]
      · rw [if_pos h1, if_pos (by decide)]
        refine ih lo _ (by omega) (by omega) (by omega) fun hc => ⟨(hb hc).1, fun k hk hk2 => ?_⟩
        rcases Nat.lt_or_ge ((lo + hi) / 2) k with h | h
        · have := climbs_get hc h hk
          omega
        · have : k = (lo + hi) / 2 := by omega
          subst this; exact h1
      · rw [if_neg h1]
        by_cases h2 : rFirst es[(lo + hi) / 2] + rCount es[(lo + hi) / 2] ≤ id.toNat
        · rw [if_pos h2, if_neg (by decide), if_neg (by decide)]
          refine ih _ hi (by omega) (by omega) hhi fun hc => ⟨fun k hk hk2 => ?_, (hb hc).2⟩
          rcases Nat.lt_or_ge k ((lo + hi) / 2) with h | h
          · have := climbs_get hc h hm
            omega
          · have : k = (lo + hi) / 2 := by omega
            subst this; exact h2
        · rw [if_neg h2, if_neg (by decide), if_pos (by decide)]
          exact ⟨_, rfl, by omega, fun _ _ => ⟨hm, by unfold rHas; omega⟩⟩
    · rw [if_neg (by omega)]
      refine ⟨lo, rfl, by omega, ?_⟩
      rintro hc ⟨e, he, hh⟩
      obtain ⟨k, hk, rfl⟩ := List.getElem_of_mem he
      unfold rHas at hh
      rcases Nat.lt_or_ge k lo with h | h
      · have := (hb hc).1 k hk h; omega
      · have := (hb hc).2 k hk (by omega); omega

/-- What a lookup returns: the slot of the id in some range that has it, or nothing; and if the ranges climb, nothing
only if no range has the id. -/
def Fair (si : SubIdx) (id : UInt64) (hint : Int) (r : Found) : Prop :=
  ((∃ e ∈ si.element, rHas e id.toNat ∧ si.locations[rOffset e + (id.toNat - rFirst e)]? = some r.loc ∧
      r.ok = decide (r.loc ≠ 0)) ∨
    (r.ok = false ∧ r.loc = 0 ∧ (Climbs si.element → TopCovers si → ∀ e ∈ si.element, ¬ rHas e id.toNat))) ∧
  (r.hint = hint ∨ (0 ≤ r.hint ∧ r.hint < si.element.length))

theorem findBetween_any {si : SubIdx} (u : Usable si.element si.locations) (id : UInt64) (hint : Int)
    (lo hi : Nat) (h1 : lo ≤ hi) (h2 : hi ≤ si.element.length)
    (hb : Between si.element id.toNat lo hi) :
    ∃ r, si.findBetween id hint lo hi = .ok r ∧ Fair si id hint r := by
  obtain ⟨p, hp, hple, hu⟩ := search_any u id (si.element.length + 1) lo hi (by omega) h1 h2 hb
  unfold SubIdx.findBetween
  rw [hp]
  simp only [Res.ok_bind]
  rcases Nat.lt_or_ge p si.element.length with hlt | hge
  · rw [List.getElem?_eq_getElem hlt]
    have hmem : si.element[p] ∈ si.element := List.getElem_mem hlt
    dsimp only
    by_cases hc : rHas si.element[p] id.toNat
    · rw [(contains_eq _ id (u.nonempty _ hmem) (u.ids _ hmem)).2 hc]
      obtain ⟨o, l, e1, e2, e3⟩ := u.loc hmem id hc
      simp only [Bool.not_true, Bool.false_eq_true, if_false, e1, Res.ok_bind, e2]
      refine ⟨_, rfl, Or.inl ⟨_, hmem, hc, e3, rfl⟩, Or.inr ?_⟩
      dsimp only
      omega
    · have hf : si.element[p].contains id = false := by
        rw [← Bool.not_eq_true]
        exact fun h => hc ((contains_eq _ id (u.nonempty _ hmem) (u.ids _ hmem)).1 h)
      rw [hf]
      refine ⟨_, rfl, Or.inr ⟨rfl, rfl, fun hcl _ e he hh => ?_⟩, Or.inl rfl⟩
      obtain ⟨_, h⟩ := hu hcl ⟨e, he, hh⟩
      exact hc h
  · rw [List.getElem?_eq_none hge]
    refine ⟨_, rfl, Or.inr ⟨rfl, rfl, fun hcl _ e he hh => ?_⟩, Or.inl rfl⟩
    obtain ⟨h, _⟩ := hu hcl ⟨e, he, hh⟩
    omega

/-- Every lookup returns, whatever the order of the ranges. -/
theorem findNode_any {si : SubIdx} (u : Usable si.element si.locations) (id : UInt64) (hint : Int) (hh : 0 ≤ hint) :
    ∃ r, si.findNode id hint = .ok r ∧ Fair si id hint r := by
  unfold SubIdx.findNode
  by_cases h1 : id > si.Top
  · rw [if_pos h1]
    refine ⟨_, rfl, Or.inr ⟨rfl, rfl, fun _ ht e he h => ?_⟩, Or.inl rfl⟩
    have := ht e he
    have h1 : si.Top.toNat < id.toNat := UInt64.lt_iff_toNat_lt.1 h1
    unfold rHas at h
    omega
  · rw [if_neg h1]
    by_cases h2 : hint < si.element.length
    · rw [if_pos h2, if_neg (by omega)]
      have hk : hint.toNat < si.element.length := by omega
      have hmem : si.element[hint.toNat] ∈ si.element := List.getElem_mem hk
      have hne := u.nonempty _ hmem
      rw [List.getElem?_eq_getElem hk]
      simp only [Res.ofOption_some, Res.ok_bind]
      rw [compareId_eq _ id (u.nonempty _ hmem) (u.ids _ hmem)]
      by_cases h3 : id.toNat < rFirst si.element[hint.toNat]
      · rw [if_pos h3, if_pos rfl]
        refine findBetween_any u id hint _ _ (by omega) (by omega)
          fun hc => ⟨fun k _ h => by omega, fun k hk2 h => ?_⟩
        rcases Nat.lt_or_ge hint.toNat k with h' | h'
        · have := climbs_get hc h' hk2
          omega
        · have : k = hint.toNat := by omega
          subst this; exact h3
      · rw [if_neg h3]
        by_cases h4 : rFirst si.element[hint.toNat] + rCount si.element[hint.toNat] ≤ id.toNat
        · rw [if_pos h4, if_neg (by decide), if_neg (by decide)]
          refine findBetween_any u id hint _ _ (by omega) (by omega)
            fun hc => ⟨fun k hk2 h => ?_, fun k _ h => by omega⟩
          have := climbs_get hc h hk
          omega
        · rw [if_neg h4, if_neg (by decide), if_pos rfl]
          have hr : rHas si.element[hint.toNat] id.toNat := by unfold rHas; omega
          obtain ⟨o, l, e1, e2, e3⟩ := u.loc hmem id hr
          rw [e1]
          simp only [Res.ok_bind]
          rw [e2]
          simp only [Res.ok_bind]
          exact ⟨_, rfl, Or.inl ⟨_, hmem, hr, e3, rfl⟩, Or.inl rfl⟩
    · rw [if_neg h2]
      exact findBetween_any u id hint _ _ (by omega) (by omega) fun _ => ⟨fun k _ h => by omega, fun k _ h => by omega⟩

/-- The passes of an index in any order. -/
theorem subIndex_any (ix : NodeIdx) (u : Usable ix.elements ix.locations) (p n : UInt64) (si : SubIdx)
    (h : ix.SubIndex p n = .ok si) :
    Usable si.element si.locations ∧ si.locations = ix.locations ∧ si.element.Sublist ix.elements ∧
      (Climbs ix.elements → Climbs si.element ∧ TopCovers si) := by
  unfold NodeIdx.SubIndex at h
  split at h
  · simp at h
  · dsimp only at h
    split at h
    · simp at h
    · next hne =>
      rw [Res.bind_eq_ok] at h
      obtain ⟨last, h1, h2⟩ := h
      rw [Res.ofOption_eq_ok] at h1
      simp only [Res.ok.injEq] at h2
      subst h2
      generalize (firstReaching _ _ _ _).1.getD ix.elements.length = b at *
      generalize (firstReaching _ _ _ _).1.getD 0 = a at *
      have hsub : ((ix.elements.take b).drop a).Sublist ix.elements :=
        (List.drop_sublist _ _).trans (List.take_sublist _ _)
      have hmem : ∀ e ∈ (ix.elements.take b).drop a, e ∈ ix.elements := fun e he => hsub.subset he
      have hbl : b - 1 < ix.elements.length := by
        rcases Nat.lt_or_ge (b - 1) ix.elements.length with h | h
        · exact h
        · rw [List.getElem?_eq_none h] at h1; simp at h1
      rw [List.getElem?_eq_getElem hbl] at h1
      simp only [Option.some.injEq] at h1
      refine ⟨⟨fun e he => u.nonempty e (hmem e he), fun e he => u.ids e (hmem e he),
        fun e he => u.slots e (hmem e he)⟩, rfl, hsub, fun hc => ⟨List.Pairwise.sublist hsub hc, ?_⟩⟩
      intro e he
      subst h1
      have hlm : ix.elements[b - 1] ∈ ix.elements := List.getElem_mem hbl
      dsimp only
      rw [last_eq _ (u.nonempty _ hlm) (u.ids _ hlm)]
      have he2 := List.mem_of_mem_drop he
      obtain ⟨k, hk, hke⟩ := List.getElem_of_mem he2
      rw [List.length_take] at hk
      rw [List.getElem_take] at hke
      subst hke
      have := u.nonempty _ hlm
      rcases Nat.lt_or_ge k (b - 1) with hkb | hkb
      · have := climbs_get hc hkb hbl
        omega
      · have : k = b - 1 := by omega
        subst this
        omega

end Osm.NodeIndex

namespace Osm.NodeIndexer
open Osm Osm.T Osm.NodeIndex Osm.Spec

/-- Some two nodes in a row leave just this id out. -/
def Skipped (nodes : List (Nat × Int64)) (i : Nat) : Prop :=
  ∃ pre a b post, nodes = pre ++ a :: b :: post ∧ a.1 + 1 = i ∧ b.1 = i + 1

/-- Ranges with their slots, for nodes in any order. -/
structure Laid (ranges : List IndexRange) (locs : List Int64) (nodes : List (Nat × Int64)) : Prop where
  slots : ∃ S : List (Nat × Int64), S.map (·.1) = ranges.flatMap idsOf ∧ S.map (·.2) = locs ∧
    S.filter (fun s => s.2 ≠ 0) = nodes ∧ ∀ s ∈ S, s.2 = 0 → Skipped nodes s.1
  ordered : nodes.Pairwise (fun a b => a.1 ≤ b.1) → ranges.Pairwise fun a b => a.last.toNat ≤ b.first.toNat
  nonempty : ∀ r ∈ ranges, r.first.toNat ≤ r.last.toNat
  firsts : ∀ r ∈ ranges, r.first.toNat ∈ nodes.map (·.1)
  lasts : ∀ r ∈ ranges, r.last.toNat ∈ nodes.map (·.1)
  size : locs.length ≤ 2 * nodes.length

theorem skipped_left {a b : List (Nat × Int64)} {i : Nat} (h : Skipped a i) : Skipped (a ++ b) i := by
  obtain ⟨pre, x, y, post, rfl, h1, h2⟩ := h
  exact ⟨pre, x, y, post ++ b, by simp, h1, h2⟩

theorem skipped_right {a b : List (Nat × Int64)} {i : Nat} (h : Skipped b i) : Skipped (a ++ b) i := by
  obtain ⟨pre, x, y, post, rfl, h1, h2⟩ := h
  exact ⟨a ++ pre, x, y, post, by simp, h1, h2⟩

/-- What holds while the nodes of a block are added. -/
structure InvAny (st : State) (xs : List (UInt64 × Int64)) : Prop where
  laid : Laid st.flush st.locs (xs.map num)
  first : st.firstId ≠ notAssigned
  last : ∃ pre x, xs = pre ++ [x] ∧ x.1 = st.lastId
  le : st.firstId.toNat ≤ st.lastId.toNat
  small : st.lastId.toNat < 2 ^ 63

theorem invAny_first {x : UInt64 × Int64} (hx : 2 ≤ x.1.toNat) (hx' : x.1.toNat < 2 ^ 63) (hl : x.2 ≠ 0) :
    InvAny (addSlot State.init x) [x] := by
  have hi := inv_first hx hx' hl
  obtain ⟨⟨S, s1, s2, s3⟩, _, h1, h2, h3, h4⟩ := hi.layout
  obtain ⟨y, hy, hyl⟩ := hi.last
  simp only [List.getLast?_singleton, Option.some.injEq] at hy
  subst hy
  have hst : addSlot State.init x = ⟨[], [x.2], x.1, x.1⟩ := by
    have e1 : x.1 ≠ notAssigned + 1 := by
      intro h
      have := congrArg UInt64.toNat h
      rw [show (notAssigned + 1).toNat = 0 from by decide] at this
      omega
    have e2 : x.1 ≠ notAssigned + 2 := by
      intro h
      have := congrArg UInt64.toNat h
      rw [show (notAssigned + 2).toNat = 1 from by decide] at this
      omega
    unfold addSlot State.addId State.init
    simp only [e1, e2, if_false]
    unfold State.flush
    simp
  refine ⟨⟨⟨S, s1, s2, s3, ?_⟩, ?_, h1, h2, h3, h4⟩, hi.first, ⟨[], x, rfl, hyl⟩, hi.le, by rw [← hyl]; exact hx'⟩
  · intro s hs h0
    rw [hst] at s2
    have hlen := congrArg List.length s2
    simp only [List.length_map, List.length_cons, List.length_nil] at hlen
    have hm : s.2 ∈ S.map (·.2) := List.mem_map_of_mem hs
    rw [s2] at hm
    simp only [List.mem_singleton] at hm
    rw [hm] at h0
    exact absurd h0 hl
  · intro _
    rw [hst, flush_pos (st := ⟨[], [x.2], x.1, x.1⟩) (ne_notAssigned hx')]
    simp

theorem invAny_step {st : State} {xs : List (UInt64 × Int64)} {x : UInt64 × Int64} (h : InvAny st xs)
    (hx' : x.1.toNat < 2 ^ 63) (hl : x.2 ≠ 0) :
    InvAny (addSlot st x) (xs ++ [x]) := by
  have hlay := h.laid
  have hle := h.le
  have hsm := h.small
  obtain ⟨pre, y, hxs, hyl⟩ := h.last
  have hn1 : (st.lastId + 1).toNat = st.lastId.toNat + 1 := by
    rw [UInt64.toNat_add, show (1 : UInt64).toNat = 1 from rfl]; omega
  have hn2 : (st.lastId + 2).toNat = st.lastId.toNat + 2 := by
    rw [UInt64.toNat_add, show (2 : UInt64).toNat = 2 from rfl]; omega
  rw [flush_pos h.first] at hlay
  obtain ⟨S, s1, s2, s3, s4⟩ := hlay.slots
  have hord := hlay.ordered
  have hnon := hlay.nonempty
  have hfs := hlay.firsts
  have hls := hlay.lasts
  have hsz := hlay.size
  have hxnum : (xs ++ [x]).map num = xs.map num ++ [num x] := by simp
  have hxmem : x.1.toNat ∈ ((xs ++ [x]).map num).map (·.1) := by simp [num]
  have hup : ∀ n, n ∈ (xs.map num).map (·.1) → n ∈ ((xs ++ [x]).map num).map (·.1) := by
    intro n hn; rw [hxnum, List.map_append]; exact List.mem_append_left _ hn
  have hxs0 : 1 ≤ xs.length := by rw [hxs]; simp
  have hless : ((xs ++ [x]).map num).Pairwise (fun a b => a.1 ≤ b.1) →
      (xs.map num).Pairwise (fun a b => a.1 ≤ b.1) ∧ ∀ n ∈ (xs.map num).map (·.1), n ≤ x.1.toNat := by
    intro hp
    rw [hxnum, List.pairwise_append] at hp
    refine ⟨hp.1, fun n hn => ?_⟩
    obtain ⟨a, ha, rfl⟩ := List.mem_map.1 hn
    exact hp.2.2 a ha (num x) (by simp)
  -- the part common to the two extending cases
  have extend : ∀ (gap : List (Nat × Int64)),
      (idsOf ⟨st.firstId, x.1⟩ = idsOf ⟨st.firstId, st.lastId⟩ ++ gap.map (·.1) ++ [x.1.toNat]) →
      (gap.map (·.2)).filter (· ≠ 0) = [] → gap.length ≤ 1 → st.lastId.toNat ≤ x.1.toNat →
      (∀ g ∈ gap, st.lastId.toNat + 1 = g.1 ∧ x.1.toNat = g.1 + 1) →
      InvAny ⟨st.ranges, st.locs ++ gap.map (·.2) ++ [x.2], st.firstId, x.1⟩ (xs ++ [x]) := by
    intro gap hg hg0 hgl hle2 hgap
    refine ⟨?_, h.first, ⟨xs, x, rfl, rfl⟩, by dsimp only; omega, hx'⟩
    rw [flush_pos (st := ⟨st.ranges, _, st.firstId, x.1⟩) h.first]
    refine ⟨⟨S ++ gap ++ [num x], ?_, ?_, ?_, ?_⟩, ?_, ?_, ?_, ?_, ?_⟩
    · rw [List.map_append, List.map_append, s1, flatMap_idsOf_append, flatMap_idsOf_append]
      dsimp only
      simp only [List.flatMap_cons, List.flatMap_nil, List.append_nil, hg, num]
      simp
    · simp only [List.map_append, s2]
      simp [num]
    · rw [List.filter_append, List.filter_append, s3, hxnum]
      have : gap.filter (fun s => s.2 ≠ 0) = [] := by
        rw [List.filter_eq_nil_iff] at hg0 ⊢
        intro a ha
        exact hg0 a.2 (List.mem_map_of_mem ha)
      rw [this]
      simp [num, hl]
    · intro s hs h0
      rw [hxnum]
      rcases List.mem_append.1 hs with hs | hs
      · rcases List.mem_append.1 hs with hs | hs
        · exact skipped_left (s4 s hs h0)
        · obtain ⟨g1, g2⟩ := hgap s hs
          refine ⟨pre.map num, num y, num x, [], by rw [hxs]; simp, ?_, ?_⟩
          · show y.1.toNat + 1 = _
            rw [hyl]; exact g1
          · exact g2
      · simp only [List.mem_singleton] at hs
        subst hs
        exact absurd h0 hl
    · intro hp
      have hord := hord (hless hp).1
      rw [List.pairwise_append] at hord ⊢
      obtain ⟨ho1, ho2, ho3⟩ := hord
      refine ⟨ho1, by simp, ?_⟩
      intro a ha b hb
      have := ho3 a ha ⟨st.firstId, st.lastId⟩ (by simp)
      simp only [List.mem_singleton] at hb
      subst hb
      exact this
    · intro r hr
      rcases List.mem_append.1 hr with hr | hr
      · exact hnon r (List.mem_append_left _ hr)
      · simp only [List.mem_singleton] at hr
        subst hr
        dsimp only
        omega
    · intro r hr
      rcases List.mem_append.1 hr with hr | hr
      · exact hup _ (hfs r (List.mem_append_left _ hr))
      · simp only [List.mem_singleton] at hr
        subst hr
        exact hup _ (hfs ⟨st.firstId, st.lastId⟩ (by simp))
    · intro r hr
      rcases List.mem_append.1 hr with hr | hr
      · exact hup _ (hls r (List.mem_append_left _ hr))
      · simp only [List.mem_singleton] at hr
        subst hr
        exact hxmem
    · simp only [List.length_append, List.length_map, List.length_cons, List.length_nil] at hsz ⊢
      omega
  unfold addSlot State.addId
  by_cases c1 : x.1 = st.lastId + 1
  · rw [if_pos c1]
    have hc := congrArg UInt64.toNat c1
    have := extend [] (by rw [idsOf_extend _ _ _ hle (by omega)]; simp) (by simp) (by simp) (by omega) (by simp)
    simpa using this
  · rw [if_neg c1]
    by_cases c2 : x.1 = st.lastId + 2
    · rw [if_pos c2]
      have hc := congrArg UInt64.toNat c2
      have := extend [(st.lastId.toNat + 1, 0)]
        (by
          rw [idsOf_extend st.firstId (st.lastId + 1) x.1 (by omega) (by omega),
            idsOf_extend st.firstId st.lastId (st.lastId + 1) hle hn1, hn1]
          simp)
        (by simp) (by simp) (by omega)
        (by
          intro g hg
          simp only [List.mem_singleton] at hg
          subst hg
          exact ⟨rfl, by dsimp only; omega⟩)
      simpa using this
    · rw [if_neg c2]
      have h3 := ne_notAssigned hx'
      refine ⟨?_, h3, ⟨xs, x, rfl, rfl⟩, Nat.le_refl _, hx'⟩
      dsimp only
      rw [flush_pos (st := ⟨st.flush, _, x.1, x.1⟩) h3, flush_pos h.first]
      refine ⟨⟨S ++ [num x], ?_, ?_, ?_, ?_⟩, ?_, ?_, ?_, ?_, ?_⟩
      · rw [List.map_append, s1, flatMap_idsOf_append (st.ranges ++ [_])]
        simp only [List.flatMap_cons, List.flatMap_nil, List.append_nil, idsOf_single, num]
        simp
      · simp only [List.map_append, s2]
        simp [num]
      · rw [List.filter_append, s3, hxnum]
        simp [num, hl]
      · intro s hs h0
        rw [hxnum]
        rcases List.mem_append.1 hs with hs | hs
        · exact skipped_left (s4 s hs h0)
        · simp only [List.mem_singleton] at hs
          subst hs
          exact absurd h0 hl
      · intro hp
        obtain ⟨hp1, hp2⟩ := hless hp
        rw [List.pairwise_append]
        refine ⟨hord hp1, by simp, ?_⟩
        intro a ha b hb
        simp only [List.mem_singleton] at hb
        subst hb
        exact hp2 _ (hls a ha)
      · intro r hr
        rcases List.mem_append.1 hr with hr | hr
        · exact hnon r hr
        · simp only [List.mem_singleton] at hr
          subst hr
          exact Nat.le_refl _
      · intro r hr
        rcases List.mem_append.1 hr with hr | hr
        · exact hup _ (hfs r hr)
        · simp only [List.mem_singleton] at hr
          subst hr
          exact hxmem
      · intro r hr
        rcases List.mem_append.1 hr with hr | hr
        · exact hup _ (hls r hr)
        · simp only [List.mem_singleton] at hr
          subst hr
          exact hxmem
      · simp only [List.length_append, List.length_map, List.length_cons, List.length_nil] at hsz ⊢
        omega

theorem invAny_fold (ys : List (UInt64 × Int64)) : ∀ (st : State) (xs : List (UInt64 × Int64)), InvAny st xs →
    (∀ y ∈ ys, y.1.toNat < 2 ^ 63 ∧ y.2 ≠ 0) → InvAny (ys.foldl addSlot st) (xs ++ ys) := by
  induction ys with
  | nil => intro st xs h _; simpa using h
  | cons y ys ih =>
    intro st xs h hy
    obtain ⟨h1, h2⟩ := hy y (by simp)
    rw [List.foldl_cons, show xs ++ y :: ys = (xs ++ [y]) ++ ys by simp]
    exact ih _ _ (invAny_step h h1 h2) (fun z hz => hy z (by simp [hz]))

/-- The state after all nodes of a block. -/
theorem laid_fold (xs : List (UInt64 × Int64)) (h : ∀ x ∈ xs, 2 ≤ x.1.toNat ∧ x.1.toNat < 2 ^ 63 ∧ x.2 ≠ 0) :
    let st := xs.foldl addSlot State.init
    Laid st.flush st.locs (xs.map num) ∧ (st.flush = [] ↔ xs = []) := by
  dsimp only
  cases xs with
  | nil =>
    refine ⟨⟨⟨[], rfl, rfl, rfl, by simp⟩, ?_, ?_, ?_, ?_, ?_⟩, ?_⟩ <;> simp [State.flush, State.init]
  | cons x xs =>
    obtain ⟨h1, h2, h3⟩ := h x (by simp)
    have hf := invAny_fold xs _ _ (invAny_first h1 h2 h3) (fun y hy => (h y (by simp [hy])).2)
    rw [List.foldl_cons]
    refine ⟨hf.laid, ?_⟩
    rw [flush_pos hf.first]
    simp

theorem laid_append {r1 r2 : List IndexRange} {l1 l2 : List Int64} {n1 n2 : List (Nat × Int64)}
    (h1 : Laid r1 l1 n1) (h2 : Laid r2 l2 n2) : Laid (r1 ++ r2) (l1 ++ l2) (n1 ++ n2) := by
  obtain ⟨S1, a1, a2, a3, a4⟩ := h1.slots
  obtain ⟨S2, b1, b2, b3, b4⟩ := h2.slots
  refine ⟨⟨S1 ++ S2, ?_, ?_, ?_, ?_⟩, ?_, ?_, ?_, ?_, ?_⟩
  · rw [List.map_append, a1, b1, flatMap_idsOf_append]
  · rw [List.map_append, a2, b2]
  · rw [List.filter_append, a3, b3]
  · intro s hs h0
    rcases List.mem_append.1 hs with hs | hs
    · exact skipped_left (a4 s hs h0)
    · exact skipped_right (b4 s hs h0)
  · intro hp
    rw [List.pairwise_append] at hp ⊢
    refine ⟨h1.ordered hp.1, h2.ordered hp.2.1, ?_⟩
    intro a ha b hb
    obtain ⟨x, hx, e1⟩ := List.mem_map.1 (h1.lasts a ha)
    obtain ⟨y, hy, e2⟩ := List.mem_map.1 (h2.firsts b hb)
    have := hp.2.2 x hx y hy
    omega
  · intro r hr
    rcases List.mem_append.1 hr with hr | hr
    · exact h1.nonempty r hr
    · exact h2.nonempty r hr
  · intro r hr
    rw [List.map_append]
    rcases List.mem_append.1 hr with hr | hr
    · exact List.mem_append_left _ (h1.firsts r hr)
    · exact List.mem_append_right _ (h2.firsts r hr)
  · intro r hr
    rw [List.map_append]
    rcases List.mem_append.1 hr with hr | hr
    · exact List.mem_append_left _ (h1.lasts r hr)
    · exact List.mem_append_right _ (h2.lasts r hr)
  · have := h1.size
    have := h2.size
    simp only [List.length_append]
    omega

theorem anyOrder_tail {b : Option PrimitiveBlock} {bs : List (Option PrimitiveBlock)}
    (h : AnyOrder (b :: bs)) : AnyOrder bs := by
  have hs : ∃ xs, allNodes (b :: bs) = xs ++ allNodes bs := ⟨_, by unfold allNodes; rw [List.flatMap_cons]⟩
  obtain ⟨xs, hs⟩ := hs
  refine ⟨fun pb hpb => h.complete pb (List.mem_cons_of_mem _ hpb), ?_,
    fun pb hpb => h.blockSize pb (List.mem_cons_of_mem _ hpb), ?_⟩
  · intro x hx
    exact h.ids x (by rw [hs]; exact List.mem_append_right _ hx)
  · have := h.total
    rw [hs, List.length_append] at this
    omega

/-- All batches together lay out all nodes. -/
theorem work_laid (blocks : List (Option PrimitiveBlock)) (h : AnyOrder blocks) :
    ∃ bs, mapRes work blocks = .ok bs ∧ Laid (allRanges bs) (allLocs bs) (nodeSlots blocks) ∧
      ∀ r ∈ allRanges bs, cnt r < 2 ^ 24 := by
  induction blocks with
  | nil =>
    refine ⟨[], rfl, ⟨⟨[], rfl, rfl, rfl, by simp⟩, fun _ => .nil, ?_, ?_, ?_, ?_⟩, ?_⟩ <;>
      simp [allRanges, allLocs]
  | cons b bs ih =>
    obtain ⟨rest, i1, i2, i3⟩ := ih (anyOrder_tail h)
    cases b with
    | none =>
      refine ⟨none :: rest, ?_, i2, i3⟩
      unfold mapRes
      rw [i1]
      rfl
    | some pb =>
      have hall : allNodes (some pb :: bs) = (sourceNodes pb).map (fun n => (pb, n)) ++ allNodes bs := rfl
      have hid : ∀ n ∈ sourceNodes pb, 2 ≤ n.id.toInt := by
        intro n hn
        exact h.ids (pb, n) (by rw [hall]; exact List.mem_append_left _ (List.mem_map_of_mem hn))
      have hlt : ∀ x : Int64, 2 ≤ x.toInt → x.toUInt64.toNat < 2 ^ 63 ∧ 2 ≤ x.toUInt64.toNat := by
        intro x hx
        have := i64_nat (x := x) (by omega)
        have := x.toInt_lt
        omega
      have hlay := laid_fold ((sourceNodes pb).map (slotOf pb))
        (by
          intro x hx
          obtain ⟨n, hn, rfl⟩ := List.mem_map.1 hx
          have := hlt n.id (hid n hn)
          exact ⟨this.2, this.1, (nodeLocation_eq pb n).2⟩)
      dsimp only at hlay
      obtain ⟨l1, l2⟩ := hlay
      generalize hst : ((sourceNodes pb).map (slotOf pb)).foldl addSlot State.init = st at l1 l2
      have hwork : work (some pb) = .ok (if st.flush = [] then none else some ⟨st.flush, st.locs⟩) := by
        rw [show work (some pb) = indexBlock pb from rfl, indexBlock_eq pb (h.complete pb (by simp))]
        dsimp only
        rw [hst]
      have hranges : allRanges ((if st.flush = [] then none else some ⟨st.flush, st.locs⟩) :: rest) =
          st.flush ++ allRanges rest := by
        by_cases hf : st.flush = []
        · rw [if_pos hf, hf]; rfl
        · rw [if_neg hf]; rfl
      have hlocs : allLocs ((if st.flush = [] then none else some ⟨st.flush, st.locs⟩) :: rest) =
          st.locs ++ allLocs rest := by
        by_cases hf : st.flush = []
        · rw [if_pos hf]
          have hnil := l2.1 hf
          have hl0 : st.locs = [] := by
            rw [← hst, hnil]; rfl
          rw [hl0]; rfl
        · rw [if_neg hf]; rfl
      refine ⟨(if st.flush = [] then none else some ⟨st.flush, st.locs⟩) :: rest, ?_, ?_, ?_⟩
      · unfold mapRes
        rw [hwork]
        simp only [Res.ok_bind]
        rw [i1]
        rfl
      · rw [hranges, hlocs, nodeSlots_cons]
        exact laid_append l1 i2
      · rw [hranges]
        intro r hr
        rcases List.mem_append.1 hr with hr | hr
        · have hsz := l1.size
          obtain ⟨S, s1, s2, _⟩ := l1.slots
          have hb := h.blockSize pb (by simp)
          have : cnt r ≤ st.locs.length := by
            have e1 : st.locs.length = slotTotal st.flush := by
              rw [← s2, List.length_map, ← flatMap_idsOf_length, ← s1, List.length_map]
            rw [e1]
            unfold slotTotal
            exact le_sum_of_mem (List.mem_map_of_mem hr)
          simp only [List.length_map] at hsz
          omega
        · exact i3 r hr

theorem elems_climb {rs : List IndexRange} : ∀ {off : Nat} {es : List IndexElement}, Elems off rs es →
    (∀ r ∈ rs, r.first.toNat ≤ r.last.toNat) → rs.Pairwise (fun a b => a.last.toNat ≤ b.first.toNat) →
    Climbs es := by
  induction rs with
  | nil => intro off es h _ _; subst h; exact .nil
  | cons r rs ih =>
    intro off es h hn hp
    obtain ⟨e0, es', rfl, h1, h2, h3, h4⟩ := h
    rw [List.pairwise_cons] at hp
    refine List.pairwise_cons.2 ⟨?_, ih h4 (fun q hq => hn q (by simp [hq])) hp.2⟩
    intro e he
    obtain ⟨⟨q, hq, e1, e2⟩, _⟩ := elems_mem h4 e he
    have := hp.1 q hq
    have := hn r (by simp)
    rw [h1, h2, e1]
    unfold cnt
    omega

/-- An index in which a slot without a location is that of an id left out between two nodes in a row. -/
theorem laid_index {rs : List IndexRange} {locs : List Int64} {nodes : List (Nat × Int64)}
    {es : List IndexElement} (hl : Laid rs locs nodes) (he : Elems 0 rs es) :
    Usable es locs ∧ Complete ⟨es, locs⟩ ∧ (∀ id l, HasLoc es locs id l ↔ (id, l) ∈ nodes) ∧
      (nodes.Pairwise (fun a b => a.1 ≤ b.1) → Climbs es) ∧
      ∀ e ∈ es, ∀ id, rHas e id → locs[rOffset e + (id - rFirst e)]? = some 0 → Skipped nodes id := by
  obtain ⟨S, s1, s2, s3, s4⟩ := hl.slots
  have hlen : locs.length = slotTotal rs := by
    rw [← s2, List.length_map, ← flatMap_idsOf_length, ← s1, List.length_map]
  refine ⟨⟨?_, ?_, ?_⟩, ?_, ?_, fun hp => elems_climb he hl.nonempty (hl.ordered hp), ?_⟩
  · intro e hm
    obtain ⟨⟨r, hr, _, h2⟩, _⟩ := elems_mem he e hm
    have := hl.nonempty r hr
    rw [h2]; unfold cnt; omega
  · intro e hm
    obtain ⟨⟨r, hr, h1, h2⟩, _⟩ := elems_mem he e hm
    have := hl.nonempty r hr
    have := r.last.toNat_lt
    rw [h1, h2]; unfold cnt; omega
  · intro e hm
    have := (elems_mem he e hm).2
    omega
  · unfold Complete
    rw [elems_slotCount he, hlen]
  · intro id l
    have := elems_slots (pre := []) he s1 rfl id l
    rw [List.nil_append, s2] at this
    rw [← s3, List.mem_filter, ← this]
    unfold HasLoc
    constructor
    · rintro ⟨e, h1, h2, h3, h4⟩
      exact ⟨⟨e, h1, h2, h3⟩, by simpa using h4⟩
    · rintro ⟨⟨e, h1, h2, h3⟩, h4⟩
      exact ⟨e, h1, h2, h3, by simpa using h4⟩
  · intro e hm id h1 h2
    have := elems_slots (pre := []) he s1 rfl id 0
    rw [List.nil_append, s2] at this
    exact s4 _ (this.1 ⟨e, hm, h1, h2⟩) rfl

/-- The whole run, for nodes in any order. -/
theorem run_any (blocks : List (Option PrimitiveBlock)) (h : AnyOrder blocks) :
    ∃ bs es, mapRes work blocks = .ok bs ∧
      batches 0 0 bs = .ok (UInt64.ofNat es.length, elemWords es, allLocs bs) ∧
      Usable es (allLocs bs) ∧ Complete ⟨es, allLocs bs⟩ ∧ es.length < 2 ^ 62 ∧ (allLocs bs).length < 2 ^ 63 ∧
      (∀ id l, HasLoc es (allLocs bs) id l ↔ (id, l) ∈ nodeSlots blocks) ∧
      ((nodeSlots blocks).Pairwise (fun a b => a.1 ≤ b.1) → Climbs es) ∧
      ∀ e ∈ es, ∀ id, rHas e id → (allLocs bs)[rOffset e + (id - rFirst e)]? = some 0 →
        Skipped (nodeSlots blocks) id := by
  obtain ⟨bs, h1, h2, h3⟩ := work_laid blocks h
  have hlen : (allLocs bs).length = slotTotal (allRanges bs) := by
    obtain ⟨S, s1, s2, _⟩ := h2.slots
    rw [← s2, List.length_map, ← flatMap_idsOf_length, ← s1, List.length_map]
  have hsz := h2.size
  have htot := h.total
  have hns : (nodeSlots blocks).length = (allNodes blocks).length := by simp [nodeSlots]
  obtain ⟨es, h4, h5⟩ := batches_ok bs 0 0 (fun r hr => ⟨h2.nonempty r hr, h3 r hr⟩) (by omega)
  obtain ⟨w1, w2, w3, w4, w5⟩ := laid_index h2 h5
  refine ⟨bs, es, h1, ?_, w1, w2, ?_, by omega, w3, w4, w5⟩
  · rw [Nat.zero_add] at h4
    exact h4
  · have : es.length ≤ slotCount es := by
      have hne := w1.nonempty
      clear h4 h5 w1 w2 w3 w4 w5
      induction es with
      | nil => simp
      | cons e es ih =>
        have := ih (fun e' he' => hne e' (by simp [he']))
        have := hne e (by simp)
        simp only [slotCount, List.map_cons, List.sum_cons, List.length_cons] at *
        omega
    rw [elems_slotCount h5] at this
    omega

/-- In a source that never goes down, an id left out between two nodes in a row is nowhere. -/
theorem skipped_absent {nodes : List (Nat × Int64)} (hp : nodes.Pairwise (fun a b => a.1 ≤ b.1)) {id : Nat}
    (h : Skipped nodes id) : ∀ l, (id, l) ∉ nodes := by
  obtain ⟨pre, a, b, post, rfl, h1, h2⟩ := h
  intro l hm
  rw [List.pairwise_append] at hp
  obtain ⟨_, p2, p3⟩ := hp
  rw [List.pairwise_cons] at p2
  obtain ⟨_, p2⟩ := p2
  rw [List.pairwise_cons] at p2
  rcases List.mem_append.1 hm with hm | hm
  · have := p3 _ hm a (by simp)
    dsimp only at this
    omega
  · rcases List.mem_cons.1 hm with hm | hm
    · rw [← hm] at h1; dsimp only at h1; omega
    · rcases List.mem_cons.1 hm with hm | hm
      · rw [← hm] at h2; dsimp only at h2; omega
      · have := p2.1 _ hm
        dsimp only at this
        omega

end Osm.NodeIndexer
