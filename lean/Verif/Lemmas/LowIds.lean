import Verif.Spec.LowIds
import Verif.Lemmas.NodeOutput

/-! # Node ids 0 and 1 -/

namespace Osm.NodeIndexer
open Osm Osm.T Osm.NodeIndex Osm.Spec

/-- Id as a number. -/
def ofSlot (x : UInt64 × Int64) : Int × Int64 := ((x.1.toNat : Int), x.2)

theorem slots_cons (last i : Int) (l : Int64) (r : List (Int × Int64)) : slots last ((i, l) :: r) =
    if i = last + 2 then (last + 1, 0) :: (i, l) :: slots i r else (i, l) :: slots i r := by
  conv => lhs; unfold slots

theorem addSlot_last (st : State) (x : UInt64 × Int64) : (addSlot st x).lastId = x.1 := by
  unfold addSlot State.addId
  dsimp only
  split
  · rfl
  · split <;> rfl

/-- Once a range is open, ids and locations are those of the slots. -/
theorem open_fold (ys : List (UInt64 × Int64)) : ∀ (st : State), st.firstId ≠ notAssigned →
    st.firstId.toNat ≤ st.lastId.toNat →
    (∀ y ∈ ys, st.lastId.toNat < y.1.toNat ∧ y.1.toNat < 2 ^ 63) →
    ys.Pairwise (fun a b => a.1.toNat < b.1.toNat) →
    ((ys.foldl addSlot st).flush.flatMap idsOf).map (fun n : Nat => (n : Int)) =
      (st.flush.flatMap idsOf).map (fun n : Nat => (n : Int)) ++
        (slots (st.lastId.toNat : Int) (ys.map ofSlot)).map (·.1) ∧
    (ys.foldl addSlot st).locs = st.locs ++ (slots (st.lastId.toNat : Int) (ys.map ofSlot)).map (·.2) := by
  induction ys with
  | nil => intro st _ _ _ _; simp [slots]
  | cons y ys ih =>
    intro st h1 h2 h3 h4
    rw [List.pairwise_cons] at h4
    obtain ⟨h5, h6⟩ := h3 y (by simp)
    have hn1 : (st.lastId + 1).toNat = st.lastId.toNat + 1 := by
      rw [UInt64.toNat_add, show (1 : UInt64).toNat = 1 from rfl]; omega
    have hn2 : (st.lastId + 2).toNat = st.lastId.toNat + 2 := by
      rw [UInt64.toNat_add, show (2 : UInt64).toNat = 2 from rfl]; omega
    have hy : y.1 ≠ notAssigned := ne_notAssigned h6
    have key : ((addSlot st y).firstId ≠ notAssigned ∧ (addSlot st y).firstId.toNat ≤ y.1.toNat) ∧
        ((addSlot st y).flush.flatMap idsOf).map (fun n : Nat => (n : Int)) ++
            (slots (y.1.toNat : Int) (ys.map ofSlot)).map (·.1) =
          (st.flush.flatMap idsOf).map (fun n : Nat => (n : Int)) ++
            (slots (st.lastId.toNat : Int) ((y :: ys).map ofSlot)).map (·.1) ∧
        (addSlot st y).locs ++ (slots (y.1.toNat : Int) (ys.map ofSlot)).map (·.2) =
          st.locs ++ (slots (st.lastId.toNat : Int) ((y :: ys).map ofSlot)).map (·.2) := by
      rw [List.map_cons, show ofSlot y = ((y.1.toNat : Int), y.2) from rfl]
      rw [slots_cons, flush_pos h1]
      unfold addSlot State.addId
      by_cases c1 : y.1 = st.lastId + 1
      · have hc := congrArg UInt64.toNat c1
        rw [if_pos c1, if_neg (by omega)]
        refine ⟨⟨h1, by dsimp only; omega⟩, ?_, ?_⟩
        · rw [flush_pos (st := ⟨st.ranges, st.locs ++ [y.2], st.firstId, y.1⟩) h1]
          simp only [flatMap_idsOf_append, List.flatMap_cons, List.flatMap_nil, List.append_nil]
          rw [idsOf_extend st.firstId st.lastId y.1 h2 (by omega)]
          simp
        · simp
      · rw [if_neg c1]
        have hc1 : y.1.toNat ≠ st.lastId.toNat + 1 := by
          intro hh; exact c1 (UInt64.toNat_inj.1 (by omega))
        by_cases c2 : y.1 = st.lastId + 2
        · have hc := congrArg UInt64.toNat c2
          rw [if_pos c2, if_pos (by omega)]
          refine ⟨⟨h1, by dsimp only; omega⟩, ?_, ?_⟩
          · rw [flush_pos (st := ⟨st.ranges, st.locs ++ [0] ++ [y.2], st.firstId, y.1⟩) h1]
            simp only [flatMap_idsOf_append, List.flatMap_cons, List.flatMap_nil, List.append_nil]
            rw [idsOf_extend st.firstId (st.lastId + 1) y.1 (by omega) (by omega),
              idsOf_extend st.firstId st.lastId (st.lastId + 1) h2 hn1, hn1]
            simp
          · simp
        · have hc2 : y.1.toNat ≠ st.lastId.toNat + 2 := by
            intro hh; exact c2 (UInt64.toNat_inj.1 (by omega))
          rw [if_neg c2, if_neg (by omega)]
          refine ⟨⟨hy, Nat.le_refl _⟩, ?_, ?_⟩
          · dsimp only
            rw [flush_pos (st := ⟨st.flush, st.locs ++ [y.2], y.1, y.1⟩) hy, flush_pos h1]
            simp only [flatMap_idsOf_append, List.flatMap_cons, List.flatMap_nil, List.append_nil,
              idsOf_single]
            simp
          · simp
    obtain ⟨⟨k1, k2⟩, k3, k4⟩ := key
    have := ih (addSlot st y) k1 (by rw [addSlot_last]; exact k2)
      (fun z hz => ⟨by rw [addSlot_last]; exact h4.1 z hz, (h3 z (by simp [hz])).2⟩) h4.2
    rw [addSlot_last] at this
    rw [List.foldl_cons, ← k3, ← k4]
    exact this

/-- The state with more locations in front. -/
def State.front (d : List Int64) (st : State) : State := { st with locs := d ++ st.locs }

theorem front_addSlot (d : List Int64) (st : State) (x : UInt64 × Int64) :
    addSlot (st.front d) x = (addSlot st x).front d := by
  unfold addSlot State.addId State.front State.flush
  dsimp only
  split
  · simp
  · split <;> simp

theorem front_fold (d : List Int64) (xs : List (UInt64 × Int64)) : ∀ st : State,
    xs.foldl addSlot (st.front d) = (xs.foldl addSlot st).front d := by
  induction xs with
  | nil => intro st; rfl
  | cons x xs ih => intro st; rw [List.foldl_cons, front_addSlot, ih]; rfl

/-- The ids whose nodes get into no range. -/
def lowIds : Int → List (UInt64 × Int64) → List (UInt64 × Int64)
  | _, [] => []
  | last, x :: r => if (x.1.toNat : Int) ≤ last + 2 then x :: lowIds x.1.toNat r else []

/-- The others. -/
def highIds : Int → List (UInt64 × Int64) → List (UInt64 × Int64)
  | _, [] => []
  | last, x :: r => if (x.1.toNat : Int) ≤ last + 2 then highIds x.1.toNat r else x :: r

theorem low_high (last : Int) (xs : List (UInt64 × Int64)) : lowIds last xs ++ highIds last xs = xs := by
  induction xs generalizing last with
  | nil => rfl
  | cons x xs ih =>
    unfold lowIds highIds
    split
    · rw [List.cons_append, ih]
    · rfl

/-- The last id seen as a number, -1 before the first. -/
def lastInt (u : UInt64) : Int := if u = notAssigned then -1 else (u.toNat : Int)

theorem lastInt_add (u : UInt64) (h : lastInt u < 2 ^ 63) (k : Nat) (hk : k ≤ 2) (hk' : 1 ≤ k) :
    ((u + UInt64.ofNat k).toNat : Int) = lastInt u + k := by
  unfold lastInt at *
  rw [UInt64.toNat_add, UInt64.toNat_ofNat']
  split at h
  · rename_i hu
    rw [if_pos hu, hu, notAssigned_toNat]
    omega
  · rename_i hu
    rw [if_neg hu]
    omega

/-- A state in which no range is open yet. -/
theorem low_fold (xs : List (UInt64 × Int64)) : ∀ (d : List Int64) (last : UInt64), lastInt last < 2 ^ 63 →
    (∀ x ∈ xs, lastInt last < x.1.toNat ∧ x.1.toNat < 2 ^ 63) →
    xs.Pairwise (fun a b => a.1.toNat < b.1.toNat) →
    (highIds (lastInt last) xs = [] →
      ∃ d' last', xs.foldl addSlot ⟨[], d, notAssigned, last⟩ = ⟨[], d', notAssigned, last'⟩ ∧
        ranged (lastInt last) (xs.map ofSlot) = []) ∧
    (highIds (lastInt last) xs ≠ [] →
      ∃ d' : List Int64, ∃ m : Int, xs.foldl addSlot ⟨[], d, notAssigned, last⟩ =
        ((highIds (lastInt last) xs).foldl addSlot State.init).front (d ++ d') ∧
        (∀ x ∈ highIds (lastInt last) xs, m + 2 < x.1.toNat) ∧ -1 ≤ m ∧
        d'.length + 0 ≤ 2 * (lowIds (lastInt last) xs).length ∧
        ranged (lastInt last) (xs.map ofSlot) = slots m ((highIds (lastInt last) xs).map ofSlot) ∧
        (slots (lastInt last) (xs.map ofSlot)).map (·.2) =
          d' ++ (slots m ((highIds (lastInt last) xs).map ofSlot)).map (·.2)) := by
  induction xs with
  | nil =>
    intro d last _ _ _
    exact ⟨fun _ => ⟨d, last, rfl, rfl⟩, fun h => absurd rfl h⟩
  | cons x xs ih =>
    intro d last hl h hp
    rw [List.pairwise_cons] at hp
    obtain ⟨h1, h2⟩ := h x (by simp)
    have hn1 := lastInt_add last hl 1 (by omega) (by omega)
    have hn2 := lastInt_add last hl 2 (by omega) (by omega)
    rw [show UInt64.ofNat 1 = 1 from rfl] at hn1
    rw [show UInt64.ofNat 2 = 2 from rfl] at hn2
    have hx : x.1 ≠ notAssigned := ne_notAssigned h2
    have hlx : lastInt x.1 = (x.1.toNat : Int) := if_neg hx
    have hlast : -1 ≤ lastInt last := by unfold lastInt; split <;> omega
    have hrest : ∀ y ∈ xs, lastInt x.1 < y.1.toNat ∧ y.1.toNat < 2 ^ 63 := by
      intro y hy
      rw [hlx]
      have := hp.1 y hy
      exact ⟨by omega, (h y (by simp [hy])).2⟩
    have hmap : (x :: xs).map ofSlot = ((x.1.toNat : Int), x.2) :: xs.map ofSlot := rfl
    by_cases hc : (x.1.toNat : Int) ≤ lastInt last + 2
    · -- still low
      have hhigh : highIds (lastInt last) (x :: xs) = highIds (lastInt x.1) xs := by
        conv => lhs; unfold highIds
        rw [if_pos hc, hlx]
      have hlow : lowIds (lastInt last) (x :: xs) = x :: lowIds (lastInt x.1) xs := by
        conv => lhs; unfold lowIds
        rw [if_pos hc, hlx]
      have hr : ranged (lastInt last) ((x :: xs).map ofSlot) = ranged (lastInt x.1) (xs.map ofSlot) := by
        rw [hmap]
        conv => lhs; unfold ranged
        rw [if_pos hc, hlx]
      obtain ⟨g, gs, gl, gp⟩ : ∃ g : List Int64, addSlot ⟨[], d, notAssigned, last⟩ x =
          ⟨[], d ++ g, notAssigned, x.1⟩ ∧ g.length ≤ 2 ∧
          (slots (lastInt last) ((x :: xs).map ofSlot)).map (·.2) =
            g ++ (slots (lastInt x.1) (xs.map ofSlot)).map (·.2) := by
        rw [hmap, hlx, slots_cons]
        unfold addSlot State.addId
        dsimp only
        by_cases c1 : x.1 = last + 1
        · have := congrArg UInt64.toNat c1
          rw [if_pos c1, if_neg (by omega)]
          exact ⟨[x.2], rfl, by simp, by simp⟩
        · have hc1 : x.1.toNat ≠ (last + 1).toNat := fun hh => c1 (UInt64.toNat_inj.1 hh)
          have c2 : x.1 = last + 2 := UInt64.toNat_inj.1 (by omega)
          rw [if_neg c1, if_pos c2, if_pos (by omega)]
          exact ⟨[0, x.2], by simp, by simp, by simp⟩
      obtain ⟨i1, i2⟩ := ih (d ++ g) x.1 (by rw [hlx]; omega) hrest hp.2
      rw [hhigh, hr, List.foldl_cons, gs]
      refine ⟨i1, ?_⟩
      intro hne
      obtain ⟨d', m, j1, j2, j3, j4, j5, j6⟩ := i2 hne
      refine ⟨g ++ d', m, ?_, j2, j3, ?_, j5, ?_⟩
      · rw [← List.append_assoc]; exact j1
      · rw [hlow, List.length_append, List.length_cons]; omega
      · rw [gp, j6, List.append_assoc]
    · -- a range opens
      have hhigh : highIds (lastInt last) (x :: xs) = x :: xs := by
        conv => lhs; unfold highIds
        rw [if_neg hc]
      have hlow : lowIds (lastInt last) (x :: xs) = [] := by
        conv => lhs; unfold lowIds
        rw [if_neg hc]
      rw [hhigh, hlow]
      refine ⟨fun h => by simp at h, fun _ => ⟨[], lastInt last, ?_, ?_, hlast, by simp, ?_, by simp⟩⟩
      · have h1' : x.1 ≠ last + 1 := by
          intro hh
          have := congrArg UInt64.toNat hh
          omega
        have h2' : x.1 ≠ last + 2 := by
          intro hh
          have := congrArg UInt64.toNat hh
          omega
        have h3' : x.1 ≠ notAssigned + 1 := by
          intro hh
          have := congrArg UInt64.toNat hh
          rw [show (notAssigned + 1).toNat = 0 from by decide] at this
          omega
        have h4' : x.1 ≠ notAssigned + 2 := by
          intro hh
          have := congrArg UInt64.toNat hh
          rw [show (notAssigned + 2).toNat = 1 from by decide] at this
          omega
        rw [List.foldl_cons, List.foldl_cons, ← front_fold]
        congr 1
        unfold addSlot State.addId State.init State.front State.flush
        simp [h1', h2', h3', h4']
      · intro y hy
        rcases List.mem_cons.1 hy with rfl | hy
        · omega
        · have := hp.1 y hy
          omega
      · rw [hmap]
        conv => lhs; unfold ranged
        rw [if_neg hc]

theorem front_flush (d : List Int64) (st : State) : (st.front d).flush = st.flush := rfl

theorem placed_eq (pb : PrimitiveBlock) (h : ∀ n ∈ sourceNodes pb, 0 ≤ n.id.toInt) :
    placed pb = ((sourceNodes pb).map (slotOf pb)).map ofSlot := by
  unfold placed
  rw [List.map_map]
  apply List.map_congr_left
  intro n hn
  have := i64_nat (h n hn)
  unfold ofSlot slotOf locVal
  simp only [Function.comp_apply, this]
  rfl

theorem mem_high {last : Int} {xs : List (UInt64 × Int64)} {x : UInt64 × Int64} (h : x ∈ highIds last xs) :
    x ∈ xs := by
  rw [← low_high last xs]
  exact List.mem_append_right _ h

/-- One block. -/
theorem block_low (pb : PrimitiveBlock) (hc : DenseComplete pb) (hid : ∀ n ∈ sourceNodes pb, 0 ≤ n.id.toInt)
    (hasc : (sourceNodes pb).Pairwise fun a b => a.id.toInt < b.id.toInt) :
    ∃ (R : List IndexRange) (locs L : List Int64) (ns : List (Nat × Int64)),
      indexBlock pb = .ok (if R = [] then none else some ⟨R, locs⟩) ∧ Layout R L ns ∧
      (∀ n ∈ ns, ∃ x ∈ sourceNodes pb, x.id.toInt = n.1 ∧ 2 ≤ n.1) ∧
      (R.flatMap idsOf).map (fun n : Nat => (n : Int)) = (ranged (-1) (placed pb)).map (·.1) ∧
      (R = [] ↔ ranged (-1) (placed pb) = []) ∧
      (R ≠ [] → locs = (slots (-1) (placed pb)).map (·.2) ∧ L.length ≤ locs.length ∧
        locs.length ≤ 2 * (sourceNodes pb).length) ∧
      ns.length ≤ (sourceNodes pb).length := by
  rw [indexBlock_eq pb hc, placed_eq pb hid]
  dsimp only
  have hb : ∀ x ∈ (sourceNodes pb).map (slotOf pb), x.1.toNat < 2 ^ 63 ∧ x.2 ≠ 0 ∧
      ∃ n ∈ sourceNodes pb, n.id.toInt = (x.1.toNat : Int) := by
    intro x hx
    obtain ⟨n, hn, rfl⟩ := List.mem_map.1 hx
    have h1 := i64_nat (hid n hn)
    have h2 := n.id.toInt_lt
    refine ⟨?_, (nodeLocation_eq pb n).2, n, hn, h1.symm⟩
    show n.id.toUInt64.toNat < _
    omega
  have hp : ((sourceNodes pb).map (slotOf pb)).Pairwise fun a b => a.1.toNat < b.1.toNat := by
    rw [List.pairwise_map]
    refine List.Pairwise.imp_of_mem ?_ hasc
    intro a b ha hb hab
    have h1 := i64_nat (hid a ha)
    have h2 := i64_nat (hid b hb)
    show a.id.toUInt64.toNat < b.id.toUInt64.toNat
    omega
  have hlen : ((sourceNodes pb).map (slotOf pb)).length = (sourceNodes pb).length := by simp
  rw [← hlen]
  generalize (sourceNodes pb).map (slotOf pb) = xs at hb hp
  have hli : lastInt notAssigned = -1 := by decide
  obtain ⟨f1, f2⟩ := low_fold xs [] notAssigned (by decide)
    (fun x hx => ⟨by rw [hli]; omega, (hb x hx).1⟩) hp
  rw [hli] at f1 f2
  by_cases hh : highIds (-1) xs = []
  · obtain ⟨d', last', e1, e2⟩ := f1 hh
    rw [show State.init = ⟨[], [], notAssigned, notAssigned⟩ from rfl, e1, e2]
    have hfl : State.flush ⟨[], d', notAssigned, last'⟩ = [] := if_neg (by simp)
    rw [hfl]
    refine ⟨[], d', [], [], rfl, ⟨⟨[], rfl, rfl, rfl⟩, .nil, ?_, ?_, ?_, ?_⟩, ?_, rfl, by simp, ?_, ?_⟩ <;> simp
  · obtain ⟨d', m, e1, e2, e3, e4, e5, e6⟩ := f2 hh
    rw [show State.init = ⟨[], [], notAssigned, notAssigned⟩ from rfl, e1, front_flush]
    have hhb : ∀ x ∈ highIds (-1) xs, 2 ≤ x.1.toNat ∧ x.1.toNat < 2 ^ 63 ∧ x.2 ≠ 0 := by
      intro x hx
      have := e2 x hx
      exact ⟨by omega, (hb x (mem_high hx)).1, (hb x (mem_high hx)).2.1⟩
    have hhp : (highIds (-1) xs).Pairwise fun a b => a.1.toNat < b.1.toNat := by
      rw [← low_high (-1) xs, List.pairwise_append] at hp
      exact hp.2.1
    have hhl : (lowIds (-1) xs).length + (highIds (-1) xs).length = xs.length := by
      rw [← List.length_append, low_high]
    have hmem : ∀ x ∈ highIds (-1) xs, ∃ n ∈ sourceNodes pb, n.id.toInt = (x.1.toNat : Int) :=
      fun x hx => (hb x (mem_high hx)).2.2
    obtain ⟨l1, l2⟩ := layout_fold (highIds (-1) xs) hhb hhp
    have hne : (List.foldl addSlot State.init (highIds (-1) xs)).flush ≠ [] := fun h => hh (l2.1 h)
    -- the slots of the open ranges
    have hopen : ((List.foldl addSlot State.init (highIds (-1) xs)).flush.flatMap idsOf).map
          (fun n : Nat => (n : Int)) = (slots m ((highIds (-1) xs).map ofSlot)).map (·.1) ∧
        (List.foldl addSlot State.init (highIds (-1) xs)).locs =
          (slots m ((highIds (-1) xs).map ofSlot)).map (·.2) := by
      cases hys : highIds (-1) xs with
      | nil => exact absurd hys hh
      | cons y ys =>
        rw [hys] at e2 hhb hhp
        obtain ⟨y1, y2, y3⟩ := hhb y (by simp)
        have hym := e2 y (by simp)
        rw [List.pairwise_cons] at hhp
        have hi := inv_first y1 y2 y3
        have ho := open_fold ys (addSlot State.init y) hi.first hi.le
          (fun z hz => ⟨by rw [addSlot_last]; exact hhp.1 z hz, (hhb z (by simp [hz])).2.1⟩) hhp.2
        have hst : addSlot State.init y = ⟨[], [y.2], y.1, y.1⟩ := by
          have h1 : y.1 ≠ notAssigned + 1 := by
            intro h
            have := congrArg UInt64.toNat h
            rw [show (notAssigned + 1).toNat = 0 from by decide] at this
            omega
          have h2 : y.1 ≠ notAssigned + 2 := by
            intro h
            have := congrArg UInt64.toNat h
            rw [show (notAssigned + 2).toNat = 1 from by decide] at this
            omega
          unfold addSlot State.addId State.init
          simp only [h1, h2, if_false]
          unfold State.flush
          simp
        rw [hst] at ho
        rw [List.foldl_cons, hst, ho.1, ho.2, flush_pos (st := ⟨[], [y.2], y.1, y.1⟩) (ne_notAssigned y2),
          List.map_cons, show ofSlot y = ((y.1.toNat : Int), y.2) from rfl, slots_cons, if_neg (by omega)]
        simp [idsOf_single]
    refine ⟨_, _, _, _, rfl, l1, ?_, ?_, ?_, ?_, ?_⟩
    · intro n hn
      obtain ⟨x, hx, rfl⟩ := List.mem_map.1 hn
      obtain ⟨q, hq, he⟩ := hmem x hx
      exact ⟨q, hq, he, (hhb x hx).1⟩
    · rw [hopen.1, e5]
    · refine ⟨fun h => absurd h hne, fun h => ?_⟩
      rw [e5] at h
      rw [h] at hopen
      have := hopen.1
      exfalso
      apply hne
      have hnil : ((List.foldl addSlot State.init (highIds (-1) xs)).flush.flatMap idsOf) = [] := by
        simpa using this
      cases hf : (List.foldl addSlot State.init (highIds (-1) xs)).flush with
      | nil => rfl
      | cons r rs =>
        rw [hf] at hnil
        have h1 := l1.nonempty r (by rw [hf]; simp)
        have h2 := congrArg List.length hnil
        rw [flatMap_idsOf_length] at h2
        simp only [slotTotal, List.map_cons, List.sum_cons, List.length_nil] at h2
        unfold cnt at h2
        omega
    · intro _
      have hsz := l1.size
      rw [List.length_map] at hsz
      refine ⟨?_, ?_, ?_⟩
      · show [] ++ d' ++ _ = _
        rw [e6, hopen.2]; simp
      · show _ ≤ ([] ++ d' ++ _ : List Int64).length
        simp
      · show ([] ++ d' ++ _ : List Int64).length ≤ _
        rw [List.length_append, List.nil_append]
        omega
    · rw [List.length_map]
      omega

theorem indexable0_tail {b : Option PrimitiveBlock} {bs : List (Option PrimitiveBlock)}
    (h : Indexable0 (b :: bs)) : Indexable0 bs := by
  have hs : ∃ xs, allNodes (b :: bs) = xs ++ allNodes bs := ⟨_, by unfold allNodes; rw [List.flatMap_cons]⟩
  obtain ⟨xs, hs⟩ := hs
  refine ⟨fun pb hpb => h.complete pb (List.mem_cons_of_mem _ hpb), ?_, ?_,
    fun pb hpb => h.blockSize pb (List.mem_cons_of_mem _ hpb), ?_⟩
  · have := h.ascending
    rw [hs, List.pairwise_append] at this
    exact this.2.1
  · intro x hx
    exact h.ids x (by rw [hs]; exact List.mem_append_right _ hx)
  · have := h.total
    rw [hs, List.length_append] at this
    omega

/-- All blocks. -/
theorem work_low (blocks : List (Option PrimitiveBlock)) (h : Indexable0 blocks) :
    ∃ (bs : List (Option ElementBatch)) (L : List Int64) (ns : List (Nat × Int64)),
      mapRes work blocks = .ok bs ∧ Layout (allRanges bs) L ns ∧
      (∀ n ∈ ns, ∃ x ∈ allNodes blocks, x.2.id.toInt = n.1 ∧ 2 ≤ n.1) ∧
      ((allRanges bs).flatMap idsOf).map (fun n : Nat => (n : Int)) = rangedIds blocks ∧
      allLocs bs = storedLocs blocks ∧ L.length ≤ (storedLocs blocks).length ∧
      (storedLocs blocks).length ≤ 2 * (allNodes blocks).length ∧ ns.length ≤ (allNodes blocks).length ∧
      ∀ r ∈ allRanges bs, cnt r < 2 ^ 24 := by
  induction blocks with
  | nil =>
    refine ⟨[], [], [], rfl, ⟨⟨[], rfl, rfl, rfl⟩, .nil, ?_, ?_, ?_, ?_⟩, ?_, rfl, rfl, ?_, ?_, ?_, ?_⟩ <;>
      simp [allRanges, storedLocs]
  | cons b bs ih =>
    obtain ⟨rest, L, ns, i1, i2, i3, i4, i5, i6, i7, i8, i9⟩ := ih (indexable0_tail h)
    cases b with
    | none =>
      refine ⟨none :: rest, L, ns, ?_, i2, i3, i4, i5, i6, i7, i8, i9⟩
      unfold mapRes
      rw [i1]
      rfl
    | some pb =>
      have hall : allNodes (some pb :: bs) = (sourceNodes pb).map (fun n => (pb, n)) ++ allNodes bs := rfl
      have hasc := h.ascending
      rw [hall, List.pairwise_append] at hasc
      obtain ⟨a1, a2, a3⟩ := hasc
      rw [List.pairwise_map] at a1
      obtain ⟨R, locs, L', ns', j1, j2, j3, j4, j5, j6, j7⟩ := block_low pb (h.complete pb (by simp))
        (fun n hn => h.ids (pb, n) (by rw [hall]; exact List.mem_append_left _ (List.mem_map_of_mem hn))) a1
      have hranges : allRanges ((if R = [] then none else some ⟨R, locs⟩) :: rest) = R ++ allRanges rest := by
        by_cases hf : R = []
        · rw [if_pos hf, hf]; rfl
        · rw [if_neg hf]; rfl
      have hri : rangedIds (some pb :: bs) = (ranged (-1) (placed pb)).map (·.1) ++ rangedIds bs := rfl
      have hsl : storedLocs (some pb :: bs) =
          (if ranged (-1) (placed pb) = [] then [] else (slots (-1) (placed pb)).map (·.2)) ++ storedLocs bs := rfl
      have hLR : R = [] → L' = [] := by
        intro hR
        obtain ⟨S, s1, s2, _⟩ := j2.slots
        rw [hR] at s1
        have : S = [] := by simpa using s1
        rw [← s2, this]; rfl
      refine ⟨(if R = [] then none else some ⟨R, locs⟩) :: rest, L' ++ L, ns' ++ ns, ?_, ?_, ?_, ?_, ?_, ?_, ?_, ?_, ?_⟩
      · unfold mapRes
        rw [show work (some pb) = indexBlock pb from rfl, j1]
        simp only [Res.ok_bind]
        rw [i1]
        rfl
      · rw [hranges]
        refine layout_append j2 i2 ?_
        intro a ha b hb
        obtain ⟨x, hx, e1, _⟩ := j3 a ha
        obtain ⟨y, hy, e2, _⟩ := i3 b hb
        have := a3 (pb, x) (List.mem_map_of_mem hx) y hy
        dsimp only at this
        omega
      · intro n hn
        rcases List.mem_append.1 hn with hn | hn
        · obtain ⟨x, hx, e⟩ := j3 n hn
          exact ⟨(pb, x), by rw [hall]; exact List.mem_append_left _ (List.mem_map_of_mem hx), e⟩
        · obtain ⟨x, hx, e⟩ := i3 n hn
          exact ⟨x, by rw [hall]; exact List.mem_append_right _ hx, e⟩
      · rw [hranges, hri, flatMap_idsOf_append, List.map_append, j4, i4]
      · rw [hsl, ← i5]
        by_cases hf : R = []
        · rw [if_pos hf, if_pos (j5.1 hf)]; rfl
        · rw [if_neg hf, if_neg (fun h => hf (j5.2 h)), ← (j6 hf).1]; rfl
      · rw [hsl, List.length_append, List.length_append]
        by_cases hf : R = []
        · rw [hLR hf, if_pos (j5.1 hf)]; simpa using i6
        · have := j6 hf
          rw [if_neg (fun h => hf (j5.2 h)), ← this.1]; omega
      · rw [hsl, hall, List.length_append, List.length_append, List.length_map]
        by_cases hf : R = []
        · rw [if_pos (j5.1 hf)]
          simp only [List.length_nil]
          omega
        · have := j6 hf
          rw [if_neg (fun h => hf (j5.2 h)), ← this.1]; omega
      · rw [hall, List.length_append, List.length_append, List.length_map]; omega
      · rw [hranges]
        intro r hr
        rcases List.mem_append.1 hr with hr | hr
        · have hsz := j2.size
          obtain ⟨S, s1, s2, _⟩ := j2.slots
          have hb := h.blockSize pb (by simp)
          have : cnt r ≤ L'.length := by
            have e1 : L'.length = slotTotal R := by
              rw [← s2, List.length_map, ← flatMap_idsOf_length, ← s1, List.length_map]
            rw [e1]
            unfold slotTotal
            exact le_sum_of_mem (List.mem_map_of_mem hr)
          omega
        · exact i9 r hr

/-- The whole run. -/
theorem run_low (blocks : List (Option PrimitiveBlock)) (h : Indexable0 blocks) :
    ∃ bs es, mapRes work blocks = .ok bs ∧ allLocs bs = storedLocs blocks ∧
      batches 0 0 bs = .ok (UInt64.ofNat es.length, elemWords es, storedLocs blocks) ∧
      WellFormed es (storedLocs blocks) ∧ es.length < 2 ^ 62 ∧ slotCount es ≤ (storedLocs blocks).length ∧
      (storedLocs blocks).length < 2 ^ 63 ∧ (∀ i ∈ rangedIds blocks, 2 ≤ i) ∧
      (es = [] → rangedIds blocks = []) ∧
      ∀ (id : Nat) l, HasLoc es (storedLocs blocks) id l ↔
        ∃ k : Nat, (rangedIds blocks)[k]? = some (id : Int) ∧ (storedLocs blocks)[k]? = some l ∧ l ≠ 0 := by
  obtain ⟨bs, L, ns, h1, h2, h3, h4, h5, h6, h7, h8, h9⟩ := work_low blocks h
  obtain ⟨S, s1, s2, s3⟩ := h2.slots
  have hlen : L.length = slotTotal (allRanges bs) := by
    rw [← s2, List.length_map, ← flatMap_idsOf_length, ← s1, List.length_map]
  have hsz := h2.size
  have htot := h.total
  obtain ⟨es, g4, g5⟩ := batches_ok bs 0 0 (fun r hr => ⟨h2.nonempty r hr, h9 r hr⟩) (by omega)
  obtain ⟨w1, w2, w3⟩ := layout_index h2 g5
  clear w3
  have hsc : slotCount es = L.length := w2
  refine ⟨bs, es, h1, h5, ?_, ⟨w1.nonempty, w1.ids, ?_, w1.sorted⟩, ?_, by omega, by omega, ?_, ?_, ?_⟩
  · rw [Nat.zero_add, h5] at g4
    exact g4
  · intro e he
    have := w1.slots e he
    omega
  · have : es.length ≤ slotCount es := by
      have hne := w1.nonempty
      clear g4 g5 w1 w2 hsc
      induction es with
      | nil => simp
      | cons e es ih =>
        have := ih (fun e' he' => hne e' (by simp [he']))
        have := hne e (by simp)
        simp only [slotCount, List.map_cons, List.sum_cons, List.length_cons] at *
        omega
    omega
  · intro i hi
    rw [← h4, List.mem_map] at hi
    obtain ⟨n, hn, rfl⟩ := hi
    obtain ⟨r, hr, hn⟩ := List.mem_flatMap.1 hn
    obtain ⟨x, hx, he⟩ := List.mem_map.1 (h2.firsts r hr)
    obtain ⟨_, _, _, h2x⟩ := h3 x hx
    unfold idsOf at hn
    rw [List.mem_range'_1] at hn
    omega
  · intro he
    have := elems_length g5
    rw [he] at this
    rw [← h4, List.eq_nil_of_length_eq_zero this.symm]
    rfl
  · intro id l
    have hids : (rangedIds blocks).length = L.length := by
      rw [← h4, List.length_map, flatMap_idsOf_length, hlen]
    let S' : List (Nat × Int64) := ((allRanges bs).flatMap idsOf).zip ((storedLocs blocks).take L.length)
    have hl1 : ((allRanges bs).flatMap idsOf).length = L.length := by rw [flatMap_idsOf_length, hlen]
    have hl2 : ((storedLocs blocks).take L.length).length = L.length := by rw [List.length_take]; omega
    have t1 : S'.map (·.1) = (allRanges bs).flatMap idsOf := List.map_fst_zip (by omega)
    have t2 : S'.map (·.2) = (storedLocs blocks).take L.length := List.map_snd_zip (by omega)
    have key := elems_slots (pre := []) g5 t1 rfl id l
    rw [List.nil_append, t2] at key
    have hiff : HasLoc es (storedLocs blocks) id l ↔ (id, l) ∈ S' ∧ l ≠ 0 := by
      rw [← key]
      unfold HasLoc
      constructor
      · rintro ⟨e, e1, e2, e3, e4⟩
        have hs := w1.slots e e1
        unfold rHas at e2
        exact ⟨⟨e, e1, e2, by rw [List.getElem?_take_of_lt (by omega)]; exact e3⟩, e4⟩
      · rintro ⟨⟨e, e1, e2, e3⟩, e4⟩
        have hs := w1.slots e e1
        refine ⟨e, e1, e2, ?_, e4⟩
        unfold rHas at e2
        rw [List.getElem?_take_of_lt (by omega)] at e3
        exact e3
    rw [hiff]
    constructor
    · rintro ⟨hm, hl⟩
      obtain ⟨k, hk⟩ := List.mem_iff_getElem?.1 hm
      rw [List.getElem?_zip_eq_some] at hk
      obtain ⟨k1, k2⟩ := hk
      have hkl : k < L.length := by
        have := List.getElem?_eq_some_iff.1 k1
        obtain ⟨hh, _⟩ := this
        omega
      rw [List.getElem?_take_of_lt hkl] at k2
      refine ⟨k, ?_, k2, hl⟩
      rw [← h4, List.getElem?_map, k1]; rfl
    · rintro ⟨k, k1, k2, hl⟩
      refine ⟨List.mem_iff_getElem?.2 ⟨k, ?_⟩, hl⟩
      have hkl : k < L.length := by
        obtain ⟨hh, _⟩ := List.getElem?_eq_some_iff.1 k1
        omega
      rw [List.getElem?_zip_eq_some]
      refine ⟨?_, ?_⟩
      · rw [← h4, List.getElem?_map] at k1
        cases hq : ((allRanges bs).flatMap idsOf)[k]? with
        | none => rw [hq] at k1; simp at k1
        | some q =>
          rw [hq] at k1
          simp only [Option.map_some, Option.some.injEq] at k1
          rw [Int.ofNat_inj.1 k1]
      · rw [List.getElem?_take_of_lt hkl]; exact k2

end Osm.NodeIndexer
