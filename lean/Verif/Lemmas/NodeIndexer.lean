import Verif.Spec.NodeIndexer
import Verif.Lemmas.TwoFile
import Verif.Lemmas.NodeIndex
import Verif.Lemmas.Morton

/-! # The node indexer -/

namespace Osm.NodeIndexer
open Osm Osm.T Osm.NodeIndex Osm.Spec

/-! ## What a block turns into -/

/-- Number of ids in a range. -/
def cnt (r : IndexRange) : Nat := r.last.toNat + 1 - r.first.toNat

/-- The ids of a range. -/
def idsOf (r : IndexRange) : List Nat := List.range' r.first.toNat (cnt r)

/-- Ranges with their slots. -/
structure Layout (ranges : List IndexRange) (locs : List Int64) (nodes : List (Nat × Int64)) : Prop where
  slots : ∃ S : List (Nat × Int64), S.map (·.1) = ranges.flatMap idsOf ∧ S.map (·.2) = locs ∧
    S.filter (fun s => s.2 ≠ 0) = nodes
  ordered : ranges.Pairwise fun a b => a.last.toNat < b.first.toNat
  nonempty : ∀ r ∈ ranges, r.first.toNat ≤ r.last.toNat
  firsts : ∀ r ∈ ranges, r.first.toNat ∈ nodes.map (·.1)
  lasts : ∀ r ∈ ranges, r.last.toNat ∈ nodes.map (·.1)
  size : locs.length ≤ 2 * nodes.length

/-- Adding an id with its location. -/
def addSlot (st : State) (x : UInt64 × Int64) : State :=
  let st := st.addId x.1
  { st with locs := st.locs ++ [x.2] }

/-- Id and location as numbers. -/
def num (x : UInt64 × Int64) : Nat × Int64 := (x.1.toNat, x.2)

structure Inv (st : State) (xs : List (UInt64 × Int64)) : Prop where
  layout : Layout st.flush st.locs (xs.map num)
  first : st.firstId ≠ notAssigned
  last : ∃ x, xs.getLast? = some x ∧ x.1 = st.lastId
  le : st.firstId.toNat ≤ st.lastId.toNat

theorem flush_pos {st : State} (h : st.firstId ≠ notAssigned) :
    st.flush = st.ranges ++ [⟨st.firstId, st.lastId⟩] := if_pos h

theorem notAssigned_toNat : notAssigned.toNat = 2 ^ 64 - 1 := by decide

theorem ne_notAssigned {x : UInt64} (h : x.toNat < 2 ^ 63) : x ≠ notAssigned := by
  intro h'
  rw [h', notAssigned_toNat] at h
  omega

theorem flatMap_idsOf_append (a b : List IndexRange) :
    (a ++ b).flatMap idsOf = a.flatMap idsOf ++ b.flatMap idsOf := List.flatMap_append

theorem idsOf_single (x : UInt64) : idsOf ⟨x, x⟩ = [x.toNat] := by
  unfold idsOf cnt
  rw [show x.toNat + 1 - x.toNat = 1 by omega]
  rfl

theorem idsOf_extend (a b c : UInt64) (h1 : a.toNat ≤ b.toNat) (h2 : c.toNat = b.toNat + 1) :
    idsOf ⟨a, c⟩ = idsOf ⟨a, b⟩ ++ [c.toNat] := by
  unfold idsOf cnt
  dsimp only
  rw [show c.toNat + 1 - a.toNat = (b.toNat + 1 - a.toNat) + 1 by omega, List.range'_concat, h2]
  congr 2
  omega

theorem inv_first {x : UInt64 × Int64} (hx : 2 ≤ x.1.toNat) (hx' : x.1.toNat < 2 ^ 63) (hl : x.2 ≠ 0) :
    Inv (addSlot State.init x) [x] := by
  have h1 : x.1 ≠ notAssigned + 1 := by
    intro h
    have := congrArg UInt64.toNat h
    rw [show (notAssigned + 1).toNat = 0 from by decide] at this
    omega
  have h2 : x.1 ≠ notAssigned + 2 := by
    intro h
    have := congrArg UInt64.toNat h
    rw [show (notAssigned + 2).toNat = 1 from by decide] at this
    omega
  have h3 := ne_notAssigned hx'
  have hst : addSlot State.init x = ⟨[], [x.2], x.1, x.1⟩ := by
    unfold addSlot State.addId State.init
    simp only [h1, h2, if_false]
    unfold State.flush
    simp
  rw [hst]
  have hf : State.flush ⟨[], [x.2], x.1, x.1⟩ = [⟨x.1, x.1⟩] := flush_pos h3
  refine ⟨?_, h3, ⟨x, rfl, rfl⟩, Nat.le_refl _⟩
  rw [hf]
  refine ⟨⟨[num x], ?_, ?_, ?_⟩, ?_, ?_, ?_, ?_, ?_⟩
  · simp [idsOf_single, num]
  · simp [num]
  · simp [num, hl]
  · simp
  · simp
  · simp [num]
  · simp [num]
  · simp

theorem inv_step {st : State} {xs : List (UInt64 × Int64)} {x : UInt64 × Int64} (h : Inv st xs)
    (hx : st.lastId.toNat < x.1.toNat) (hx' : x.1.toNat < 2 ^ 63) (hl : x.2 ≠ 0) :
    Inv (addSlot st x) (xs ++ [x]) := by
  have hlay := h.layout
  have hle := h.le
  obtain ⟨y, hy, hyl⟩ := h.last
  have hmemy : y ∈ xs := List.mem_of_getLast? hy
  have hn1 : (st.lastId + 1).toNat = st.lastId.toNat + 1 := by
    rw [UInt64.toNat_add, show (1 : UInt64).toNat = 1 from rfl]; omega
  have hn2 : (st.lastId + 2).toNat = st.lastId.toNat + 2 := by
    rw [UInt64.toNat_add, show (2 : UInt64).toNat = 2 from rfl]; omega
  rw [flush_pos h.first] at hlay
  obtain ⟨S, s1, s2, s3⟩ := hlay.slots
  have hord := hlay.ordered
  have hnon := hlay.nonempty
  have hfs := hlay.firsts
  have hls := hlay.lasts
  have hsz := hlay.size
  have hlastpair : (xs ++ [x]).getLast? = some x := by simp
  have hxnum : (xs ++ [x]).map num = xs.map num ++ [num x] := by simp
  have hxmem : x.1.toNat ∈ ((xs ++ [x]).map num).map (·.1) := by simp [num]
  have hup : ∀ n, n ∈ (xs.map num).map (·.1) → n ∈ ((xs ++ [x]).map num).map (·.1) := by
    intro n hn; rw [hxnum, List.map_append]; exact List.mem_append_left _ hn
  have hxs0 : 1 ≤ xs.length := by
    rcases xs with _ | ⟨a, as⟩
    · simp at hmemy
    · simp
  rw [List.pairwise_append] at hord
  obtain ⟨ho1, ho2, ho3⟩ := hord
  -- the part common to the two extending cases
  have extend : ∀ (gap : List (Nat × Int64)),
      (idsOf ⟨st.firstId, x.1⟩ = idsOf ⟨st.firstId, st.lastId⟩ ++ gap.map (·.1) ++ [x.1.toNat]) →
      (gap.map (·.2)).filter (· ≠ 0) = [] → gap.length ≤ 1 →
      Inv ⟨st.ranges, st.locs ++ gap.map (·.2) ++ [x.2], st.firstId, x.1⟩ (xs ++ [x]) := by
    intro gap hg hg0 hgl
    refine ⟨?_, h.first, ⟨x, hlastpair, rfl⟩, by dsimp only; omega⟩
    rw [flush_pos (st := ⟨st.ranges, _, st.firstId, x.1⟩) h.first]
    refine ⟨⟨S ++ gap ++ [num x], ?_, ?_, ?_⟩, ?_, ?_, ?_, ?_, ?_⟩
    · rw [List.map_append, List.map_append, s1, flatMap_idsOf_append, flatMap_idsOf_append]
      dsimp only
      simp only [List.flatMap_cons, List.flatMap_nil, List.append_nil, hg, num]
      simp
    · simp only [List.map_append, s2]
      simp [num]
    · rw [List.filter_append, List.filter_append, s3, hxnum]
      have : gap.filter (fun s => s.2 ≠ 0) = [] := by
        rw [List.filter_eq_nil_iff] at hg0 ⊢
        intro a ha
        exact hg0 a.2 (List.mem_map_of_mem ha)
      rw [this]
      simp [num, hl]
    · rw [List.pairwise_append]
      refine ⟨ho1, by simp, ?_⟩
      intro a ha b hb
      have := ho3 a ha ⟨st.firstId, st.lastId⟩ (by simp)
      simp only [List.mem_singleton] at hb
      subst hb
      exact this
    · intro r hr
      rcases List.mem_append.1 hr with hr | hr
      · exact hnon r (List.mem_append_left _ hr)
      · simp only [List.mem_singleton] at hr
        subst hr
        dsimp only
        omega
    · intro r hr
      rcases List.mem_append.1 hr with hr | hr
      · exact hup _ (hfs r (List.mem_append_left _ hr))
      · simp only [List.mem_singleton] at hr
        subst hr
        exact hup _ (hfs ⟨st.firstId, st.lastId⟩ (by simp))
    · intro r hr
      rcases List.mem_append.1 hr with hr | hr
      · exact hup _ (hls r (List.mem_append_left _ hr))
      · simp only [List.mem_singleton] at hr
        subst hr
        exact hxmem
    · simp only [List.length_append, List.length_map, List.length_cons, List.length_nil] at hsz ⊢
      omega
  unfold addSlot State.addId
  by_cases c1 : x.1 = st.lastId + 1
  · rw [if_pos c1]
    have hc := congrArg UInt64.toNat c1
    have := extend [] (by rw [idsOf_extend _ _ _ hle (by omega)]; simp) (by simp) (by simp)
    simpa using this
  · rw [if_neg c1]
    have hc1 : x.1.toNat ≠ st.lastId.toNat + 1 := by
      intro hh; exact c1 (UInt64.toNat_inj.1 (by omega))
    by_cases c2 : x.1 = st.lastId + 2
    · rw [if_pos c2]
      have hc := congrArg UInt64.toNat c2
      have := extend [(st.lastId.toNat + 1, 0)]
        (by
          rw [idsOf_extend st.firstId (st.lastId + 1) x.1 (by omega) (by omega),
            idsOf_extend st.firstId st.lastId (st.lastId + 1) hle hn1, hn1]
          simp)
        (by simp) (by simp)
      simpa using this
    · rw [if_neg c2]
      have hc2 : x.1.toNat ≠ st.lastId.toNat + 2 := by
        intro hh; exact c2 (UInt64.toNat_inj.1 (by omega))
      have h3 := ne_notAssigned hx'
      refine ⟨?_, h3, ⟨x, hlastpair, rfl⟩, Nat.le_refl _⟩
      dsimp only
      rw [flush_pos (st := ⟨st.flush, _, x.1, x.1⟩) h3, flush_pos h.first]
      refine ⟨⟨S ++ [num x], ?_, ?_, ?_⟩, ?_, ?_, ?_, ?_, ?_⟩
      · rw [List.map_append, s1, flatMap_idsOf_append (st.ranges ++ [_])]
        simp only [List.flatMap_cons, List.flatMap_nil, List.append_nil, idsOf_single, num]
        simp
      · simp only [List.map_append, s2]
        simp [num]
      · rw [List.filter_append, s3, hxnum]
        simp [num, hl]
      · rw [List.pairwise_append]
        refine ⟨?_, by simp, ?_⟩
        · rw [List.pairwise_append]; exact ⟨ho1, ho2, ho3⟩
        · intro a ha b hb
          simp only [List.mem_singleton] at hb
          subst hb
          rcases List.mem_append.1 ha with ha | ha
          · have := ho3 a ha ⟨st.firstId, st.lastId⟩ (by simp)
            dsimp only at this ⊢
            omega
          · simp only [List.mem_singleton] at ha
            subst ha
            exact hx
      · intro r hr
        rcases List.mem_append.1 hr with hr | hr
        · exact hnon r hr
        · simp only [List.mem_singleton] at hr
          subst hr
          exact Nat.le_refl _
      · intro r hr
        rcases List.mem_append.1 hr with hr | hr
        · exact hup _ (hfs r hr)
        · simp only [List.mem_singleton] at hr
          subst hr
          exact hxmem
      · intro r hr
        rcases List.mem_append.1 hr with hr | hr
        · exact hup _ (hls r hr)
        · simp only [List.mem_singleton] at hr
          subst hr
          exact hxmem
      · simp only [List.length_append, List.length_map, List.length_cons, List.length_nil] at hsz ⊢
        omega

theorem inv_fold (ys : List (UInt64 × Int64)) : ∀ (st : State) (xs : List (UInt64 × Int64)), Inv st xs →
    (∀ y ∈ ys, st.lastId.toNat < y.1.toNat ∧ y.1.toNat < 2 ^ 63 ∧ y.2 ≠ 0) →
    ys.Pairwise (fun a b => a.1.toNat < b.1.toNat) → Inv (ys.foldl addSlot st) (xs ++ ys) := by
  induction ys with
  | nil => intro st xs h _ _; simpa using h
  | cons y ys ih =>
    intro st xs h hy hp
    obtain ⟨h1, h2, h3⟩ := hy y (by simp)
    have hi := inv_step h h1 h2 h3
    rw [List.foldl_cons, show xs ++ y :: ys = (xs ++ [y]) ++ ys by simp]
    rw [List.pairwise_cons] at hp
    refine ih _ _ hi ?_ hp.2
    intro z hz
    obtain ⟨_, hlast⟩ := hi.last
    have hlast' : (addSlot st y).lastId = y.1 := by
      obtain ⟨e1, e2⟩ := hlast
      simp at e1
      rw [← e2, ← e1]
    rw [hlast']
    exact ⟨hp.1 z hz, (hy z (by simp [hz])).2⟩

/-- The state after all nodes of a block. -/
theorem layout_fold (xs : List (UInt64 × Int64)) (h : ∀ x ∈ xs, 2 ≤ x.1.toNat ∧ x.1.toNat < 2 ^ 63 ∧ x.2 ≠ 0)
    (hp : xs.Pairwise fun a b => a.1.toNat < b.1.toNat) :
    let st := xs.foldl addSlot State.init
    Layout st.flush st.locs (xs.map num) ∧ (st.flush = [] ↔ xs = []) := by
  dsimp only
  cases xs with
  | nil =>
    refine ⟨⟨⟨[], rfl, rfl, rfl⟩, ?_, ?_, ?_, ?_, ?_⟩, ?_⟩ <;> simp [State.flush, State.init]
  | cons x xs =>
    obtain ⟨h1, h2, h3⟩ := h x (by simp)
    have hi := inv_first h1 h2 h3
    rw [List.pairwise_cons] at hp
    have hl : (addSlot State.init x).lastId = x.1 := by
      obtain ⟨_, e1, e2⟩ := hi.last
      simp at e1
      rw [← e2, ← e1]
    have hf := inv_fold xs _ _ hi (fun y hy => ⟨by rw [hl]; exact hp.1 y hy, (h y (by simp [hy])).2⟩) hp.2
    rw [List.foldl_cons]
    refine ⟨hf.layout, ?_⟩
    rw [flush_pos hf.first]
    simp

/-! ## From the block -/

/-- The location computed for a node. -/
theorem nodeLocation_total (pb : PrimitiveBlock) (lat lon : Int64) :
    ∃ l, nodeLocation pb lat lon = .ok l ∧ l ≠ 0 := by
  unfold nodeLocation
  obtain ⟨l, h1, h2, _⟩ := Morton.location_neg (coordinate pb.LonOffset pb.Granularity lon)
    (coordinate pb.LatOffset pb.Granularity lat)
  refine ⟨l, h1, ?_⟩
  rintro rfl
  simp at h2

/-- The location of a node (0 never occurs). -/
def locVal (pb : PrimitiveBlock) (n : SrcNode) : Int64 :=
  match nodeLocation pb n.lat n.lon with
  | .ok l => l
  | _ => 0

theorem nodeLocation_eq (pb : PrimitiveBlock) (n : SrcNode) :
    nodeLocation pb n.lat n.lon = .ok (locVal pb n) ∧ locVal pb n ≠ 0 := by
  obtain ⟨l, h1, h2⟩ := nodeLocation_total pb n.lat n.lon
  unfold locVal
  rw [h1]
  exact ⟨rfl, h2⟩

/-- Id and location of a node. -/
def slotOf (pb : PrimitiveBlock) (n : SrcNode) : UInt64 × Int64 := (n.id.toUInt64, locVal pb n)

theorem addNodes_eq (pb : PrimitiveBlock) (dn : DenseNodes) : ∀ (ids : List Int64) (st : State) (idx : Nat),
    dn.Lat.length = idx + ids.length → dn.Lon.length = idx + ids.length →
    addNodes pb dn st idx ids = .ok ((((ids.zip ((dn.Lat.drop idx).zip (dn.Lon.drop idx))).map
      fun x => SrcNode.mk x.1 x.2.1 x.2.2).map (slotOf pb)).foldl addSlot st) := by
  intro ids
  induction ids with
  | nil => intro st idx _ _; rfl
  | cons id ids ih =>
    intro st idx h1 h2
    simp only [List.length_cons] at h1 h2
    have hlat : dn.Lat[idx]? = some (dn.Lat[idx]'(by omega)) := List.getElem?_eq_getElem _
    have hlon : dn.Lon[idx]? = some (dn.Lon[idx]'(by omega)) := List.getElem?_eq_getElem _
    unfold addNodes addNode
    dsimp only
    rw [hlat, hlon]
    simp only [Res.ofOption_some, Res.ok_bind]
    have hn := (nodeLocation_eq pb ⟨id, dn.Lat[idx]'(by omega), dn.Lon[idx]'(by omega)⟩).1
    dsimp only at hn
    rw [hn]
    simp only [Res.ok_bind]
    rw [ih _ (idx + 1) (by omega) (by omega)]
    rw [List.drop_eq_getElem_cons (show idx < dn.Lat.length by omega),
      List.drop_eq_getElem_cons (show idx < dn.Lon.length by omega)]
    rfl

theorem addGroups_eq (pb : PrimitiveBlock) (pgs : List T.PrimitiveGroup) :
    (∀ pg ∈ pgs, ∀ dn, pg.Dense = some dn → dn.Lat.length = dn.Id.length ∧ dn.Lon.length = dn.Id.length) →
    ∀ st, foldRes (addGroup pb) st pgs = .ok (((pgs.flatMap fun pg =>
      match pg.Dense with
      | none => []
      | some dn => denseSource dn).map (slotOf pb)).foldl addSlot st) := by
  induction pgs with
  | nil => intro _ st; rfl
  | cons pg pgs ih =>
    intro h st
    unfold foldRes addGroup
    have ih' := ih (fun q hq => h q (by simp [hq]))
    cases hd : pg.Dense with
    | none =>
      simp only [Res.ok_bind]
      have := ih' st
      unfold addGroup at this
      rw [this]
      simp [hd]
    | some dn =>
      obtain ⟨e1, e2⟩ := h pg (by simp) dn hd
      dsimp only
      rw [addNodes_eq pb dn dn.Id st 0 (by omega) (by omega)]
      simp only [Res.ok_bind]
      have := ih' ((((dn.Id.zip ((dn.Lat.drop 0).zip (dn.Lon.drop 0))).map
        fun x => SrcNode.mk x.1 x.2.1 x.2.2).map (slotOf pb)).foldl addSlot st)
      unfold addGroup at this
      rw [this]
      simp only [List.flatMap_cons, hd, List.map_append, List.foldl_append]
      rfl

/-- What the worker sends for a block. -/
theorem indexBlock_eq (pb : PrimitiveBlock) (hc : DenseComplete pb) :
    indexBlock pb = .ok (let st := ((sourceNodes pb).map (slotOf pb)).foldl addSlot State.init
      if st.flush = [] then none else some ⟨st.flush, st.locs⟩) := by
  unfold indexBlock
  rw [addGroups_eq pb pb.PrimitiveGroup hc]
  rfl

/-! ## Elements -/

/-- Elements for ranges, the first one's slots starting at `off`. -/
def Elems : Nat → List IndexRange → List IndexElement → Prop
  | _, [], es => es = []
  | off, r :: rs, es => ∃ e es', es = e :: es' ∧ rFirst e = r.first.toNat ∧ rCount e = cnt r ∧
      rOffset e = off ∧ Elems (off + cnt r) rs es'

/-- Slots of ranges. -/
def slotTotal (rs : List IndexRange) : Nat := (rs.map cnt).sum

theorem elems_append {off : Nat} {a b : List IndexRange} {ea eb : List IndexElement}
    (ha : Elems off a ea) (hb : Elems (off + slotTotal a) b eb) : Elems off (a ++ b) (ea ++ eb) := by
  induction a generalizing off ea with
  | nil => subst ha; simpa [slotTotal] using hb
  | cons r rs ih =>
    obtain ⟨e, es', rfl, h1, h2, h3, h4⟩ := ha
    refine ⟨e, es' ++ eb, rfl, h1, h2, h3, ih h4 ?_⟩
    rw [show off + cnt r + slotTotal rs = off + slotTotal (r :: rs) by simp [slotTotal]; omega]
    exact hb

theorem elems_length {off : Nat} {a : List IndexRange} {ea : List IndexElement} (ha : Elems off a ea) :
    ea.length = a.length := by
  induction a generalizing off ea with
  | nil => subst ha; rfl
  | cons r rs ih =>
    obtain ⟨e, es', rfl, _, _, _, h4⟩ := ha
    simp [ih h4]

/-- The words of elements. -/
def elemWords (es : List IndexElement) : List UInt64 := es.flatMap fun e => [e.baseId, e.countOffset]

theorem pairsOf_elemWords (es : List IndexElement) :
    (pairsOf (elemWords es)).map (fun p => IndexElement.mk p.1 p.2) = es := by
  induction es with
  | nil => rfl
  | cons e es ih =>
    rw [show elemWords (e :: es) = e.baseId :: e.countOffset :: elemWords es from rfl, pairsOf]
    rw [List.map_cons, ih]

theorem elemWords_length (es : List IndexElement) : (elemWords es).length = 2 * es.length := by
  induction es with
  | nil => rfl
  | cons e es ih =>
    rw [show elemWords (e :: es) = e.baseId :: e.countOffset :: elemWords es from rfl]
    simp [ih]; omega

theorem newCountOffset_ok (c o : UInt64) (hc : c.toNat < 2 ^ 24) (ho : o.toNat < 2 ^ 40) :
    ∃ co, NewCountOffset c o = .ok co ∧ co.toNat = o.toNat * 2 ^ 24 + c.toNat := by
  unfold NewCountOffset
  have hO : OffsetMax.toNat = 2 ^ 40 := by decide
  have hC : CountMax.toNat = 2 ^ 24 := by decide
  rw [if_neg (by simp only [ge_iff_le, UInt64.le_iff_toNat_le, hO]; omega),
    if_neg (by simp only [gt_iff_lt, UInt64.lt_iff_toNat_lt, hC]; omega)]
  refine ⟨_, rfl, ?_⟩
  rw [UInt64.toNat_or, UInt64.toNat_shiftLeft]
  rw [show CountBits.toNat % 64 = 24 from by decide, Nat.shiftLeft_eq]
  rw [Nat.mod_eq_of_lt (by omega), ← Nat.shiftLeft_eq, ← Nat.shiftLeft_add_eq_or_of_lt (by omega)]

theorem batchWords_ok (rs : List IndexRange) : ∀ off : Nat,
    (∀ r ∈ rs, r.first.toNat ≤ r.last.toNat ∧ cnt r < 2 ^ 24) → off + slotTotal rs ≤ 2 ^ 40 →
    ∃ es, batchWords (UInt64.ofNat off) rs = .ok (elemWords es, UInt64.ofNat (off + slotTotal rs)) ∧
      Elems off rs es := by
  induction rs with
  | nil => intro off _ _; exact ⟨[], rfl, rfl⟩
  | cons r rs ih =>
    intro off hr ht
    obtain ⟨h1, h2⟩ := hr r (by simp)
    have ht' : slotTotal (r :: rs) = cnt r + slotTotal rs := by simp [slotTotal]
    have hcpos : 1 ≤ cnt r := by unfold cnt; omega
    have hcnt : (r.last - r.first + 1).toNat = cnt r := by
      unfold cnt at h2 ⊢
      have := r.last.toNat_lt
      rw [UInt64.toNat_add, UInt64.toNat_sub, show (1 : UInt64).toNat = 1 from rfl]
      have := r.first.toNat_lt
      omega
    have hoff : (UInt64.ofNat off).toNat = off := by rw [UInt64.toNat_ofNat']; omega
    obtain ⟨co, hco, hcv⟩ := newCountOffset_ok (r.last - r.first + 1) (UInt64.ofNat off) (by omega) (by omega)
    obtain ⟨es, he1, he2⟩ := ih (off + cnt r) (fun q hq => hr q (by simp [hq])) (by omega)
    have hnext : UInt64.ofNat off + (r.last - r.first + 1) = UInt64.ofNat (off + cnt r) := by
      apply UInt64.toNat_inj.1
      rw [UInt64.toNat_add, hcnt, hoff, UInt64.toNat_ofNat']
    refine ⟨⟨r.first, co⟩ :: es, ?_, ⟨r.first, co⟩, es, rfl, rfl, ?_, ?_, he2⟩
    · unfold batchWords
      dsimp only
      rw [hco]
      simp only [Res.ok_bind]
      rw [hnext, he1]
      simp only [Res.ok_bind]
      rw [ht', Nat.add_assoc]
      rfl
    · unfold rCount; dsimp only; rw [hcv]; omega
    · unfold rOffset; dsimp only; rw [hcv, hoff]; omega

/-! ## Meaning of the elements -/

theorem elems_slotCount {off : Nat} {rs : List IndexRange} {es : List IndexElement} (h : Elems off rs es) :
    slotCount es = slotTotal rs := by
  induction rs generalizing off es with
  | nil => subst h; rfl
  | cons r rs ih =>
    obtain ⟨e, es', rfl, _, h2, _, h4⟩ := h
    have := ih h4
    simp only [slotCount, slotTotal, List.map_cons, List.sum_cons] at *
    rw [h2, this]

theorem idsOf_length (r : IndexRange) : (idsOf r).length = cnt r := by simp [idsOf]

theorem flatMap_idsOf_length (rs : List IndexRange) : (rs.flatMap idsOf).length = slotTotal rs := by
  induction rs with
  | nil => rfl
  | cons r rs ih => simp [slotTotal, idsOf_length, ih] at *

/-- The slot an element gives to an id is the id's slot. -/
theorem elems_slots {rs : List IndexRange} : ∀ {off : Nat} {es : List IndexElement} {S : List (Nat × Int64)}
    {pre : List Int64}, Elems off rs es → S.map (·.1) = rs.flatMap idsOf → pre.length = off → ∀ id l,
    (∃ e ∈ es, rHas e id ∧ (pre ++ S.map (·.2))[rOffset e + (id - rFirst e)]? = some l) ↔ (id, l) ∈ S := by
  induction rs with
  | nil =>
    intro off es S pre h hS _ id l
    subst h
    have : S = [] := by simpa using hS
    subst this
    simp
  | cons r rs ih =>
    intro off es S pre h hS hpre id l
    obtain ⟨e, es', rfl, h1, h2, h3, h4⟩ := h
    rw [List.flatMap_cons] at hS
    -- split the slots
    have hsplit := List.take_append_drop (cnt r) S
    have hlen : cnt r ≤ S.length := by
      have := congrArg List.length hS
      simp only [List.length_map, List.length_append, idsOf_length] at this
      omega
    have hS1 : (S.take (cnt r)).map (·.1) = idsOf r := by
      rw [List.map_take, hS, List.take_append_of_le_length (by rw [idsOf_length]; omega)]
      exact List.take_of_length_le (by rw [idsOf_length]; omega)
    have hS2 : (S.drop (cnt r)).map (·.1) = rs.flatMap idsOf := by
      rw [List.map_drop, hS, List.drop_append_of_le_length (by rw [idsOf_length]; omega)]
      rw [List.drop_of_length_le (by rw [idsOf_length]; omega), List.nil_append]
    have hlen1 : (S.take (cnt r)).length = cnt r := by rw [List.length_take]; omega
    have hrest := ih (pre := pre ++ (S.take (cnt r)).map (·.2)) h4 hS2
      (by rw [List.length_append, List.length_map, hlen1, hpre]) id l
    rw [List.append_assoc, ← List.map_append, hsplit] at hrest
    have hhead : (rHas e id ∧ (pre ++ S.map (·.2))[rOffset e + (id - rFirst e)]? = some l) ↔
        (id, l) ∈ S.take (cnt r) := by
      have hfst : ∀ j (hj : j < (S.take (cnt r)).length), (S.take (cnt r))[j].1 = r.first.toNat + j := by
        intro j hj
        have := congrArg (fun q : List Nat => q[j]?) hS1
        simp only [List.getElem?_map, List.getElem?_eq_getElem hj, Option.map_some] at this
        unfold idsOf at this
        rw [List.getElem?_range' (by omega)] at this
        simpa using this
      unfold rHas
      rw [h1, h2, h3]
      constructor
      · rintro ⟨⟨g1, g2⟩, g3⟩
        rw [List.getElem?_append_right (by omega), List.getElem?_map,
          show off + (id - r.first.toNat) - pre.length = id - r.first.toNat by omega] at g3
        have hj : id - r.first.toNat < (S.take (cnt r)).length := by omega
        have hval : S[id - r.first.toNat]? = some (S.take (cnt r))[id - r.first.toNat] := by
          rw [List.getElem_take, List.getElem?_eq_getElem]
        rw [hval] at g3
        simp only [Option.map_some, Option.some.injEq] at g3
        have := hfst _ hj
        have heq : (S.take (cnt r))[id - r.first.toNat] = (id, l) := by
          apply Prod.ext
          · rw [this]; dsimp only; omega
          · exact g3
        rw [← heq]
        exact List.getElem_mem hj
      · intro hm
        obtain ⟨j, hj, hv⟩ := List.getElem_of_mem hm
        have := hfst j hj
        rw [hv] at this
        dsimp only at this
        refine ⟨⟨by omega, by omega⟩, ?_⟩
        rw [List.getElem?_append_right (by omega), List.getElem?_map,
          show off + (id - r.first.toNat) - pre.length = j by omega]
        have : S[j]? = some (id, l) := by
          rw [← hv, List.getElem_take, List.getElem?_eq_getElem]
        rw [this]
        rfl
    conv => rhs; rw [← hsplit]
    rw [List.mem_append]
    simp only [List.mem_cons, exists_eq_or_imp]
    rw [hhead, hrest]

theorem elems_mem {rs : List IndexRange} : ∀ {off : Nat} {es : List IndexElement}, Elems off rs es →
    ∀ e ∈ es, (∃ r ∈ rs, rFirst e = r.first.toNat ∧ rCount e = cnt r) ∧ rOffset e + rCount e ≤ off + slotTotal rs := by
  induction rs with
  | nil => intro off es h e he; subst h; simp at he
  | cons r rs ih =>
    intro off es h e he
    obtain ⟨e0, es', rfl, h1, h2, h3, h4⟩ := h
    have ht' : slotTotal (r :: rs) = cnt r + slotTotal rs := by simp [slotTotal]
    rcases List.mem_cons.1 he with rfl | he
    · exact ⟨⟨r, by simp, h1, h2⟩, by omega⟩
    · obtain ⟨⟨q, hq, e1, e2⟩, e3⟩ := ih h4 e he
      exact ⟨⟨q, by simp [hq], e1, e2⟩, by omega⟩

theorem elems_sorted {rs : List IndexRange} : ∀ {off : Nat} {es : List IndexElement}, Elems off rs es →
    (∀ r ∈ rs, r.first.toNat ≤ r.last.toNat) → rs.Pairwise (fun a b => a.last.toNat < b.first.toNat) →
    es.Pairwise fun a b => rFirst a + rCount a ≤ rFirst b := by
  induction rs with
  | nil => intro off es h _ _; subst h; exact .nil
  | cons r rs ih =>
    intro off es h hn hp
    obtain ⟨e0, es', rfl, h1, h2, h3, h4⟩ := h
    rw [List.pairwise_cons] at hp ⊢
    refine ⟨?_, ih h4 (fun q hq => hn q (by simp [hq])) hp.2⟩
    intro e he
    obtain ⟨⟨q, hq, e1, e2⟩, _⟩ := elems_mem h4 e he
    have := hp.1 q hq
    have := hn r (by simp)
    rw [h1, h2, e1]
    unfold cnt
    omega

/-- Elements made from a layout form a well-formed, complete index of exactly the nodes. -/
theorem layout_index {rs : List IndexRange} {locs : List Int64} {nodes : List (Nat × Int64)}
    {es : List IndexElement} (hl : Layout rs locs nodes) (he : Elems 0 rs es) :
    WellFormed es locs ∧ Complete ⟨es, locs⟩ ∧ ∀ id l, HasLoc es locs id l ↔ (id, l) ∈ nodes := by
  obtain ⟨S, s1, s2, s3⟩ := hl.slots
  have hlen : locs.length = slotTotal rs := by
    rw [← s2, List.length_map, ← flatMap_idsOf_length, ← s1, List.length_map]
  refine ⟨⟨?_, ?_, ?_, elems_sorted he hl.nonempty hl.ordered⟩, ?_, ?_⟩
  · intro e hm
    obtain ⟨⟨r, hr, _, h2⟩, _⟩ := elems_mem he e hm
    have := hl.nonempty r hr
    rw [h2]; unfold cnt; omega
  · intro e hm
    obtain ⟨⟨r, hr, h1, h2⟩, _⟩ := elems_mem he e hm
    have := hl.nonempty r hr
    have := r.last.toNat_lt
    rw [h1, h2]; unfold cnt; omega
  · intro e hm
    have := (elems_mem he e hm).2
    omega
  · unfold Complete
    rw [elems_slotCount he, hlen]
  · intro id l
    have := elems_slots (pre := []) he s1 rfl id l
    rw [List.nil_append, s2] at this
    rw [← s3, List.mem_filter, ← this]
    unfold HasLoc
    constructor
    · rintro ⟨e, h1, h2, h3, h4⟩
      exact ⟨⟨e, h1, h2, h3⟩, by simpa using h4⟩
    · rintro ⟨⟨e, h1, h2, h3⟩, h4⟩
      exact ⟨e, h1, h2, h3, by simpa using h4⟩

theorem layout_append {r1 r2 : List IndexRange} {l1 l2 : List Int64} {n1 n2 : List (Nat × Int64)}
    (h1 : Layout r1 l1 n1) (h2 : Layout r2 l2 n2) (h : ∀ a ∈ n1, ∀ b ∈ n2, a.1 < b.1) :
    Layout (r1 ++ r2) (l1 ++ l2) (n1 ++ n2) := by
  obtain ⟨S1, a1, a2, a3⟩ := h1.slots
  obtain ⟨S2, b1, b2, b3⟩ := h2.slots
  refine ⟨⟨S1 ++ S2, ?_, ?_, ?_⟩, ?_, ?_, ?_, ?_, ?_⟩
  · rw [List.map_append, a1, b1, flatMap_idsOf_append]
  · rw [List.map_append, a2, b2]
  · rw [List.filter_append, a3, b3]
  · rw [List.pairwise_append]
    refine ⟨h1.ordered, h2.ordered, ?_⟩
    intro a ha b hb
    obtain ⟨x, hx, e1⟩ := List.mem_map.1 (h1.lasts a ha)
    obtain ⟨y, hy, e2⟩ := List.mem_map.1 (h2.firsts b hb)
    have := h x hx y hy
    omega
  · intro r hr
    rcases List.mem_append.1 hr with hr | hr
    · exact h1.nonempty r hr
    · exact h2.nonempty r hr
  · intro r hr
    rw [List.map_append]
    rcases List.mem_append.1 hr with hr | hr
    · exact List.mem_append_left _ (h1.firsts r hr)
    · exact List.mem_append_right _ (h2.firsts r hr)
  · intro r hr
    rw [List.map_append]
    rcases List.mem_append.1 hr with hr | hr
    · exact List.mem_append_left _ (h1.lasts r hr)
    · exact List.mem_append_right _ (h2.lasts r hr)
  · have := h1.size
    have := h2.size
    simp only [List.length_append]
    omega

end Osm.NodeIndexer
