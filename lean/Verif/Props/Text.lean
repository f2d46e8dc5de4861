import Verif.Lemmas.Text
import Verif.Spec.TextDump
import Verif.Props.Count
import Verif.Props.Dump
import Verif.Props.Programs

/-!
# C95: what is printed can be read in only one way, and says what was found
-/

namespace Osm.Props
open Osm Osm.T Osm.Spec Osm.Spec.Text Osm.Text

/-! ## dumpwayindex -/

/-- C95: no text can be read as two different dumps of a way index. -/
theorem C95_ways_unique (t : Spec.Text.Text) (as bs : List WaySays) (ha : Lines WayLine t as) (hb : Lines WayLine t bs) : as = bs :=
  Lines.unique (fun _ _ => WayLine.no_newline) (fun _ _ _ => WayLine.unique) ha hb

theorem waysText_iff (ls : List Dump.WayLine) (r : List WaySays) : Lines WayLine (waysText ls) r ↔ r = ls.map waySays :=
  ⟨fun h => C95_ways_unique _ _ _ h (waysText_says ls), fun h => h ▸ waysText_says ls⟩

theorem wId_toInt (d : UInt64) : (Int64.ofNat (wId d)).toInt = wId d := by
  have := d.toNat_lt
  exact Int64.toInt_ofNat_of_lt (by unfold wId; omega)

/-- C95: whoever reads the text that dumpwayindex prints finds exactly this: for every way of the index, in order, its id and
its locations (if these are to be printed), and once more if it is searched for and in the searched pass, or that it is not
there. -/
theorem C95_ways (o : Dump.WayOpts) (file : List UInt8) (ix : WayIndex.WayIdx) (h : WayIndex.NewWayIndex file = .ok ix)
    (hw : WayOrdered ix.Ids ix.Loc ix.AlignmentShift) (p n : Int64) (hp : o.SubIndex.getD (0, 1) = (p, n))
    (si : WayIndex.SubIdx) (hsi : ix.SubIndexWithScaledPass p n = .ok si) (stored : UInt64 → List Int64)
    (hst : ∀ d ∈ ix.Ids, Stored ix.Loc ix.AlignmentShift d = .ok (stored d)) :
    ∃ lines, Dump.dumpWays o file = .ok lines ∧ ∀ r, Lines WayLine (waysText lines) r ↔
      r = ix.Ids.flatMap fun d =>
        (if o.PrintLocations then [.way (wId d) ((stored d).map (·.toInt))] else []) ++
        (if o.SearchIndex then [if d ∈ si.Ids then .way (wId d) ((stored d).map (·.toInt)) else .missing (wId d)] else []) := by
  refine ⟨_, C66_ways o file ix h hw p n hp si hsi stored hst, fun r => ?_⟩
  rw [waysText_iff, List.map_flatMap]
  have : (fun d => List.map waySays
      (wayLines o.PrintLocations o.SearchIndex (si.Ids.contains d) (Int64.ofNat (wId d)) (stored d))) =
      fun d => (if o.PrintLocations then [.way (wId d) ((stored d).map (·.toInt))] else []) ++
        (if o.SearchIndex then [if d ∈ si.Ids then .way (wId d) ((stored d).map (·.toInt)) else .missing (wId d)] else []) := by
    funext d
    unfold wayLines
    rw [List.map_append]
    congr 1
    · split
      · rw [List.map_singleton, waySays, wId_toInt]
      · rfl
    · split
      · by_cases hd : d ∈ si.Ids
        · rw [List.contains_iff_mem.2 hd, if_pos hd, List.map_singleton, if_pos rfl, waySays, wId_toInt]
        · rw [if_neg hd, List.map_singleton, if_neg (by simpa using hd), waySays, wId_toInt]
      · rfl
  rw [this]

theorem entries_ids (shift : Int64) (ws : List Way) (hid : ∀ w ∈ ws, 0 ≤ w.ID.toInt ∧ w.ID.toInt < 2 ^ 31) :
    ∀ k, k + waysBlocks shift ws ≤ 2 ^ 33 →
    (WayIndexer.entries shift k ws).map (fun d => (wId d : Int)) = ws.map (·.ID.toInt) := by
  induction ws with
  | nil => intro _ _; rfl
  | cons w ws ih =>
    intro k hk
    have hpos := WayIndexer.wayBlocks_pos shift w
    rw [WayIndexer.waysBlocks_cons] at hk
    obtain ⟨i0, i1⟩ := hid w (by simp)
    show (wId _ : Int) :: _ = _
    rw [WayIndexer.entry_id _ _ i1 (by omega), ih (fun x hx => hid x (by simp [hx])) _ (by omega), List.map_cons]
    congr 1
    omega

/-- C95: the text that dumpwayindex prints for the index that wayindex has made of a source reads as the ways of the source,
in order, with their references (leading zeros and consecutive repeats removed, C40). -/
theorem C95_wayindex (shift : Int64) (blocks : List (Option PrimitiveBlock)) (h : WaysIndexable shift (allWays blocks))
    (hne : allWays blocks ≠ []) (out : String) (chunks : Nat → Nat) (fs : FS) :
    ∃ batches fs' file lines, WayIndexer.workAll shift blocks = .ok batches ∧
      (WayIndexer.Output out shift chunks never batches).exec fs = .ok ((), fs') ∧ Holds fs' out file ∧
      Dump.dumpWays ⟨true, false, none⟩ file = .ok lines ∧
      ∀ r, Lines WayLine (waysText lines) r ↔
        r = (allWays blocks).map fun w => .way w.ID.toInt ((indexedRefs w).map (·.toInt)) := by
  obtain ⟨batches, fs', file, h1, h2, h3, h4, _⟩ := wayOutput_ok shift blocks h out chunks fs
  generalize hws : allWays blocks = ws at h hne h4 ⊢
  have hsp := h.space
  let locs : Int64 → List Int64 := fun id => ((ws.find? fun w => w.ID = id).map indexedRefs).getD []
  have hlocs : ∀ w ∈ ws, locs w.ID = indexedRefs w := by
    intro w hw
    show ((ws.find? fun v => v.ID = w.ID).map indexedRefs).getD [] = _
    cases hf : ws.find? fun v => v.ID = w.ID with
    | none =>
      have := List.find?_eq_none.1 hf w hw
      simp at this
    | some v =>
      have hv := List.mem_of_find?_eq_some hf
      have he : v.ID = w.ID := by simpa using List.find?_some hf
      have : v = w := by
        obtain ⟨i, hi, rfl⟩ := List.mem_iff_getElem.1 hv
        obtain ⟨j, hj, rfl⟩ := List.mem_iff_getElem.1 hw
        have ha := List.pairwise_iff_getElem.1 h.ascending
        rcases Nat.lt_trichotomy i j with hij | rfl | hij
        · have := ha i j hi hj hij
          rw [he] at this
          omega
        · rfl
        · have := ha j i hj hi hij
          rw [he] at this
          omega
      rw [this]
      rfl
  have hans := entries_answers shift ws h locs hlocs (by
    intro id hid
    show ((ws.find? fun v => v.ID = id).map indexedRefs).getD [] = _
    rw [List.find?_eq_none.2 (by simpa using hid)]
    rfl)
  have hord := WayIndexer.entries_ordered shift ws h
  have hel : WayIndexer.entries shift 0 ws ≠ [] := by
    intro h0
    have := WayIndexer.entries_length shift ws 0
    rw [h0] at this
    exact hne (List.length_eq_zero_iff.1 this.symm)
  obtain ⟨si, hsi, hids⟩ := Dump.whole_ways ⟨WayIndexer.entries shift 0 ws, WayIndexer.locData shift ws, shift⟩ hord hel (by
    intro d hd
    obtain ⟨w, _, _, _, q3, _⟩ := (WayIndexer.entries_mem shift ws h.ids 0 [] (by simp) (by omega)).1 d hd
    show wStart shift d < (WayIndexer.locData shift ws).length
    unfold wStart
    rw [WayIndexer.locData_length]
    have hpos := WayIndexer.wayBlocks_pos shift w
    have hp : 0 < 2 ^ shift.toInt.toNat := Nat.pow_pos (by omega)
    exact Nat.mul_lt_mul_of_pos_right (by omega) hp)
  obtain ⟨lines, g1, g2⟩ := C95_ways ⟨true, false, none⟩ file _ h4 hord 0 1 rfl si hsi
    (fun d => locs (Int64.ofNat (wId d))) hans.present
  refine ⟨batches, fs', file, lines, h1, h2, h3, g1, fun r => ?_⟩
  rw [g2 r]
  have hb := entries_ids shift ws h.ids 0 (by omega)
  have e1 : ∀ ds : List UInt64, (ds.flatMap fun d =>
        (if true then [WaySays.way (wId d) ((locs (Int64.ofNat (wId d))).map (·.toInt))] else []) ++
        (if false then [if d ∈ si.Ids then .way (wId d) ((locs (Int64.ofNat (wId d))).map (·.toInt)) else .missing (wId d)] else [])) =
      (ds.map fun d => (wId d : Int)).map fun z => .way z ((locs (Int64.ofInt z)).map (·.toInt)) := by
    intro ds
    induction ds with
    | nil => rfl
    | cons d ds ih =>
      rw [List.flatMap_cons, ih]
      rfl
  have e2 : (ws.map (·.ID.toInt)).map (fun z => WaySays.way z ((locs (Int64.ofInt z)).map (·.toInt))) =
      ws.map fun w => .way w.ID.toInt ((indexedRefs w).map (·.toInt)) := by
    rw [List.map_map]
    apply List.map_congr_left
    intro w hw
    show WaySays.way _ ((locs (Int64.ofInt w.ID.toInt)).map (·.toInt)) = _
    rw [Int64.ofInt_toInt, hlocs w hw]
  rw [← e2, ← hb, ← e1]

/-! ## dumpnodeindex -/

/-- C95: no text can be read as two different dumps of a node index. -/
theorem C95_nodes_unique (t : Spec.Text.Text) (as bs : List NodeSays) (ha : Lines NodeLine t as) (hb : Lines NodeLine t bs) : as = bs :=
  Lines.unique (fun _ _ => NodeLine.no_newline) (fun _ _ _ => NodeLine.unique) ha hb

/-- C95: the printed coordinates are the stored ones (in units of 10^-7 degrees), rounded to six digits after the point. -/
theorem C95_coordinates (v : Int32) : ∃ z, Millionths (fmtF (degrees v)) z ∧ (10 * z - v.toInt).natAbs ≤ 5 := by
  refine ⟨_, fmtF_says _, ?_⟩
  have := degrees_near v
  rw [abs_le] at this
  omega

theorem each_map {α β : Type} {R : α → β → Prop} (g : α → β) (l : List α) (h : ∀ c ∈ l, R c (g c)) : Each R l (l.map g) := by
  induction l with
  | nil => trivial
  | cons c l ih => exact ⟨h c (by simp), ih fun c hc => h c (by simp [hc])⟩

/-- C95: whoever reads the text that dumpnodeindex prints for a whole index finds for every slot of it, in order, what the slot
holds: the location exactly, the coordinates rounded, the id exactly. -/
theorem C95_nodes (print search : Bool) (file : List UInt8) (ix : NodeIndex.NodeIdx)
    (h : NodeIndex.NewNodeIndex file = .ok ix) (wf : WellFormed ix.elements ix.locations) (hc : Complete ix)
    (hL : ix.locations.length < 2 ^ 63) (hne : ix.elements ≠ []) :
    ∃ lines, Dump.dumpNodes ⟨print, search, none, none, none⟩ file = .ok lines ∧
      (∃ r, Lines NodeLine (nodesText lines) r) ∧
      ∀ r, Lines NodeLine (nodesText lines) r → ∃ rs, r = rs.flatten ∧ Each (SlotSays print search) (slots ix) rs := by
  refine ⟨_, C66_nodes_all print search file ix h wf hc hL hne, ⟨_, nodesText_says _⟩, fun r hr => ?_⟩
  have hr := C95_nodes_unique _ _ _ hr (nodesText_says _)
  refine ⟨(slots ix).map fun s => (slotLines print search s.1 s.2.1 s.2.2).map nodeSays, ?_, each_map _ _ ?_⟩
  · rw [hr]
    unfold slots rangeLines
    simp only [List.map_flatMap, List.flatten_eq_flatMap, List.flatMap_map, List.flatMap_assoc, id_eq]
  · rintro ⟨e, i, l⟩ hs
    obtain ⟨e', he, hs⟩ := List.mem_flatMap.1 hs
    obtain ⟨j, hj, hs⟩ := List.mem_map.1 hs
    cases hs
    rw [List.mem_range] at hj
    have hids := wf.ids _ he
    have h1 := degrees_near (Morton.DecodeLocation (ix.locations[rOffset e + i]?.getD 0).toUInt64).1
    have h2 := degrees_near (Morton.DecodeLocation (ix.locations[rOffset e + i]?.getD 0).toUInt64).2
    rw [abs_le] at h1 h2
    refine ⟨rounded (degrees (Morton.DecodeLocation (ix.locations[rOffset e + i]?.getD 0).toUInt64).1),
      rounded (degrees (Morton.DecodeLocation (ix.locations[rOffset e + i]?.getD 0).toUInt64).2), ⟨by omega, by omega⟩, ?_⟩
    · have hi : (UInt64.ofNat i).toNat = i := by rw [UInt64.toNat_ofNat']; omega
      have hid : (UInt64.ofNat (rFirst e + i)).toNat = rFirst e + i := by rw [UInt64.toNat_ofNat']; omega
      generalize ix.locations[rOffset e + i]?.getD 0 = l
      unfold slotLines
      dsimp only
      rw [List.map_append]
      congr 1
      · split
        · split
          · rfl
          · simp only [List.map_cons, List.map_nil, nodeSays, hi, hid]
            unfold rFirst
            simp
        · rfl
      · split
        · split <;> rfl
        · rfl

theorem each_mem_left {α β : Type} {R : α → β → Prop} {l : List α} {r : List β} (h : Each R l r) {a : α} (ha : a ∈ l) :
    ∃ b ∈ r, R a b := by
  induction l generalizing r with
  | nil => cases ha
  | cons x l ih =>
    cases r with
    | nil => exact h.elim
    | cons y r =>
      rcases List.mem_cons.1 ha with rfl | ha
      · exact ⟨y, by simp, h.1⟩
      · obtain ⟨b, hb, hr⟩ := ih h.2 ha
        exact ⟨b, by simp [hb], hr⟩

theorem each_mem_right {α β : Type} {R : α → β → Prop} {l : List α} {r : List β} (h : Each R l r) {b : β} (hb : b ∈ r) :
    ∃ a ∈ l, R a b := by
  induction l generalizing r with
  | nil =>
    cases r with
    | nil => cases hb
    | cons _ _ => exact h.elim
  | cons x l ih =>
    cases r with
    | nil => cases hb
    | cons y r =>
      rcases List.mem_cons.1 hb with rfl | hb
      · exact ⟨x, by simp, h.1⟩
      · obtain ⟨a, ha, hr⟩ := ih h.2 hb
        exact ⟨a, by simp [ha], hr⟩

/-- C95: the text that dumpnodeindex prints for the index that nodeindex has made of a source reads as the nodes of the source:
every node is there with its id and its coordinates, rounded to six digits, and nothing else is. -/
theorem C95_nodeindex {inflate : Inflate} (sched : Pbf.Block → Sched) (chunks : Nat → Nat) {file : List UInt8}
    {fulls : List (Option PrimitiveBlock)} (hs : Source inflate file fulls) (hi : Indexable fulls) (hne : allNodes fulls ≠ [])
    (hearth : ∀ x ∈ allNodes fulls, OnEarth x.1 x.2)
    (inp out : String) (fs : FS) (hin : Holds fs inp file) :
    ∃ fs' ixFile lines, (Programs.nodeindex inflate sched chunks inp out).exec fs = .ok ((), fs') ∧ Holds fs' out ixFile ∧
      Dump.dumpNodes ⟨true, false, none, none, none⟩ ixFile = .ok lines ∧
      ∃ r, (∀ r', Lines NodeLine (nodesText lines) r' ↔ r' = r) ∧
        (∀ x ∈ allNodes fulls, ∃ loc lng lat first idx, .stored loc lng lat first idx x.2.id.toInt ∈ r) ∧
        (∀ a ∈ r, a = .empty ∨ ∃ loc lng lat first idx, ∃ x ∈ allNodes fulls,
          a = .stored loc lng lat first idx x.2.id.toInt ∧
          (10 * lng - position x.1.LonOffset x.1.Granularity x.2.lon).natAbs ≤ 5 ∧
          (10 * lat - position x.1.LatOffset x.1.Granularity x.2.lat).natAbs ≤ 5) := by
  obtain ⟨fs', ixFile, ix, a1, a2, a3, a4, a5, ⟨_, a6⟩, a7, a8, a9⟩ := nodeindex_ok sched chunks hs hi inp out fs hin
  have has : ∀ x ∈ allNodes fulls, ∃ l, HasLoc ix.elements ix.locations x.2.id.toInt.toNat l := by
    intro x hx
    have h2 := hi.ids x hx
    have h3 := NodeIndexer.i64_nat (x := x.2.id) (by omega)
    obtain ⟨l, hl, _⟩ := NodeIndexer.nodeLocation_total x.1 x.2.lat x.2.lon
    have := (a8 x.2.id.toUInt64 l).2 ⟨x, hx, by omega, hl⟩
    rw [show x.2.id.toUInt64.toNat = x.2.id.toInt.toNat by omega] at this
    exact ⟨l, this⟩
  have hel : ix.elements ≠ [] := by
    obtain ⟨x, hx⟩ := List.exists_mem_of_ne_nil _ hne
    obtain ⟨l, e, he, _⟩ := has x hx
    intro h0
    rw [h0] at he
    cases he
  obtain ⟨lines, b1, ⟨r, b2⟩, b3⟩ := C95_nodes true false ixFile ix a3 a4 a5 a6 hel
  obtain ⟨rs, b4, b5⟩ := b3 r b2
  refine ⟨fs', ixFile, lines, a1, a2, b1, r, fun r' => ⟨fun h => C95_nodes_unique _ _ _ h b2, fun h => h ▸ b2⟩, ?_, ?_⟩
  · intro x hx
    obtain ⟨l, e, he, ⟨h1, h2⟩, h3, h4⟩ := has x hx
    have hid := hi.ids x hx
    have hm : (e, x.2.id.toInt.toNat - rFirst e, l) ∈ slots ix := by
      unfold slots
      refine List.mem_flatMap.2 ⟨e, he, List.mem_map.2 ⟨x.2.id.toInt.toNat - rFirst e, List.mem_range.2 ?_, ?_⟩⟩
      · omega
      · rw [h3]
        rfl
    obtain ⟨y, hy, lng, lat, _, e1⟩ := each_mem_left b5 hm
    refine ⟨l.toUInt64.toNat, lng, lat, rFirst e, (x.2.id.toInt.toNat - rFirst e : Nat), ?_⟩
    rw [b4]
    refine List.mem_flatten.2 ⟨y, hy, ?_⟩
    rw [e1, if_pos rfl, if_neg h4]
    have : ((rFirst e : Nat) : Int) + ((x.2.id.toInt.toNat - rFirst e : Nat) : Int) = x.2.id.toInt := by omega
    rw [this]
    simp
  · intro a ha
    rw [b4] at ha
    obtain ⟨y, hy, hay⟩ := List.mem_flatten.1 ha
    obtain ⟨⟨e, i, l⟩, hm, lng, lat, ⟨d1, d2⟩, e1⟩ := each_mem_right b5 hy
    rw [e1] at hay
    by_cases h4 : l = 0
    · left
      simpa [h4] using hay
    · right
      have hay : a = .stored l.toUInt64.toNat lng lat (rFirst e) i (rFirst e + i) := by simpa [h4] using hay
      unfold slots at hm
      obtain ⟨e', he, hm⟩ := List.mem_flatMap.1 hm
      obtain ⟨i', hi', hm⟩ := List.mem_map.1 hm
      rw [List.mem_range] at hi'
      simp only [Prod.mk.injEq] at hm
      obtain ⟨rfl, rfl, hl⟩ := hm
      have hids := a4.ids _ he
      have hsl := a4.slots _ he
      have hu : (UInt64.ofNat (rFirst e' + i')).toNat = rFirst e' + i' := by rw [UInt64.toNat_ofNat']; omega
      obtain ⟨x, hx, q1, q2⟩ := (a8 (UInt64.ofNat (rFirst e' + i')) l).1 ⟨e', he, ⟨by omega, by omega⟩, (by
        rw [hu, show rFirst e' + i' - rFirst e' = i' by omega, ← hl, List.getElem?_eq_getElem (by omega)]
        rfl), h4⟩
      obtain ⟨k1, k2, k3, k4, k5, k6, k7, k8⟩ := hearth x hx
      obtain ⟨u, v, hdec, hu1, hv1⟩ := C33_position x.1 x.2.lat x.2.lon l k1 k2 k3 k4 k5 k6 k7 k8 q2
      rw [hdec] at d1 d2
      dsimp only at d1 d2
      rw [hu1] at d1
      rw [hv1] at d2
      refine ⟨l.toUInt64.toNat, lng, lat, rFirst e', i', x, hx, ?_, d1, d2⟩
      · rw [hay, q1, hu]
        norm_cast

/-! ## entitycount and blockcount -/

/-- C95: no text can be read as two different reports of entitycount. -/
theorem C95_counts_unique (t : Spec.Text.Text) (a b : Counts) (ha : CountReport t a) (hb : CountReport t b) : a = b :=
  CountReport.unique ha hb

/-- C95: whoever reads the text that entitycount prints for a file (whose ids are not negative and whose totals fit in 64
bits, C61) finds exactly what there is in the file. -/
theorem C95_entitycount (inflate : Inflate) (sched : Pbf.Block → Sched) (hsched : ∀ b, (sched b).pooled.length < 2 ^ 63)
    (file : List UInt8) (hl : file.length < 2 ^ 63) (cs : List Content) (hc : FileHas inflate entitiesDecoded file cs)
    (hn : NonNegativeIds cs) (h64 : Fit64 (totals cs)) (W : Nat) (s : Pbf.St (List T.PrimitiveGroup))
    (hr : Pbf.Reachable (Count.countCfg inflate sched file) W s) (hd : s.main = .done) (hcc : s.cancelled = false)
    (m : Count.Var → UInt64) (hp : Count.Prints inflate sched s m) (c : Counts) :
    CountReport (countsText m) c ↔
      c = ⟨(totals cs).blocks, (totals cs).nodes, (totals cs).maxNode, (totals cs).ways, (totals cs).maxWay,
        (totals cs).refs, (totals cs).maxRefs, (totals cs).relations, (totals cs).maxRelation⟩ := by
  obtain ⟨h1, h2, h3, h4, h5, h6, h7, h8, h9⟩ :=
    C61_totals_partial inflate sched hsched file hl cs hc hn h64 W s hr hd hcc m hp
  have := countsText_says m
  rw [h1, h2, h3, h4, h5, h6, h7, h8, h9] at this
  exact ⟨fun h => CountReport.unique h this, fun h => h ▸ this⟩

/-- C95: the same for blockcount. -/
theorem C95_blockcount (file : List UInt8) (hl : file.length < 2 ^ 63) (W : Nat) (s : Pbf.St Unit)
    (hr : Pbf.Reachable (Count.blocksCfg file) W s) (hd : s.main = .done) (hcc : s.cancelled = false) :
    ∃ bs, Pbf.split file = .ok bs ∧ ∀ n, Count.PrintsBlocks s n → ∀ r,
      Lines (Says "Counted " " blocks") (blocksText n) r ↔ r = [(bs.length : Int)] := by
  obtain ⟨bs, h1, h2⟩ := C61_blocks file hl W s hr hd hcc
  refine ⟨bs, h1, fun n hn r => ?_⟩
  have hb : Lines (Says "Counted " " blocks") (blocksText n) [(bs.length : Int)] := by
    have := Lines.cons (fmtD_one "Counted " " blocks" n.toNat) .nil
    rw [h2 n hn] at this
    have he : blocksText n = "Counted ".toList ++ (fmtD bs.length ++ " blocks".toList) ++ ['\n'] := by
      unfold blocksText
      rw [h2 n hn]
      generalize fmtD (bs.length : Int) = x
      simp
    rw [he]
    exact this
  exact ⟨fun h => Lines.unique (fun _ _ => Says.no_newline (by simp) (by simp)) (fun _ _ _ => Says.unique) h hb,
    fun h => h ▸ hb⟩

/-! ## The statistics of an index -/

/-- C95: whoever reads what `PrintStats` prints finds exactly the four counters and the buckets that are not empty, whatever is
printed as their bounds (texts without spaces and newlines). -/
theorem C95_stats (low high : Nat → Spec.Text.Text)
    (h : ∀ i, ' ' ∉ low i ∧ '\n' ∉ low i ∧ ' ' ∉ high i ∧ '\n' ∉ high i) (a b c d : UInt64) (cs : List UInt64)
    (w x y z : Int) (l : List (Int × Int)) :
    StatsReport (statsText low high a b c d cs) w x y z l ↔ w = a.toNat ∧ x = b.toNat ∧ y = c.toNat ∧ z = d.toNat ∧
      l = cs.zipIdx.filterMap fun p => if p.1 ≠ 0 then some ((p.2 : Int), (p.1.toNat : Int)) else none := by
  have hs := statsText_says low high h a b c d cs
  have hz : ∀ (cs : List UInt64) i, nonzero i cs =
      (cs.zipIdx i).filterMap fun p => if p.1 ≠ 0 then some ((p.2 : Int), (p.1.toNat : Int)) else none := by
    intro cs
    induction cs with
    | nil => intro i; rfl
    | cons c cs ih =>
      intro i
      unfold nonzero
      rw [List.zipIdx_cons, List.filterMap_cons]
      by_cases hc : c = 0
      · simp [hc, ih]
      · simp [hc, ih]
  rw [hz] at hs
  constructor
  · intro hr
    exact StatsReport.unique hr hs
  · rintro ⟨rfl, rfl, rfl, rfl, rfl⟩
    exact hs

/-! ## Examples -/

example : waysText [.extract 2 [1, -2], .failed 3, .found 4 []] = "2 [1 -2]\nXX failed to find way 3\n4 []\n".toList := by
  decide +kernel

/-- The hypotheses of `C95_ways` are met by this file. -/
example : ∃ lines, Dump.dumpWays ⟨true, true, none⟩ dumpWayFile = .ok lines ∧
    waysText lines = "2 [1 2]\n2 [1 2]\n3 [-5]\n3 [-5]\n".toList :=
  ⟨[.extract 2 [1, 2], .found 2 [1, 2], .extract 3 [-5], .found 3 [-5]], by decide +kernel, by decide +kernel⟩

/-- Six digits are printed of seven: these locations differ, their printed coordinates do not. -/
theorem C95_coordinates_not_injective :
    fmtF (degrees 1234567) = "0.123457".toList ∧ fmtF (degrees 1234568) = "0.123457".toList ∧
    fmtF (degrees (-1)) = "-0.000000".toList ∧ fmtF (degrees 1799999999) = "180.000000".toList := by
  decide +kernel

/-- The hypotheses of `C95_nodeindex` are met: a file with nodes, on Earth. -/
example (inflate : Inflate) : Source inflate tinyFile [none, some tinyBlock] ∧ Indexable [none, some tinyBlock] ∧
    allNodes [none, some tinyBlock] ≠ [] ∧ ∀ x ∈ allNodes [none, some tinyBlock], OnEarth x.1 x.2 := by
  refine ⟨tiny_source inflate, tiny_indexable, by decide +kernel, ?_⟩
  unfold OnEarth
  decide +kernel

end Osm.Props
