import Verif.Lemmas.Programs
import Verif.Props.NodeIndexer
import Verif.Props.WayIndex
import Verif.Props.RelIndex
import Verif.Props.Rewrite
import Verif.Props.Pbf

/-! # The commands one after the other (C69) -/

namespace Osm.Props
open Osm Osm.Pb Osm.T Osm.Pbf Osm.Spec Osm.Programs

/-! ## The node index -/

theorem addNodes_neg (pb : PrimitiveBlock) (dn : DenseNodes) : ∀ (ids : List Int64) (st st' : NodeIndexer.State) (idx : Nat),
    NodeIndexer.addNodes pb dn st idx ids = .ok st' → NegativeLocs st.locs → NegativeLocs st'.locs := by
  intro ids
  induction ids with
  | nil => intro st st' idx h hn; cases h; exact hn
  | cons id ids ih =>
    intro st st' idx h hn
    unfold NodeIndexer.addNodes at h
    obtain ⟨st1, h1, h⟩ := Res.bind_eq_ok.1 h
    refine ih _ _ _ h ?_
    unfold NodeIndexer.addNode at h1
    obtain ⟨lat, _, h1⟩ := Res.bind_eq_ok.1 h1
    obtain ⟨lon, _, h1⟩ := Res.bind_eq_ok.1 h1
    obtain ⟨l, hl, h1⟩ := Res.bind_eq_ok.1 h1
    cases h1
    have hneg : l < 0 := by
      unfold NodeIndexer.nodeLocation at hl
      obtain ⟨l', e1, e2, _⟩ := Morton.location_neg (NodeIndexer.coordinate pb.LonOffset pb.Granularity lon)
        (NodeIndexer.coordinate pb.LatOffset pb.Granularity lat)
      rw [hl] at e1
      cases e1
      rw [Int64.lt_iff_toInt_lt]
      simpa using e2
    have hadd : NegativeLocs (st.addId id.toUInt64).locs := by
      unfold NodeIndexer.State.addId
      split
      · exact hn
      · split
        · intro l hl h0
          rcases List.mem_append.1 hl with hl | hl
          · exact hn l hl h0
          · exact absurd (List.mem_singleton.1 hl) h0
        · exact hn
    intro l' hl' h0
    rcases List.mem_append.1 hl' with hl' | hl'
    · exact hadd l' hl' h0
    · rw [List.mem_singleton.1 hl']; exact hneg

/-- All locations the node indexer's worker sends are negative, or fill a gap. -/
theorem nodeWork_neg {pb : Option PrimitiveBlock} {b : NodeIndexer.ElementBatch} (h : NodeIndexer.work pb = .ok (some b)) :
    NegativeLocs b.locations := by
  cases pb with
  | none => cases h
  | some pb =>
    change NodeIndexer.indexBlock pb = _ at h
    unfold NodeIndexer.indexBlock at h
    obtain ⟨st, h1, h⟩ := Res.bind_eq_ok.1 h
    have key : ∀ (gs : List T.PrimitiveGroup) (st st' : NodeIndexer.State),
        foldRes (NodeIndexer.addGroup pb) st gs = .ok st' → NegativeLocs st.locs → NegativeLocs st'.locs := by
      intro gs
      induction gs with
      | nil => intro st st' h hn; cases h; exact hn
      | cons g gs ih =>
        intro st st' h hn
        unfold foldRes at h
        obtain ⟨st1, h1, h⟩ := Res.bind_eq_ok.1 h
        refine ih _ _ h ?_
        unfold NodeIndexer.addGroup at h1
        cases hd : g.Dense with
        | none => rw [hd] at h1; cases h1; exact hn
        | some dn => rw [hd] at h1; exact addNodes_neg pb dn _ _ _ _ h1 hn
    have hst := key _ _ _ h1 (fun l hl => by cases hl)
    split at h
    · cases h
    · cases h; exact hst

theorem mapRes_source {α β : Type} {f : α → Res β} : ∀ {xs : List α} {ys : List β}, mapRes f xs = .ok ys →
    ∀ y ∈ ys, ∃ x ∈ xs, f x = .ok y
  | [], ys, h, y, hy => by cases h; cases hy
  | x :: xs, ys, h, y, hy => by
    unfold mapRes at h
    obtain ⟨y0, h1, h⟩ := Res.bind_eq_ok.1 h
    obtain ⟨ys', h2, h⟩ := Res.bind_eq_ok.1 h
    cases h
    rcases List.mem_cons.1 hy with rfl | hy
    · exact ⟨x, List.mem_cons_self, h1⟩
    · obtain ⟨x', hx', e⟩ := mapRes_source h2 y hy
      exact ⟨x', List.mem_cons_of_mem _ hx', e⟩

/-- Running nodeindex. -/
theorem nodeindex_ok {inflate : Inflate} (sched : Block → Sched) (chunks : Nat → Nat) {file : List UInt8}
    {fulls : List (Option PrimitiveBlock)} (hs : Source inflate file fulls) (hi : Indexable fulls)
    (inp out : String) (fs : FS) (hin : Holds fs inp file) :
    ∃ fs' ixFile ix, (nodeindex inflate sched chunks inp out).exec fs = .ok ((), fs') ∧ Holds fs' out ixFile ∧
      NodeIndex.NewNodeIndex ixFile = .ok ix ∧ WellFormed ix.elements ix.locations ∧ Complete ix ∧
      (ix.locations.length ≤ 2 * (allNodes fulls).length ∧ ix.locations.length < 2 ^ 63) ∧ NegativeLocs ix.locations ∧
      (∀ (id : UInt64) l, HasLoc ix.elements ix.locations id.toNat l ↔
        ∃ x ∈ allNodes fulls, x.2.id.toInt = id.toNat ∧ NodeIndexer.nodeLocation x.1 x.2.lat x.2.lon = .ok l) ∧
      (∀ g, g ≠ out → g ≠ out ++ ".loc.tmp" → fs' g = fs g) := by
  obtain ⟨bs, s1, s2⟩ := hs
  obtain ⟨batches, es, h1, h2, h3, h4, h5, h6⟩ := NodeIndexer.run_index fulls hi
  obtain ⟨_, _, _, _, g1, _⟩ := C33_index_partial fulls hi out chunks fs
  have hspec := NodeIndexer.loopSpec out (out ++ ".loc.tmp") (tmp_ne out) batches 0 0
  obtain ⟨r1, -, -⟩ := withHeader_exec out chunks never _ _ hspec NodeIndexer.header NodeIndexer.header_length fs
  obtain ⟨fs', m, e1, ⟨pos, e2⟩, e3, e4, e5⟩ := r1 (UInt64.ofNat es.length) _ _ (by
    unfold NodeIndexer.batchBytes; rw [h2]; rfl)
  rw [List.take_of_length_le (e5.1 (fun _ => rfl))] at e2
  refine ⟨fs', _, ⟨es, NodeIndexer.allLocs batches⟩, ?_, ⟨pos, e2⟩, NodeIndexer.load_file es _ h5, h3, h4, ?_, ?_, ?_, e4⟩
  · unfold nodeindex
    rw [process_exec _ _ _ s1 ((works_source sched nodeReader NodeIndexer.work nodeWork_agrees s2).trans h1) fs hin]
    rw [NodeIndexer.output_shape]
    exact e1
  · obtain ⟨bs', k1, k2, k3⟩ := NodeIndexer.work_layout fulls hi
    rw [h1] at k1
    cases k1
    have hsz := k2.size
    have htot := hi.total
    have hns : (NodeIndexer.nodeSlots fulls).length = (allNodes fulls).length := by simp [NodeIndexer.nodeSlots]
    have hc : slotCount es = (NodeIndexer.allLocs batches).length := h4
    show (NodeIndexer.allLocs batches).length ≤ _ ∧ (NodeIndexer.allLocs batches).length < 2 ^ 63
    omega
  · intro l hl h0
    change l ∈ NodeIndexer.allLocs batches at hl
    unfold NodeIndexer.allLocs at hl
    obtain ⟨b, hb, hl⟩ := List.mem_flatMap.1 hl
    cases b with
    | none => cases hl
    | some b =>
      obtain ⟨pb, _, hpb⟩ := mapRes_source h1 _ hb
      exact nodeWork_neg hpb l hl h0
  · intro id l
    rw [h6, mem_nodeSlots fulls hi.ids]

/-- What the rewriter makes of a ref, with the index of the source. -/
theorem locate_source {fulls : List (Option PrimitiveBlock)} (hi : Indexable fulls) {f : Int64 → Int64}
    (hf : Locates fulls f) {ix : NodeIndex.NodeIdx} (wf : WellFormed ix.elements ix.locations)
    (h : ∀ (id : UInt64) l, HasLoc ix.elements ix.locations id.toNat l ↔
      ∃ x ∈ allNodes fulls, x.2.id.toInt = id.toNat ∧ NodeIndexer.nodeLocation x.1 x.2.lat x.2.lon = .ok l) :
    locate ix.elements ix.locations = f := by
  funext r
  obtain ⟨c1, c2, c3⟩ := C46_locate wf r
  by_cases hneg : r.toInt < 0
  · rw [c3 hneg, hf.other]
    rintro x hx rfl
    have := hi.ids x hx
    omega
  have hr : r.toUInt64.toNat = r.toInt.toNat := by
    have := NodeIndexer.i64_nat (x := r) (by omega)
    omega
  have key := fun l => h r.toUInt64 l
  rw [hr] at key
  by_cases hex : ∃ x ∈ allNodes fulls, x.2.id = r
  · obtain ⟨x, hx, rfl⟩ := hex
    exact c1 _ (by omega) ((key _).2 ⟨x, hx, by omega, hf.node x hx⟩)
  · rw [hf.other r fun x hx e => hex ⟨x, hx, e⟩]
    refine c2 fun l hl => ?_
    obtain ⟨x, hx, e, _⟩ := (key l).1 hl
    exact hex ⟨x, hx, Int64.toInt_inj.1 (by omega)⟩

/-! ## The way index -/

theorem allWays_mapRefs (f : Int64 → Int64) (fulls : List (Option PrimitiveBlock)) :
    allWays (fulls.map (Option.map (mapRefs f))) = (allWays fulls).map (relocate f) := by
  induction fulls with
  | nil => rfl
  | cons b fulls ih =>
    unfold allWays at ih ⊢
    rw [List.map_cons, List.flatMap_cons, List.flatMap_cons, List.map_append, ih]
    congr 1
    cases b with
    | none => rfl
    | some pb =>
      simp only [Option.map_some, sourceWays, mapRefs, List.flatMap_map, List.map_flatMap]
      rfl

theorem workAll_eq {shift : Int64} (h : 0 ≤ shift.toInt ∧ shift.toInt < 62) (blocks : List (Option PrimitiveBlock)) :
    mapRes (wayWork shift) blocks = WayIndexer.workAll shift blocks := by
  obtain ⟨amt, e1, _⟩ := WayIndexer.amt_ok shift h
  unfold WayIndexer.workAll
  rw [e1, Res.ok_bind]
  congr 1
  funext b
  unfold wayWork
  rw [e1, Res.ok_bind]

/-- Writing the way index. -/
theorem wayOutput_ok (shift : Int64) (blocks : List (Option PrimitiveBlock))
    (h : WaysIndexable shift (allWays blocks)) (out : String) (chunks : Nat → Nat) (fs : FS) :
    ∃ batches fs' file, WayIndexer.workAll shift blocks = .ok batches ∧
      (WayIndexer.Output out shift chunks never batches).exec fs = .ok ((), fs') ∧ Holds fs' out file ∧
      WayIndex.NewWayIndex file =
        .ok ⟨WayIndexer.entries shift 0 (allWays blocks), WayIndexer.locData shift (allWays blocks), shift⟩ ∧
      ∀ g, g ≠ out → g ≠ out ++ ".loc.tmp" → fs' g = fs g := by
  have hsp := h.space
  have hwork := WayIndexer.workAll_ok shift blocks h
  have hb := WayIndexer.batches_ok shift h.range.1 (blocks.map WayIndexer.waysOf) 0 0
    (by rw [← WayIndexer.allWays_eq]; omega) (by rw [← WayIndexer.allWays_eq]; exact h.ids)
  rw [← WayIndexer.allWays_eq, Nat.zero_add] at hb
  have hspec := WayIndexer.loopSpec out (out ++ ".loc.tmp") (tmp_ne out) shift
    ((blocks.map WayIndexer.waysOf).map (WayIndexer.elementOf shift)) 0 0
  obtain ⟨r1, -, -⟩ := withHeader_exec out chunks never _ _ hspec (WayIndexer.header shift) (WayIndexer.header_length shift) fs
  obtain ⟨fs', m, e1, ⟨pos, e2⟩, e3, e4, e5⟩ := r1 (Int64.ofNat (allWays blocks).length)
    (bytesOf (WayIndexer.entries shift 0 (allWays blocks))) (WayIndexer.locData shift (allWays blocks)) (by
      unfold WayIndexer.batchBytes
      rw [show (0 : Int64) = Int64.ofNat 0 from rfl, hb]; rfl)
  rw [List.take_of_length_le (e5.1 fun _ => rfl)] at e2
  have hlen := WayIndexer.entries_length shift (allWays blocks) 0
  have hload := WayIndexer.load_file (WayIndexer.entries shift 0 (allWays blocks))
    (WayIndexer.locData shift (allWays blocks)) shift (by
      have := WayIndexer.length_le_blocks shift (allWays blocks)
      omega)
  rw [hlen] at hload
  exact ⟨_, fs', _, hwork, by rw [WayIndexer.output_shape]; exact e1, ⟨pos, e2⟩, hload, e4⟩

/-- The way index of ways holds their paths. -/
theorem entries_answers (shift : Int64) (ws : List Way) (h : WaysIndexable shift ws) (locs : Int64 → List Int64)
    (h1 : ∀ w ∈ ws, locs w.ID = indexedRefs w) (h2 : ∀ id, (∀ w ∈ ws, w.ID ≠ id) → locs id = []) :
    Answers ⟨WayIndexer.entries shift 0 ws, WayIndexer.locData shift ws, shift⟩ locs := by
  have hsp := h.space
  obtain ⟨m1, m2⟩ := WayIndexer.entries_mem shift ws h.ids 0 [] (by simp) (by omega)
  rw [List.nil_append] at m1
  constructor
  · intro d hd
    obtain ⟨w, hw, q1, _, _, q4⟩ := m1 d hd
    have : Int64.ofNat (wId d) = w.ID := by
      apply Int64.toInt_inj.1
      rw [Int64.toInt_ofNat_of_lt (by unfold wId; have := d.toNat_lt; omega)]
      exact q1
    rw [this, h1 w hw]
    exact q4
  · intro id hid
    refine h2 id ?_
    rintro w hw rfl
    obtain ⟨d, hd, he⟩ := m2 w hw
    exact hid d hd he

theorem pathOf_ways {shift : Int64} {fulls : List (Option PrimitiveBlock)} {f : Int64 → Int64}
    (h : WaysIndexable shift ((allWays fulls).map (relocate f))) :
    (∀ w ∈ (allWays fulls).map (relocate f), pathOf fulls f w.ID = indexedRefs w) ∧
    ∀ id, (∀ w ∈ (allWays fulls).map (relocate f), w.ID ≠ id) → pathOf fulls f id = [] := by
  have hasc := h.ascending
  rw [List.pairwise_map] at hasc
  constructor
  · intro w hw
    obtain ⟨w0, hw0, rfl⟩ := List.mem_map.1 hw
    unfold pathOf
    cases hfind : (allWays fulls).find? (fun x => x.ID == (relocate f w0).ID) with
    | none =>
      have := List.find?_eq_none.1 hfind w0 hw0
      exact absurd (beq_self_eq_true w0.ID) this
    | some w1 =>
      dsimp only
      have e1 := List.find?_some hfind
      have e2 := List.mem_of_find?_eq_some hfind
      have e1 : w1.ID = w0.ID := eq_of_beq e1
      have : w1 = w0 := by
        obtain ⟨i, hi, rfl⟩ := List.getElem_of_mem hw0
        obtain ⟨j, hj, rfl⟩ := List.getElem_of_mem e2
        have e1 := congrArg Int64.toInt e1
        rcases Nat.lt_trichotomy i j with hij | hij | hij
        · have := (List.pairwise_iff_getElem.1 hasc) i j hi hj hij
          simp only [relocate] at this
          omega
        · subst hij; rfl
        · have := (List.pairwise_iff_getElem.1 hasc) j i hj hi hij
          simp only [relocate] at this
          omega
      rw [this]
  · intro id hid
    unfold pathOf
    rw [List.find?_eq_none.2]
    intro w hw he
    exact hid (relocate f w) (List.mem_map_of_mem hw) (show w.ID = id from eq_of_beq he)

/-! ## C69 -/

/-- C69: whatever the schedule and the number of workers, a completed run of the concurrent processing loop hands the
writer what `process` hands it: what the worker makes of each block, in file order. -/
theorem C69_any_schedule {O : Type} (work : Block → Res O) (file : List UInt8) (hl : file.length < 2 ^ 63) (W : Nat)
    (got : List O) (hd : Delivers (cfg work file) W got) (inp : String) (output : List O → Prog Unit) (fs : FS)
    (hin : Holds fs inp file) : (process work inp output).exec fs = (output got).exec fs := by
  obtain ⟨s, hr, hdn, hc, rfl⟩ := hd
  obtain ⟨bs, e1, e2, _⟩ := C55_in_order _ hl rfl W s hr hdn hc
  exact process_exec work inp output e1 e2 fs hin

/-- C69: nodeindex, rewritenodes, wayindex and relindex, run one after the other on a sorted source, all succeed, and the
relation index they leave has for each relation its id, the number of its way members and for each of these, in order,
its id and the path of that way: the encoded locations of its nodes (or their ids, for nodes which are not in the
source) without leading zeros and consecutive repeats; empty for a way which is not in the source. Here one pass is
made over the node index and any number up to `2^shift` over the way index, zlib and the copy of the locations deliver
data in pieces of any size, and pooled buffers have any content. Missing: memory targets and numbers of passes for
which the passes do not cover the index (C31, C41); there it is false. -/
theorem C69_end_to_end_partial (inflate : Inflate) {file : List UInt8} {blocks : List (Option PrimitiveBlock)}
    (hs : Source inflate file blocks) (hl : file.length < 2 ^ 63)
    (hi : Indexable blocks) (hn0 : allNodes blocks ≠ [])
    (hsmall : ∀ cs, FileHas inflate waysDecoded file cs → SmallFile cs)
    {f : Int64 → Int64} (hf : Locates blocks f)
    {shift : Int64} (hw : WaysIndexable shift ((allWays blocks).map (relocate f))) (hw0 : allWays blocks ≠ [])
    (hr : RelationsOk (pathOf blocks f) (allRelations blocks)) (hr0 : allRelations blocks ≠ [])
    {n : Nat} (hn : 1 ≤ n) (hn2 : n ≤ 2 ^ shift.toInt.toNat)
    {src nix rew wix rix : String} (names : Names n src nix rew wix rix)
    (sched1 sched3 sched4 : Block → Sched) (scheds2 : Nat → Block → Sched)
    (hs2 : ∀ i b, (scheds2 i b).pooled.length < 2 ^ 63) (hs3 : ∀ b, (sched3 b).pooled.length < 2 ^ 63)
    (chunks1 chunks3 : Nat → Nat) (fs : FS) (hin : Holds fs src file) :
    ∃ fs1 fs2 fs3 fs4,
      (nodeindex inflate sched1 chunks1 src nix).exec fs = .ok ((), fs1) ∧
      (Rewrite.rewritenodes inflate scheds2 none src nix rew).exec fs1 = .ok ((), fs2) ∧
      (wayindex inflate sched3 chunks3 shift rew wix).exec fs2 = .ok ((), fs3) ∧
      (relindex inflate sched4 n src wix rix).exec fs3 = .ok ((), fs4) ∧
      Holds fs4 rix (Int64SliceAsByteSlice ((allRelations blocks).flatMap (relationEntry (pathOf blocks f)))) := by
  obtain ⟨hnd, hpn⟩ := names
  simp only [List.nodup_cons, List.mem_cons, List.not_mem_nil, or_false, not_or, List.nodup_nil, and_true,
    not_false_eq_true] at hnd
  obtain ⟨⟨d1, d2, d3, d4, d5, d6⟩, ⟨d7, d8, d9, d10, d11⟩, ⟨d12, d13, d14, d15⟩, ⟨d16, d17, d18⟩, ⟨d19, d20⟩, d21⟩ := hnd
  -- nodeindex
  obtain ⟨fs1, ixFile, ix, a1, a2, a3, a4, a5, a6, a7, a8, a9⟩ := nodeindex_ok sched1 chunks1 hs hi src nix fs hin
  have hin1 : Holds fs1 src file := by
    obtain ⟨pos, hin⟩ := hin
    exact ⟨pos, (a9 src d1 d2).trans hin⟩
  have hloc := locate_source hi hf a4 a8
  have hel : ix.elements ≠ [] := by
    intro h0
    obtain ⟨x, xs, hx⟩ := List.exists_cons_of_ne_nil hn0
    have hmem : x ∈ allNodes blocks := by rw [hx]; simp
    have hid := hi.ids x hmem
    have := NodeIndexer.i64_nat (x := x.2.id) (by omega)
    obtain ⟨e, he, _⟩ := (a8 x.2.id.toUInt64 (NodeIndexer.locVal x.1 x.2)).2
      ⟨x, hmem, by omega, (NodeIndexer.nodeLocation_eq x.1 x.2).1⟩
    rw [h0] at he
    simp at he
  -- rewritenodes
  obtain ⟨bs, s1, s2⟩ := hs
  obtain ⟨cs, c1, c2⟩ := source_contents s2
  have hc : FileHas inflate waysDecoded file cs := ⟨bs, s1, c1⟩
  obtain ⟨subs, p1, p2⟩ := C31_single_pass ix a4 a5 a6.2 hel
  obtain ⟨fs2, file2, b1, b2, b3, b4, _, b5⟩ := rewritenodes_ok inflate scheds2 hs2 a4 a7 none 1 rfl (by decide) p1 src nix rew
    hl hc (hsmall cs hc) fs1 hin1 a2 a3
  rw [p2, hloc] at b4
  have hframe2 : ∀ g, g ≠ rew → fs2 g = fs1 g := fun g hg => b5 g hg fun p q1 q2 => by
    rw [show (1 : UInt64).toNat = 1 from rfl] at q2
    omega
  -- wayindex
  obtain ⟨bs2, t1, t2⟩ := b4
  have hw' : WaysIndexable shift (allWays (blocks.map (Option.map (mapRefs f)))) := by rw [allWays_mapRefs]; exact hw
  obtain ⟨batches, fs3, wfile, w1, w2, w3, w4, w5⟩ := wayOutput_ok shift _ hw' wix chunks3 fs2
  have hwork := works_rewritten sched3 hs3 shift f c2 (fun b hb => ((Rewrite.split_blocks b3 t1).2 b hb).1) t2
  rw [workAll_eq hw.range, w1] at hwork
  have hwi : (wayindex inflate sched3 chunks3 shift rew wix).exec fs2 = .ok ((), fs3) := by
    unfold wayindex
    rw [process_exec _ _ _ t1 hwork fs2 b2]
    exact w2
  rw [allWays_mapRefs] at w4
  -- relindex
  obtain ⟨q1, q2⟩ := pathOf_ways hw
  have hans := entries_answers shift _ hw _ q1 q2
  have hne' : (allWays blocks).map (relocate f) ≠ [] := fun h => hw0 (List.map_eq_nil_iff.1 h)
  have hcover := C41_indexed shift _ hw hne' n hn hn2
  have hn63 : n < 2 ^ 63 := Nat.lt_of_le_of_lt hn2 (Nat.pow_lt_pow_right (by omega) (by have := hw.range; omega))
  obtain ⟨sent, fs4, r1, r2, r3⟩ := C44_content_partial (WayIndexer.entries_ordered shift _ hw) hans n hn hn63 hcover hr hr0
    rix wix ⟨d20, fun p hp h => hpn p hp (by simp [← h])⟩ fs3 w3 w4
  refine ⟨fs1, fs2, fs3, fs4, a1, b1, hwi, ?_, r3⟩
  unfold relindex
  rw [process_exec _ _ _ s1 ((works_source sched4 relReader RelIndex.work relWork_agrees s2).trans r1) fs3]
  · exact r2
  · obtain ⟨pos, hin1⟩ := hin1
    refine ⟨pos, ?_⟩
    rw [w5 src d4 d5, hframe2 src d3, hin1]

/-! ## An example -/

/-- There is always a way to replace the ids of the nodes. -/
theorem C69_locates {blocks : List (Option PrimitiveBlock)} (hi : Indexable blocks) : ∃ f, Locates blocks f := by
  refine ⟨fun r => match (allNodes blocks).find? (fun x => x.2.id == r) with
    | some x => NodeIndexer.locVal x.1 x.2
    | none => r, ?_, ?_⟩
  · intro x hx
    cases hfind : (allNodes blocks).find? (fun y => y.2.id == x.2.id) with
    | none => exact absurd (beq_self_eq_true x.2.id) (List.find?_eq_none.1 hfind x hx)
    | some y =>
      dsimp only
      have e1 : y.2.id = x.2.id := eq_of_beq (List.find?_some (p := fun y : PrimitiveBlock × SrcNode => y.2.id == x.2.id) hfind)
      have e2 := List.mem_of_find?_eq_some hfind
      have : y = x := by
        obtain ⟨i, hi', rfl⟩ := List.getElem_of_mem hx
        obtain ⟨j, hj, rfl⟩ := List.getElem_of_mem e2
        have e1 := congrArg Int64.toInt e1
        rcases Nat.lt_trichotomy i j with hij | hij | hij
        · have := (List.pairwise_iff_getElem.1 hi.ascending) i j hi' hj hij; omega
        · subst hij; rfl
        · have := (List.pairwise_iff_getElem.1 hi.ascending) j i hj hi' hij; omega
      rw [this]
      exact (NodeIndexer.nodeLocation_eq x.1 x.2).1
  · intro r hr
    rw [List.find?_eq_none.2]
    intro x hx he
    exact hr x hx (eq_of_beq he)

/-- A primitive block with nodes 2, 3, 5, ways 10 (2, 3, 4) and 11 (5, 5, 9), and relation 7 with way 10, node 2, way 99
and way 11. -/
def tinyPayload : List UInt8 :=
  [10, 2, 10, 0, 18, 20, 18, 18, 10, 3, 4, 2, 4, 66, 3, 40, 20, 40, 74, 6, 144, 3, 200, 1, 144, 3, 18, 18, 26, 7, 8, 10, 66,
   3, 4, 2, 2, 26, 7, 8, 11, 66, 3, 10, 0, 8, 18, 18, 34, 16, 8, 7, 74, 6, 20, 15, 194, 1, 175, 1, 82, 4, 1, 0, 1, 1]

/-- A file with a header and this block. -/
def tinyFile : List UInt8 :=
  [0, 0, 0, 13, 10, 9, 79, 83, 77, 72, 101, 97, 100, 101, 114, 24, 3, 1, 2, 3,
   0, 0, 0, 11, 10, 7, 79, 83, 77, 68, 97, 116, 97, 24, 68] ++ ([10, 66] ++ tinyPayload)

/-- The block. -/
def tinyBlock : PrimitiveBlock :=
  ⟨none, some ⟨[[]]⟩,
    [⟨none, some ⟨[2, 3, 5], [20, 30, 50], [200, 300, 500], []⟩, [], [], [], []⟩,
     ⟨none, none, [⟨10, [], [], [2, 3, 4]⟩, ⟨11, [], [], [5, 5, 9]⟩], [], [], []⟩,
     ⟨none, none, [], [], [⟨7, [], [], [], [10, 2, 99, 11], [1, 0, 1, 1]⟩], []⟩], 100, 1000, 0, 0⟩

theorem tiny_split : split tinyFile = .ok
    [⟨0, ⟨[1, 2, 3], tinyFile.drop 20⟩, osmHeader⟩, ⟨1, ⟨[10, 66] ++ tinyPayload, []⟩, osmData⟩] := by decide +kernel

theorem tiny_source (inflate : Inflate) : Source inflate tinyFile [none, some tinyBlock] := by
  refine ⟨_, tiny_split, .cons (.other _ (by decide)) (.cons (.data _ ⟨some ⟨tinyPayload, []⟩, none, none⟩ tinyPayload _ rfl
    (by decide +kernel) (.raw ⟨tinyPayload, []⟩ none none) (by decide +kernel)) .nil)⟩

theorem tiny_indexable : Indexable [none, some tinyBlock] := by
  constructor
  · intro pb hpb
    simp only [List.mem_cons, Option.some.injEq, reduceCtorEq, List.not_mem_nil, or_false, false_or] at hpb
    subst hpb
    intro pg hpg dn hdn
    simp only [tinyBlock, List.mem_cons, List.not_mem_nil, or_false] at hpg
    rcases hpg with rfl | rfl | rfl <;> cases hdn
    exact ⟨rfl, rfl⟩
  · decide +kernel
  · decide +kernel
  · intro pb hpb
    simp only [List.mem_cons, Option.some.injEq, reduceCtorEq, List.not_mem_nil, or_false, false_or] at hpb
    subst hpb
    decide +kernel
  · decide +kernel

/-- What the rewriter reads. -/
def tinyView : PrimitiveBlock :=
  ⟨some ⟨[10, 0], []⟩, none,
    [⟨some ⟨[10, 3, 4, 2, 4, 66, 3, 40, 20, 40, 74, 6, 144, 3, 200, 1, 144, 3], []⟩, none, [], [], [], []⟩,
     ⟨none, none, [⟨10, [], [], [2, 3, 4]⟩, ⟨11, [], [], [5, 5, 9]⟩], [], [], []⟩,
     ⟨none, none, [], [], [], [⟨[8, 7, 74, 6, 20, 15, 194, 1, 175, 1, 82, 4, 1, 0, 1, 1], []⟩]⟩], 100, 1000, 0, 0⟩

theorem tiny_small (inflate : Inflate) (cs : List Content) (h : FileHas inflate waysDecoded tinyFile cs) : SmallFile cs := by
  obtain ⟨bs, h1, h2⟩ := h
  rw [tiny_split] at h1
  cases h1
  cases h2 with
  | @cons _ c1 _ _ m1 h2 =>
    cases h2 with
    | @cons _ c2 _ _ m2 h2 =>
      cases h2
      cases c1 with
      | data b => exact absurd m1.1 (by decide)
      | other _ _ =>
        cases c2 with
        | other _ _ => exact absurd rfl m2.2.2
        | data b =>
          obtain ⟨raw, pb, r1, r2, r3⟩ := m2.2 1 [] ⟨[], fun _ => ⟨1, false⟩⟩ (by unfold Slice.Fits; decide +kernel) (by decide)
          have : rawOf inflate ⟨[], fun _ => ⟨1, false⟩⟩ ⟨1, ⟨[10, 66] ++ tinyPayload, []⟩, osmData⟩ = .ok ⟨tinyPayload, []⟩ := by rfl
          rw [this] at r1
          cases r1
          have hv : (ReadPrimitiveBlock waysDecoded ⟨tinyPayload, []⟩ >>= fun pb => .ok (trimBlock pb)) = .ok tinyView := by
            decide +kernel
          rw [r2, Res.ok_bind, r3] at hv
          cases hv
          refine ⟨?_, by simp⟩
          intro b hb
          simp only [List.mem_cons, List.not_mem_nil, or_false, reduceCtorEq, false_or, Content.data.injEq] at hb
          subst hb
          exact ⟨by decide +kernel, by decide +kernel⟩

/-- The hypotheses of `C69_end_to_end_partial` hold for this file with two passes over the way index. -/
example (inflate : Inflate) (sched1 sched3 sched4 : Block → Sched) (scheds2 : Nat → Block → Sched)
    (hs2 : ∀ i b, (scheds2 i b).pooled.length < 2 ^ 63) (hs3 : ∀ b, (sched3 b).pooled.length < 2 ^ 63)
    (chunks1 chunks3 : Nat → Nat) (fs : FS) (hin : Holds fs "src" tinyFile) :
    ∃ fs1 fs2 fs3 fs4 loc2 loc3 loc5,
      NodeIndexer.nodeLocation tinyBlock 20 200 = .ok loc2 ∧ NodeIndexer.nodeLocation tinyBlock 30 300 = .ok loc3 ∧
      NodeIndexer.nodeLocation tinyBlock 50 500 = .ok loc5 ∧
      (nodeindex inflate sched1 chunks1 "src" "nix").exec fs = .ok ((), fs1) ∧
      (Rewrite.rewritenodes inflate scheds2 none "src" "nix" "rew").exec fs1 = .ok ((), fs2) ∧
      (wayindex inflate sched3 chunks3 3 "rew" "wix").exec fs2 = .ok ((), fs3) ∧
      (relindex inflate sched4 2 "src" "wix" "rix").exec fs3 = .ok ((), fs4) ∧
      Holds fs4 "rix" (Int64SliceAsByteSlice [7, 3, 10, 3, loc2, loc3, 4, 99, 0, 11, 2, loc5, 9]) := by
  have hi := tiny_indexable
  obtain ⟨f, hf⟩ := C69_locates hi
  have v2 := hf.node (tinyBlock, ⟨2, 20, 200⟩) (by decide +kernel)
  have v3 := hf.node (tinyBlock, ⟨3, 30, 300⟩) (by decide +kernel)
  have v5 := hf.node (tinyBlock, ⟨5, 50, 500⟩) (by decide +kernel)
  have v4 := hf.other 4 (by decide +kernel)
  have v9 := hf.other 9 (by decide +kernel)
  dsimp only at v2 v3 v5
  have w2 : f 2 = NodeIndexer.locVal tinyBlock ⟨2, 20, 200⟩ := by
    rw [(NodeIndexer.nodeLocation_eq tinyBlock ⟨2, 20, 200⟩).1] at v2; exact (Res.ok.inj v2).symm
  have w3 : f 3 = NodeIndexer.locVal tinyBlock ⟨3, 30, 300⟩ := by
    rw [(NodeIndexer.nodeLocation_eq tinyBlock ⟨3, 30, 300⟩).1] at v3; exact (Res.ok.inj v3).symm
  have w5 : f 5 = NodeIndexer.locVal tinyBlock ⟨5, 50, 500⟩ := by
    rw [(NodeIndexer.nodeLocation_eq tinyBlock ⟨5, 50, 500⟩).1] at v5; exact (Res.ok.inj v5).symm
  have hways : (allWays [none, some tinyBlock]).map (relocate f) =
      [⟨10, [], [], [f 2, f 3, f 4]⟩, ⟨11, [], [], [f 5, f 5, f 9]⟩] := rfl
  rw [w2, w3, w5, v4, v9] at hways
  have hp10 : pathOf [none, some tinyBlock] f 10 = indexedRefs ⟨10, [], [], [f 2, f 3, f 4]⟩ := rfl
  have hp11 : pathOf [none, some tinyBlock] f 11 = indexedRefs ⟨11, [], [], [f 5, f 5, f 9]⟩ := rfl
  have hp99 : pathOf [none, some tinyBlock] f 99 = [] := rfl
  rw [w2, w3, v4] at hp10
  rw [w5, v9] at hp11
  obtain ⟨fs1, fs2, fs3, fs4, a, b, c, d, e⟩ := C69_end_to_end_partial inflate (tiny_source inflate) (by decide +kernel) hi
    (by decide +kernel) (tiny_small inflate) hf (shift := 3)
    (by
      rw [hways]
      exact ⟨by decide, by decide, by decide, by decide +kernel, by decide +kernel⟩)
    (by decide +kernel)
    ⟨by decide +kernel, by decide +kernel, by decide +kernel, by
      intro w
      unfold pathOf
      cases hfind : (allWays [none, some tinyBlock]).find? (fun x => x.ID == w) with
      | none => exact Nat.two_pow_pos 62
      | some x =>
        have := List.mem_of_find?_eq_some hfind
        have hx : x = ⟨10, [], [], [2, 3, 4]⟩ ∨ x = ⟨11, [], [], [5, 5, 9]⟩ := by
          revert this
          simp [allWays, sourceWays, tinyBlock]
        dsimp only
        have hl := (C40_refs_spec (relocate f x)).2.1.length_le
        rcases hx with rfl | rfl <;> (simp only [relocate, List.map_cons, List.map_nil, List.length_cons, List.length_nil] at hl ⊢; omega)⟩
    (by decide +kernel) (n := 2) (by decide) (by decide) (src := "src") (nix := "nix") (rew := "rew") (wix := "wix") (rix := "rix")
    ⟨by decide +kernel, by decide +kernel⟩ sched1 sched3 sched4 scheds2 hs2 hs3 chunks1 chunks3 fs hin
  refine ⟨fs1, fs2, fs3, fs4, _, _, _, v2, v3, v5, a, b, c, d, ?_⟩
  have : (allRelations [none, some tinyBlock]).flatMap (relationEntry (pathOf [none, some tinyBlock] f)) =
      [7, 3, 10, 3, f 2, f 3, 4, 99, 0, 11, 2, f 5, 9] := by
    rw [show (allRelations [none, some tinyBlock]) = [⟨7, [], [], [], [10, 2, 99, 11], [1, 0, 1, 1]⟩] from rfl]
    simp only [List.flatMap_cons, List.flatMap_nil, List.append_nil]
    unfold relationEntry
    rw [show wayMembers ⟨7, [], [], [], [10, 2, 99, 11], [1, 0, 1, 1]⟩ = [10, 99, 11] from rfl]
    simp only [List.flatMap_cons, List.flatMap_nil, List.append_nil, hp10, hp11, hp99]
    rw [w2, w3, w5]
    decide +kernel
  rw [← this]
  exact e

end Osm.Props
