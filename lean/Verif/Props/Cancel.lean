import Verif.Lemmas.Cancel
import Verif.Props.Interrupt
import Verif.Props.Programs

/-!
# C74: what a cancelled run produces

`cut`: `none` for a run that is not cancelled, `some k` for one that is cancelled when `k` blocks have been handed to the
workers.
-/

namespace Osm.Props
open Osm Osm.T Osm.Pbf Osm.Spec Osm.Interrupt

/-- C74: every completed run of a command, with any number of workers and any schedule, cancelled at any moment or not at
all, performs exactly the file operations which `process cut` performs, for some `cut`; if it was not cancelled nothing is
cut. -/
theorem C74_any_schedule {α O : Type} (work : Block → Res O) (file : List UInt8) (hl : file.length < 2 ^ 63)
    (bs : List Block) (hs : split file = .ok bs) (W : Nat) (s : St O) (hr : Reachable (Programs.cfg work file) W s)
    (hd : s.main = .done) :
    ∃ cut : Option Nat, (s.cancelled = false → cut = none) ∧ mapRes work (handed cut bs) = .ok s.got ∧
      ∀ (inp : String) (output : List O → Prog α) (fs : FS), Holds fs inp file →
        process cut work inp output fs = output s.got fs := by
  cases hc : s.cancelled with
  | false =>
    obtain ⟨bs', e1, e2, _⟩ := C55_in_order _ hl rfl W s hr hd hc
    have e1 : split file = .ok bs' := e1
    rw [hs] at e1
    cases e1
    exact ⟨none, fun _ => rfl, e2, fun inp output fs hin => process_run none work inp output hs e2 fs hin⟩
  | true =>
    obtain ⟨k, _, _, e2, _⟩ := C57_nothing_lost _ hl rfl W s hr hd bs hs
    exact ⟨some k, (fun h => nomatch h), e2, fun inp output fs hin => process_run (some k) work inp output hs e2 fs hin⟩

/-- C74: with nothing cut the commands are the ones of the other chapters. -/
theorem C74_not_cancelled (inflate : Inflate) (sched : Block → Sched) (chunks : Nat → Nat) (shift : Int64) (passes : Nat)
    (inp wayIndex out : String) :
    tagfilter inflate sched none inp out = TagFilter.tagfilter inflate sched inp out ∧
    nodeindex inflate sched none chunks never inp out = Programs.nodeindex inflate sched chunks inp out ∧
    wayindex inflate sched none chunks never shift inp out = Programs.wayindex inflate sched chunks shift inp out ∧
    relindex inflate sched none passes inp wayIndex out = Programs.relindex inflate sched passes inp wayIndex out ∧
    (∀ si, rewritePass inflate sched none si inp out = Rewrite.pass inflate sched si inp out) :=
  ⟨rfl, rfl, rfl, rfl, fun _ => rfl⟩

/-- See `C74_not_cancelled`. -/
theorem C74_not_cancelled_rewrite (inflate : Inflate) (scheds : Nat → Block → Sched) (memory : Option UInt64)
    (inp index out : String) :
    rewritenodes inflate scheds (fun _ => none) memory inp index out = Rewrite.rewritenodes inflate scheds memory inp index out := by
  have h : ∀ (ix : NodeIndex.NodeIdx) (n left i : Nat),
      rewritePasses inflate scheds (fun _ => none) ix inp out n left i = Rewrite.runPasses inflate scheds ix inp out n left i := by
    intro ix n left
    induction left with
    | zero => intro i; rfl
    | succ left ih =>
      intro i
      unfold rewritePasses Rewrite.runPasses
      rw [ih]
      rfl
  unfold rewritenodes Rewrite.rewritenodes
  simp only [h]

/-- C74: a cancelled decompress ends normally and leaves a complete file of the blocks handed over: same kinds, same
payloads. (With no block handed over the file is empty.) -/
theorem C74_decompress (inflate : Inflate) (sched : Block → Sched) (cut : Option Nat) (file : List UInt8)
    (hl : file.length < 2 ^ 63) (bs : List Block) (hs : split file = .ok bs) (hp : ∀ b ∈ bs, Decompressible inflate b)
    (inp out : String) (fs : FS) (hin : Holds fs inp file) :
    ∃ fs' file', (decompress inflate sched cut inp out).exec fs = .ok ((), fs') ∧ Holds fs' out file' ∧
      (∀ g, g ≠ out → fs' g = fs g) ∧
      (handed cut bs = [] → file' = []) ∧
      (handed cut bs ≠ [] → file'.length < 2 ^ 63 → ∃ bs', split file' = .ok bs' ∧
        bs'.map (·.Kind) = (handed cut bs).map (·.Kind) ∧
        ∀ (i : Nat) b b', (handed cut bs)[i]? = some b → bs'[i]? = some b' →
          ∀ p, BlockPayload inflate b p → BlockPayload inflate b' p) := by
  obtain ⟨_, hb⟩ := Rewrite.split_blocks hl hs
  obtain ⟨got, e2⟩ := Rewrite.mapRes_all (f := decompressWork inflate sched) (as := handed cut bs) (by
    intro b hb'
    obtain ⟨p, p1, p2, _⟩ := hp b (mem_handed hb')
    exact ⟨_, decompressWork_eq inflate sched b p p1 p2⟩)
  obtain ⟨fs', o1, o2, o3⟩ := decompressOutput_exec out got fs
  refine ⟨fs', _, ?_, o2, o3, fun h0 => ?_, fun h0 hlen => ?_⟩
  · unfold decompress
    have := process_run cut (decompressWork inflate sched) inp (decompressOutput out) hs e2 fs hin
    unfold Prog.exec at o1 ⊢
    rw [this]
    exact o1
  · rw [h0] at e2
    cases e2
    rfl
  · exact decompressed_file inflate sched h0 (fun b hb' => hp b (mem_handed hb')) (fun b hb' => (hb b (mem_handed hb')).2.2)
      e2 hlen

/-- C74: a cancelled tagfilter leaves exactly what the complete run makes of the blocks handed over. -/
theorem C74_tagfilter (inflate : Inflate) (sched : Block → Sched) (hsched : ∀ b, (sched b).pooled.length < 2 ^ 63)
    (cut : Option Nat) (file : List UInt8) (hl : file.length < 2 ^ 63) (cs : List Content)
    (hc : FileHas inflate readAll file cs) (its : List Item) (hi : Matches IsItem cs its)
    (hfew : ∀ it ∈ its, it.FewStrings) (inp out : String) (fs fs' : FS) (hin : Holds fs inp file) (fillers : Nat)
    (h : (tagfilter inflate sched cut inp out).exec fs = .ok (fillers, fs')) :
    ∃ file', Holds fs' out file' ∧
      ((handed cut its).filterMap Item.wanted = [] → file' = []) ∧
      ((handed cut its).filterMap Item.wanted ≠ [] → file'.length < 2 ^ 63 → ∃ cs', FileHas inflate readAll file' cs' ∧
        Matches Shows ((handed cut its).filterMap Item.wanted) cs') := by
  obtain ⟨bs, b1, b2⟩ := hc
  obtain ⟨xs, e2, e3⟩ := process_back cut (TagFilter.filterWork inflate sched) inp (TagFilter.output out) b1 fs hin h
  obtain ⟨fs2, h1, h2, h3⟩ := TagFilter.output_exec out xs fs
  rw [h1] at e3
  cases e3
  obtain ⟨hbne, hb⟩ := Rewrite.split_blocks hl b1
  have hm := TagFilter.works_items inflate sched hsched _ _ _ _ (fun b hb' => hb b (mem_handed hb')) (matches_handed b2 cut)
    (matches_handed hi cut) (fun it hit => hfew it (mem_handed hit)) e2
  obtain ⟨m1, m2, m3, cs', m4, m5⟩ := TagFilter.sent_written inflate hm
  have hfm : ((handed cut its).map Item.wanted).filterMap id = (handed cut its).filterMap Item.wanted := by
    rw [List.filterMap_map]; rfl
  rw [hfm] at m3 m5
  refine ⟨_, h2, fun he => ?_, fun hne hlen => ⟨cs', ?_, m5⟩⟩
  · rw [he] at m3
    rw [List.length_eq_zero_iff.1 m3]
    rfl
  · refine Rewrite.fileOf_has inflate readAll ?_ m1 hlen m4
    intro h0
    rw [h0] at m3
    exact hne (List.length_eq_zero_iff.1 m3.symm)

/-- C74: cancelling rewritenodes does not stop it: the pass in progress is cut short, the following passes (which are cut
too, at `cuts i`) go on from there. Either it ends normally with a complete file of the first blocks, rewritten like by a
run that is not cancelled; or, if some pass got no block at all, it panics or leaves an empty file. -/
theorem C74_rewritenodes (inflate : Inflate) (scheds : Nat → Block → Sched)
    (hsched : ∀ i b, (scheds i b).pooled.length < 2 ^ 63) (cuts : Nat → Option Nat) {ix : NodeIndex.NodeIdx}
    (wf : WellFormed ix.elements ix.locations)
    (hneg : NegativeLocs ix.locations) (memory : Option UInt64) (n : UInt64) (hn : NodeIndex.passCount ix memory = .ok n)
    (hn0 : n ≠ 0) {subs : List NodeIndex.SubIdx}
    (hsubs : mapRes (fun p => ix.SubIndex (UInt64.ofNat p) n) (List.range n.toNat) = .ok subs)
    (inp index out : String)
    {cs : List Content} {file ixFile : List UInt8} (hl : file.length < 2 ^ 63) (hc : FileHas inflate waysDecoded file cs)
    (hsm : SmallFile cs) (fs : FS) (hin : Holds fs inp file) (hix : Holds fs index ixFile)
    (hload : NodeIndex.NewNodeIndex ixFile = .ok ix) :
    let m := cutLength ((List.range n.toNat).map cuts) cs.length
    (m ≠ 0 → ∃ fs' file', (rewritenodes inflate scheds cuts memory inp index out).exec fs = .ok ((), fs') ∧
      Holds fs' out file' ∧ file'.length < 2 ^ 63 ∧
      FileHas inflate waysDecoded file'
        ((cs.take m).map (·.mapRefs (locate (subs.flatMap (·.element)) ix.locations)))) ∧
    (m = 0 → (rewritenodes inflate scheds cuts memory inp index out).exec fs = .panic ∨
      ∃ fs', (rewritenodes inflate scheds cuts memory inp index out).exec fs = .ok ((), fs') ∧ Holds fs' out []) := by
  intro m
  have hnn : UInt64.ofNat n.toNat = n := UInt64.ofNat_toNat
  obtain ⟨s1, s2⟩ := subs_of wf (n := n.toNat) (subs := subs) (by rw [hnn]; exact hsubs)
  have hpos : n.toNat ≠ 0 := fun h => hn0 (UInt64.toNat_inj.1 (by simpa using h))
  obtain ⟨left, hleft⟩ : ∃ k, n.toNat = k + 1 := ⟨n.toNat - 1, by omega⟩
  have hstep := rewritePasses_cut inflate scheds hsched cuts hneg inp out subs s1 s2 left 0 fs
    file cs (by omega) (by unfold Rewrite.passInput; rw [if_neg (by omega)]; exact hin) hl hc hsm
  rw [← hleft, ← List.range_eq_range'] at hstep
  obtain ⟨pos, hix⟩ := hix
  have hixne : ixFile ≠ [] := by
    rintro rfl
    cases hload
  have start : (rewritenodes inflate scheds cuts memory inp index out).exec fs =
      ((rewritePasses inflate scheds cuts ix inp out n.toNat n.toNat 0).exec fs >>= fun r =>
        (Rewrite.removeLast out n.toNat).exec r.2) := by
    unfold rewritenodes
    rw [Prog.exec_bind, exec_OsOpen_some hix, Res.ok_bind, Prog.exec_bind, exec_MMapMap]
    dsimp only
    rw [hix]
    dsimp only
    rw [if_neg hixne, Res.ok_bind, Prog.exec_bind, Prog.exec_lift, hload, Res.ok_bind, Res.ok_bind, Prog.exec_bind,
      Prog.exec_lift, hn, Res.ok_bind, Res.ok_bind, Prog.exec_bind]
  rw [start]
  rcases hstep with ⟨h1, h2⟩ | ⟨fs1, file', e1, e2, e3, e4, e5, e6⟩
  · exact ⟨fun h => absurd h1 h, fun _ => Or.inl (by rw [h2]; rfl)⟩
  · rw [e1, Res.ok_bind]
    dsimp only
    have hlast : ∃ fs', (Rewrite.removeLast out n.toNat).exec fs1 = .ok ((), fs') ∧ Holds fs' out file' := by
      unfold Rewrite.removeLast
      by_cases h1 : 1 < n.toNat
      · obtain ⟨x, hx⟩ := e6 h1
        refine ⟨(FsOp.remove (RelIndex.makePassFilename out (n.toNat - 1) n.toNat)).run fs1, ?_, ?_⟩
        · unfold OsRemove
          rw [if_pos h1, Prog.exec_bind, exec_OsOpen_some hx, Res.ok_bind, Prog.exec_emit]
        · obtain ⟨p, e2⟩ := e2
          refine ⟨p, ?_⟩
          rw [← e2]
          exact set_other _ _ (RelIndex.pass_ne_out _ _ _).symm
      · rw [if_neg h1]
        exact ⟨fs1, rfl, e2⟩
    obtain ⟨fs', l1, l2⟩ := hlast
    rw [List.drop_zero] at e5
    refine ⟨fun h => ⟨fs', file', l1, l2, e3, e5 h⟩, fun h => Or.inr ⟨fs', l1, ?_⟩⟩
    rw [e4 h] at l2
    exact l2

/-- C74: a cancelled relindex goes on with the relations it has read: its output is the complete relation index of the
blocks handed over. -/
theorem C74_relindex {inflate : Inflate} (sched : Block → Sched) (cut : Option Nat) {file : List UInt8}
    {fulls : List (Option PrimitiveBlock)} (hs : Source inflate file fulls)
    {ix : WayIndex.WayIdx} (hw : WayOrdered ix.Ids ix.Loc ix.AlignmentShift) {locs : Int64 → List Int64}
    (ha : Answers ix locs) (n : Nat) (hn : 1 ≤ n) (hn63 : n < 2 ^ 63) (hcover : WayPassesCover ix n)
    (hr : RelationsOk locs (allRelations (handed cut fulls))) (hne : allRelations (handed cut fulls) ≠ [])
    (inp out wayIndex : String) (hwi : wayIndex ≠ out ∧ ∀ p < n, wayIndex ≠ RelIndex.makePassFilename out p n)
    (fs : FS) (hin : Holds fs inp file) {wayFile : List UInt8} (hf : Holds fs wayIndex wayFile)
    (hload : WayIndex.NewWayIndex wayFile = .ok ix) :
    ∃ fs', (relindex inflate sched cut n inp wayIndex out).exec fs = .ok ((), fs') ∧
      Holds fs' out (Int64SliceAsByteSlice ((allRelations (handed cut fulls)).flatMap (relationEntry locs))) := by
  obtain ⟨bs, s1, s2⟩ := hs
  obtain ⟨sent, fs', r1, r2, r3⟩ := C44_content_partial hw ha n hn hn63 hcover hr hne out wayIndex hwi fs hf hload
  refine ⟨fs', ?_, r3⟩
  unfold relindex
  have := process_run cut (Programs.blockWork inflate sched Programs.relReader RelIndex.work) inp
    (fun sent => RelIndex.relindex out wayIndex n sent) s1
    ((Programs.works_source sched Programs.relReader RelIndex.work Programs.relWork_agrees (matches_handed s2 cut)).trans r1)
    fs hin
  unfold Prog.exec at r2 ⊢
  rw [this]
  exact r2

/-- C74: a nodeindex that is cancelled while reading ends normally, with an index that lists the nodes of the blocks handed
over but has no location at all; so a lookup panics or says that the node is not there. -/
theorem C74_nodeindex {inflate : Inflate} (sched : Block → Sched) (cut : Option Nat) (chunks : Nat → Nat)
    (copyCancelled : Nat → Bool) (hcc : copyCancelled 0 = true) {file : List UInt8}
    {fulls : List (Option PrimitiveBlock)} (hs : Source inflate file fulls) (hi : Indexable (handed cut fulls))
    (inp out : String) (fs : FS) (hin : Holds fs inp file) :
    ∃ fs' ixFile es locs, (nodeindex inflate sched cut chunks copyCancelled inp out).exec fs = .ok ((), fs') ∧
      Holds fs' out ixFile ∧ NodeIndex.NewNodeIndex ixFile = .ok ⟨es, []⟩ ∧ WellFormed es locs ∧
      (∀ (id : UInt64) l, HasLoc es locs id.toNat l ↔ ∃ x ∈ allNodes (handed cut fulls), x.2.id.toInt = id.toNat ∧
        NodeIndexer.nodeLocation x.1 x.2.lat x.2.lon = .ok l) ∧
      ∀ (sub : List NodeIndex.IndexElement) (top id : UInt64) (hint : Int),
        NodeIndex.SubIdx.findNode ⟨sub, [], top⟩ id hint = .panic ∨
        ∃ r, NodeIndex.SubIdx.findNode ⟨sub, [], top⟩ id hint = .ok r ∧ r.ok = false := by
  obtain ⟨bs, s1, s2⟩ := hs
  obtain ⟨batches, es, h1, h2, h3, h4, h5, h6⟩ := NodeIndexer.run_index (handed cut fulls) hi
  have hspec := NodeIndexer.loopSpec out (out ++ ".loc.tmp") (tmp_ne out) batches 0 0
  obtain ⟨r1, -, -⟩ := withHeader_exec out chunks copyCancelled _ _ hspec NodeIndexer.header NodeIndexer.header_length fs
  obtain ⟨fs', m, e1, ⟨pos, e2⟩, e3, e4, e5⟩ := r1 (UInt64.ofNat es.length) _ _ (by
    unfold NodeIndexer.batchBytes; rw [h2]; rfl)
  rw [e5.2 hcc, List.take_zero] at e2
  refine ⟨fs', _, es, NodeIndexer.allLocs batches, ?_, ⟨pos, e2⟩, NodeIndexer.load_file es [] h5, h3, ?_, ?_⟩
  · unfold nodeindex
    have := process_run cut (Programs.blockWork inflate sched Programs.nodeReader NodeIndexer.work) inp
      (NodeIndexer.Output out chunks copyCancelled) s1
      ((Programs.works_source sched Programs.nodeReader NodeIndexer.work Programs.nodeWork_agrees (matches_handed s2 cut)).trans h1)
      fs hin
    rw [NodeIndexer.output_shape] at this
    unfold Prog.exec at e1 ⊢
    rw [this]
    exact e1
  · intro id l
    rw [h6, mem_nodeSlots _ hi.ids]
  · intro sub top id hint
    exact findNode_nowhere sub top id hint

/-- C74: a wayindex that is cancelled while reading ends normally, with an index that lists the ways of the blocks handed
over but has no location at all; so a lookup panics or says that the way is not there. -/
theorem C74_wayindex {inflate : Inflate} (sched : Block → Sched) (cut : Option Nat) (chunks : Nat → Nat)
    (copyCancelled : Nat → Bool) (hcc : copyCancelled 0 = true) (shift : Int64) {file : List UInt8}
    {fulls : List (Option PrimitiveBlock)} (hs : Source inflate file fulls)
    (hi : WaysIndexable shift (allWays (handed cut fulls))) (inp out : String) (fs : FS) (hin : Holds fs inp file) :
    ∃ fs' ixFile ids, (wayindex inflate sched cut chunks copyCancelled shift inp out).exec fs = .ok ((), fs') ∧
      Holds fs' out ixFile ∧ WayIndex.NewWayIndex ixFile = .ok ⟨ids, [], shift⟩ ∧
      ids.map WayIndex.WayID = (allWays (handed cut fulls)).map (·.ID) ∧
      ∀ (sub : List UInt64) (top id : Int64) (hint : Int),
        WayIndex.SubIdx.FindLocations ⟨sub, [], shift, top⟩ id hint = .panic ∨
        ∃ r, WayIndex.SubIdx.FindLocations ⟨sub, [], shift, top⟩ id hint = .ok r ∧ r.ok = false := by
  obtain ⟨bs, s1, s2⟩ := hs
  have hsp := hi.space
  have hwork := WayIndexer.workAll_ok shift (handed cut fulls) hi
  have hb := WayIndexer.batches_ok shift hi.range.1 ((handed cut fulls).map WayIndexer.waysOf) 0 0
    (by rw [← WayIndexer.allWays_eq]; omega) (by rw [← WayIndexer.allWays_eq]; exact hi.ids)
  rw [← WayIndexer.allWays_eq, Nat.zero_add] at hb
  have hspec := WayIndexer.loopSpec out (out ++ ".loc.tmp") (tmp_ne out) shift
    (((handed cut fulls).map WayIndexer.waysOf).map (WayIndexer.elementOf shift)) 0 0
  obtain ⟨r1, -, -⟩ := withHeader_exec out chunks copyCancelled _ _ hspec (WayIndexer.header shift)
    (WayIndexer.header_length shift) fs
  obtain ⟨fs', m, e1, ⟨pos, e2⟩, e3, e4, e5⟩ := r1 (Int64.ofNat (allWays (handed cut fulls)).length)
    (bytesOf (WayIndexer.entries shift 0 (allWays (handed cut fulls)))) (WayIndexer.locData shift (allWays (handed cut fulls))) (by
      unfold WayIndexer.batchBytes
      rw [show (0 : Int64) = Int64.ofNat 0 from rfl, hb]; rfl)
  rw [e5.2 hcc, List.take_zero] at e2
  have hlen := WayIndexer.entries_length shift (allWays (handed cut fulls)) 0
  have hload := WayIndexer.load_file (WayIndexer.entries shift 0 (allWays (handed cut fulls))) [] shift (by
      have := WayIndexer.length_le_blocks shift (allWays (handed cut fulls))
      omega)
  rw [hlen] at hload
  refine ⟨fs', _, _, ?_, ⟨pos, e2⟩, hload, entries_wayIds shift _ 0 (by omega) hi.ids, fun sub top id hint =>
    findLocations_nowhere sub shift top id hint⟩
  unfold wayindex
  have := process_run cut (Programs.blockWork inflate sched Programs.wayReader (Programs.wayWork shift)) inp
    (WayIndexer.Output out shift chunks copyCancelled) s1
    ((Programs.works_source sched Programs.wayReader (Programs.wayWork shift) (Programs.wayWork_agrees shift)
      (matches_handed s2 cut)).trans ((workAll_eq hi.range _).trans hwork)) fs hin
  rw [WayIndexer.output_shape] at this
  unfold Prog.exec at e1 ⊢
  rw [this]
  exact e1

/-! ## Examples -/

/-- A nodeindex cancelled after the second block: the index lists node 2, but there is no location. -/
example (inflate : Inflate) (sched : Block → Sched) (chunks : Nat → Nat) (fs : FS) (hin : Holds fs "src" tinyFile) :
    ∃ fs' ixFile es, (nodeindex inflate sched (some 2) chunks (fun _ => true) "src" "nix").exec fs = .ok ((), fs') ∧
      Holds fs' "nix" ixFile ∧ NodeIndex.NewNodeIndex ixFile = .ok ⟨es, []⟩ ∧ es ≠ [] := by
  obtain ⟨fs', ixFile, es, locs, h1, h2, h3, h4, h5, _⟩ := C74_nodeindex sched (some 2) chunks (fun _ => true) rfl
    (tiny_source inflate) (show Indexable [none, some tinyBlock] from tiny_indexable) "src" "nix" fs hin
  refine ⟨fs', ixFile, es, h1, h2, h3, ?_⟩
  rintro rfl
  obtain ⟨l, hl⟩ : ∃ l, NodeIndexer.nodeLocation tinyBlock 20 200 = .ok l := ⟨_, (NodeIndexer.nodeLocation_eq tinyBlock ⟨2, 20, 200⟩).1⟩
  obtain ⟨e, he, _⟩ := (h5 2 l).2 ⟨(tinyBlock, ⟨2, 20, 200⟩), by decide +kernel, by decide, hl⟩
  cases he

/-- A wayindex cancelled after the second block: the index lists ways 10 and 11, but there is no location. -/
example (inflate : Inflate) (sched : Block → Sched) (chunks : Nat → Nat) (fs : FS) (hin : Holds fs "src" tinyFile) :
    ∃ fs' ixFile ids, (wayindex inflate sched (some 2) chunks (fun _ => true) 3 "src" "wix").exec fs = .ok ((), fs') ∧
      Holds fs' "wix" ixFile ∧ WayIndex.NewWayIndex ixFile = .ok ⟨ids, [], 3⟩ ∧ ids.map WayIndex.WayID = [10, 11] := by
  obtain ⟨fs', ixFile, ids, h1, h2, h3, h4, _⟩ := C74_wayindex sched (some 2) chunks (fun _ => true) rfl 3
    (tiny_source inflate) ⟨by decide, by decide +kernel, by decide +kernel, by decide +kernel, by decide +kernel⟩
    "src" "wix" fs hin
  exact ⟨fs', ixFile, ids, h1, h2, h3, h4⟩

/-- A decompress cancelled after the first of two blocks leaves a file with the first one. -/
example (sched : Block → Sched) (fs : FS) (hin : Holds fs "in" (fileOf mixedBlocks)) :
    ∃ fs' file', (decompress (fun z => if z = [120, 1] then some [1, 2, 3] else none) sched (some 1) "in" "out").exec fs =
      .ok ((), fs') ∧ Holds fs' "out" file' := by
  obtain ⟨bs, h1, h2⟩ := mixed_decompressible
  obtain ⟨fs', file', r1, r2, _⟩ := C74_decompress _ sched (some 1) _ (by decide +kernel) bs h1 h2 "in" "out" fs hin
  exact ⟨fs', file', r1, r2⟩

/-- A rewritenodes with two passes whose second pass is cancelled after the first block: it ends normally, and the file
has only the header block. -/
example (inflate : Inflate) (scheds : Nat → Block → Sched) (hsched : ∀ i b, (scheds i b).pooled.length < 2 ^ 63) :
    ∃ file ixFile, ∀ (inp index out : String) (fs : FS), Holds fs inp file → Holds fs index ixFile →
      ∃ fs' file', (rewritenodes inflate scheds (fun i => if i = 1 then some 1 else none) (some 1) inp index out).exec fs =
        .ok ((), fs') ∧ Holds fs' out file' ∧ FileHas inflate waysDecoded file' [.other osmHeader [1, 2, 3]] := by
  obtain ⟨file, hl, hc⟩ := refsFile inflate
  obtain ⟨wf, hcomp, hneg⟩ := lopsided_wf
  obtain ⟨ixFile, hload⟩ : ∃ f, NodeIndex.NewNodeIndex f = .ok lopsided :=
    ⟨_, NodeIndexer.load_file lopsided.elements lopsided.locations (by decide)⟩
  obtain ⟨p1, a, b, p2, p3⟩ := lopsided_two
  have hsm : SmallFile [.other osmHeader [1, 2, 3], .data (refsBlock [1, 200000, -4])] := by
    refine ⟨fun b hb => ?_, by simp⟩
    simp only [List.mem_cons, reduceCtorEq, Content.data.injEq, List.not_mem_nil, or_false, false_or] at hb
    subst hb
    exact ⟨by decide +kernel, by decide +kernel⟩
  refine ⟨file, ixFile, fun inp index out fs hin hix => ?_⟩
  obtain ⟨h1, _⟩ := C74_rewritenodes inflate scheds hsched (fun i => if i = 1 then some 1 else none) wf hneg (some 1) 2 p1
    (by decide) p3 inp index out hl hc hsm fs hin hix hload
  obtain ⟨fs', file', e1, e2, _, e4⟩ := h1 (by decide)
  exact ⟨fs', file', e1, e2, e4⟩

end Osm.Props

