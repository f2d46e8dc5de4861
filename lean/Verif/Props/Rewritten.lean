import Verif.Lemmas.Rewritten
import Verif.Props.Filtered

/-!
# C111: rewriting does not change the indexes of nodes and relations

`src`: a file; `rew`: what rewritenodes made of it, with some index. The two runs of each index program may be on different disks
(`fs1`, `fs2`), with other schedules. `cut`: as in C74.
-/

namespace Osm.Props
open Osm Osm.T Osm.Pbf Osm.Spec Osm.Spec.OsmFormat Osm.Interrupt Osm.Repeat Osm.Content

/-- C111: nodeindex. -/
theorem C111_nodeindex (inflate : Inflate) (scheds : Nat → Block → Sched) (hs : ∀ i b, (scheds i b).pooled.length < 2 ^ 63)
    {file : List UInt8} (hl : file.length < 2 ^ 63) (hne : file ≠ []) {cs : List Content} (hfew : cs.length ≤ 2 ^ 31)
    (hc : IsOsmContents inflate file cs)
    {ix : NodeIndex.NodeIdx} (wf : WellFormed ix.elements ix.locations) (hneg : NegativeLocs ix.locations) (memory : Option UInt64)
    (n : UInt64) (hn : NodeIndex.passCount ix memory = .ok n) {subs : List NodeIndex.SubIdx}
    (hsubs : mapRes (fun p => ix.SubIndex (UInt64.ofNat p) n) (List.range n.toNat) = .ok subs)
    {ixFile : List UInt8} (hload : NodeIndex.NewNodeIndex ixFile = .ok ix)
    (src index rew : String) (fs fs0 : FS) (hin : Holds fs src file) (hix : Holds fs index ixFile)
    (hrun : (Rewrite.rewritenodes inflate scheds memory src index rew).exec fs = .ok ((), fs0))
    (file' : List UInt8) (hout : Holds fs0 rew file')
    (s1 s2 : Block → Sched) (cut : Option Nat) (chunks1 chunks2 : Nat → Nat) (out : String) (fs1 fs2 : FS) (i1 : Holds fs1 src file)
    (i2 : Holds fs2 rew file') :
    SameRun out ((nodeindex inflate s1 cut chunks1 never src out).exec fs1)
      ((nodeindex inflate s2 cut chunks2 never rew out).exec fs2) := by
  obtain ⟨file'', a1, a2⟩ := Format.rewritenodes_done inflate scheds hs wf hneg memory n hn (passCount_ne ix memory n hn) hsubs src
    index rew ⟨hl, hne, hfew, hc⟩ fs fs0 hin hix hload hrun
  obtain rfl := Format.holds_unique hout a1
  obtain ⟨b1, p1, m1⟩ := sound_is_source (C87_source inflate file hl hne _ (Format.contents_blocks hc))
  obtain ⟨b2, p2, m2⟩ := sound_is_source (C87_source inflate file' a2.len a2.some _ (Format.contents_blocks a2.is))
  refine process_alike cut p1 p2 ?_ i1 i2 fun xs => ?_
  · rw [Programs.works_source s1 Programs.nodeReader NodeIndexer.work Programs.nodeWork_agrees (matches_handed m1 cut),
      Programs.works_source s2 Programs.nodeReader NodeIndexer.work Programs.nodeWork_agrees (matches_handed m2 cut)]
    cases cut with
    | none => exact Format.mapRefs_works (Format.mapRefs_nodeWork _) cs
    | some k =>
      show mapRes _ ((cs.map Format.inside).take k) = mapRes _ (((cs.map _).map Format.inside).take k)
      rw [← List.map_take, ← List.map_take, ← List.map_take]
      exact Format.mapRefs_works (Format.mapRefs_nodeWork _) (cs.take k)
  · rw [NodeIndexer.output_shape, NodeIndexer.output_shape]
    exact rel_withHeader out chunks1 chunks2 _ _ (NodeIndexer.loopSpec out (out ++ ".loc.tmp") (tmp_ne out) xs 0 0) _
      NodeIndexer.header_length (fun _ _ => True) fs1 fs2 trivial

/-- C111: relindex with at least one pass, with the same way index. -/
theorem C111_relindex (inflate : Inflate) (scheds : Nat → Block → Sched) (hs : ∀ i b, (scheds i b).pooled.length < 2 ^ 63)
    {file : List UInt8} (hl : file.length < 2 ^ 63) (hne : file ≠ []) {cs : List Content} (hfew : cs.length ≤ 2 ^ 31)
    (hc : IsOsmContents inflate file cs)
    {ix : NodeIndex.NodeIdx} (wf : WellFormed ix.elements ix.locations) (hneg : NegativeLocs ix.locations) (memory : Option UInt64)
    (n : UInt64) (hn : NodeIndex.passCount ix memory = .ok n) {subs : List NodeIndex.SubIdx}
    (hsubs : mapRes (fun p => ix.SubIndex (UInt64.ofNat p) n) (List.range n.toNat) = .ok subs)
    {ixFile : List UInt8} (hload : NodeIndex.NewNodeIndex ixFile = .ok ix)
    (src index rew : String) (fs fs0 : FS) (hin : Holds fs src file) (hix : Holds fs index ixFile)
    (hrun : (Rewrite.rewritenodes inflate scheds memory src index rew).exec fs = .ok ((), fs0))
    (file' : List UInt8) (hout : Holds fs0 rew file')
    (s1 s2 : Block → Sched) (cut : Option Nat) (passes : Nat) (hp : 0 < passes) (wayIndex out : String) (fs1 fs2 : FS)
    (i1 : Holds fs1 src file) (i2 : Holds fs2 rew file') (hw : SameData wayIndex fs1 fs2) :
    SameRun out ((relindex inflate s1 cut passes src wayIndex out).exec fs1)
      ((relindex inflate s2 cut passes rew wayIndex out).exec fs2) := by
  obtain ⟨file'', a1, a2⟩ := Format.rewritenodes_done inflate scheds hs wf hneg memory n hn (passCount_ne ix memory n hn) hsubs src
    index rew ⟨hl, hne, hfew, hc⟩ fs fs0 hin hix hload hrun
  obtain rfl := Format.holds_unique hout a1
  obtain ⟨b1, p1, m1⟩ := sound_is_source (C87_source inflate file hl hne _ (Format.contents_blocks hc))
  obtain ⟨b2, p2, m2⟩ := sound_is_source (C87_source inflate file' a2.len a2.some _ (Format.contents_blocks a2.is))
  refine process_alike cut p1 p2 ?_ i1 i2 fun xs => Format.relindex_list out wayIndex hp rfl hw
  rw [Programs.works_source s1 Programs.relReader RelIndex.work Programs.relWork_agrees (matches_handed m1 cut),
    Programs.works_source s2 Programs.relReader RelIndex.work Programs.relWork_agrees (matches_handed m2 cut)]
  cases cut with
  | none => exact Format.mapRefs_works (Format.mapRefs_relWork _) cs
  | some k =>
    show mapRes _ ((cs.map Format.inside).take k) = mapRes _ (((cs.map _).map Format.inside).take k)
    rw [← List.map_take, ← List.map_take, ← List.map_take]
    exact Format.mapRefs_works (Format.mapRefs_relWork _) (cs.take k)

/-- C111: entitycount prints the same numbers. -/
theorem C111_entitycount (inflate : Inflate) (scheds : Nat → Block → Sched) (hs : ∀ i b, (scheds i b).pooled.length < 2 ^ 63)
    {file : List UInt8} (hl : file.length < 2 ^ 63) (hne : file ≠ []) {cs : List Content} (hfew : cs.length ≤ 2 ^ 31)
    (hc : IsOsmContents inflate file cs)
    {ix : NodeIndex.NodeIdx} (wf : WellFormed ix.elements ix.locations) (hneg : NegativeLocs ix.locations) (memory : Option UInt64)
    (n : UInt64) (hn : NodeIndex.passCount ix memory = .ok n) {subs : List NodeIndex.SubIdx}
    (hsubs : mapRes (fun p => ix.SubIndex (UInt64.ofNat p) n) (List.range n.toNat) = .ok subs)
    {ixFile : List UInt8} (hload : NodeIndex.NewNodeIndex ixFile = .ok ix)
    (src index rew : String) (fs fs0 : FS) (hin : Holds fs src file) (hix : Holds fs index ixFile)
    (hrun : (Rewrite.rewritenodes inflate scheds memory src index rew).exec fs = .ok ((), fs0))
    (file' : List UInt8) (hout : Holds fs0 rew file')
    (s1 s2 : Block → Sched) (hs1 : ∀ b, (s1 b).pooled.length < 2 ^ 63) (hs2 : ∀ b, (s2 b).pooled.length < 2 ^ 63) (W1 W2 : Nat)
    (st1 st2 : St (List T.PrimitiveGroup))
    (hr1 : Reachable (Count.countCfg inflate s1 file) W1 st1) (hd1 : st1.main = .done) (hc1 : st1.cancelled = false)
    (hr2 : Reachable (Count.countCfg inflate s2 file') W2 st2) (hd2 : st2.main = .done) (hc2 : st2.cancelled = false)
    (m1 m2 : Count.Var → UInt64) (hp1 : Count.Prints inflate s1 st1 m1) (hp2 : Count.Prints inflate s2 st2 m2) : m1 = m2 := by
  obtain ⟨file'', q1, q2⟩ := Format.rewritenodes_done inflate scheds hs wf hneg memory n hn (passCount_ne ix memory n hn) hsubs src
    index rew ⟨hl, hne, hfew, hc⟩ fs fs0 hin hix hload hrun
  obtain rfl := Format.holds_unique hout q1
  obtain ⟨a1, a2, a3, a4, a5, a6, a7, a8, a9⟩ := C61_format inflate s1 hs1 file hl hne cs hc W1 st1 hr1 hd1 hc1 m1 hp1
  obtain ⟨b1, b2, b3, b4, b5, b6, b7, b8, b9⟩ := C61_format inflate s2 hs2 file' q2.len q2.some _ q2.is W2 st2 hr2 hd2 hc2 m2 hp2
  unfold totals at a1 a2 a3 a4 a5 b1 b2 b3 b4 b5
  simp only [Format.nodeIds_mapRefs, Format.fileWays_mapRefs, Format.fileRelations_mapRefs, List.length_map, List.map_map,
    Function.comp_def] at b1 b2 b3 b4 b5 b6 b7 b8 b9
  have hmax : ∀ {x y : UInt64} {xs : List UInt64}, IsMax x xs → IsMax y xs → x = y := fun hx hy =>
    UInt64.le_antisymm (hy.2 _ hx.1) (hx.2 _ hy.1)
  funext v
  cases v with
  | blockCount => rw [a1, b1]
  | nodeCount => rw [a2, b2]
  | wayCount => rw [a3, b3]
  | relationCount => rw [a4, b4]
  | wayRefCount => rw [a5, b5]
  | maxNode => exact hmax a6 b6
  | maxWay => exact hmax a7 b7
  | maxRelation => exact hmax a8 b8
  | maxWayRefCount => exact hmax a9 b9

/-- C110: entitycount prints the same numbers of ways, relations and references, and the same largest ids of ways and relations and
number of references of a way. -/
theorem C110_entitycount (inflate : Inflate) (sched0 : Block → Sched) (hsched : ∀ b, (sched0 b).pooled.length < 2 ^ 63)
    {file : List UInt8} (hl : file.length < 2 ^ 63) (hne : file ≠ []) {cs : List Content} (hfew : cs.length ≤ 2 ^ 31)
    (hc : IsOsmContents inflate file cs) (src flt : String) (fs fs0 : FS) (fillers : Nat) (hin : Holds fs src file)
    (hrun : (tagfilter inflate sched0 none src flt).exec fs = .ok (fillers, fs0))
    (file' : List UInt8) (hout : Holds fs0 flt file') (hne' : file' ≠ [])
    (s1 s2 : Block → Sched) (hs1 : ∀ b, (s1 b).pooled.length < 2 ^ 63) (hs2 : ∀ b, (s2 b).pooled.length < 2 ^ 63) (W1 W2 : Nat)
    (st1 st2 : St (List T.PrimitiveGroup))
    (hr1 : Reachable (Count.countCfg inflate s1 file) W1 st1) (hd1 : st1.main = .done) (hc1 : st1.cancelled = false)
    (hr2 : Reachable (Count.countCfg inflate s2 file') W2 st2) (hd2 : st2.main = .done) (hc2 : st2.cancelled = false)
    (m1 m2 : Count.Var → UInt64) (hp1 : Count.Prints inflate s1 st1 m1) (hp2 : Count.Prints inflate s2 st2 m2) :
    m1 .wayCount = m2 .wayCount ∧ m1 .relationCount = m2 .relationCount ∧ m1 .wayRefCount = m2 .wayRefCount ∧
      m1 .maxWay = m2 .maxWay ∧ m1 .maxRelation = m2 .maxRelation ∧ m1 .maxWayRefCount = m2 .maxWayRefCount := by
  obtain ⟨ys, file'', t1, _, t3, t4, t5, _, _⟩ := Format.tagfilter_done inflate sched0 hsched ⟨hl, hne, hfew, hc⟩ src flt fs fs0
    fillers hin hrun
  obtain rfl := Format.holds_unique hout t3
  obtain ⟨a1, a2, a3, a4, a5, a6, a7, a8, a9⟩ := C61_format inflate s1 hs1 file hl hne cs hc W1 st1 hr1 hd1 hc1 m1 hp1
  obtain ⟨b1, b2, b3, b4, b5, b6, b7, b8, b9⟩ := C61_format inflate s2 hs2 file' t5 hne' _ t4 W2 st2 hr2 hd2 hc2 m2 hp2
  have hw := Format.left_ways t1
  have hr := Format.left_relations t1
  have e1 : (fileWays (ys.filterMap id)).length = (fileWays cs).length := by
    simpa using congrArg List.length hw
  have e2 : (fileRelations (ys.filterMap id)).length = (fileRelations cs).length := by
    simpa using congrArg List.length hr
  have e3 : (fileWays (ys.filterMap id)).map (·.Refs.length) = (fileWays cs).map (·.Refs.length) := by
    have := congrArg (List.map fun c => c.2.length) hw
    simp only [List.map_map] at this
    exact this
  have e4 : (fileWays (ys.filterMap id)).map (·.ID.toUInt64) = (fileWays cs).map (·.ID.toUInt64) := by
    have := congrArg (List.map fun c => c.1.toUInt64) hw
    simp only [List.map_map] at this
    exact this
  have e5 : (fileRelations (ys.filterMap id)).map (·.ID.toUInt64) = (fileRelations cs).map (·.ID.toUInt64) := by
    have := congrArg (List.map fun c => c.1.toUInt64) hr
    simp only [List.map_map] at this
    exact this
  have e6 : (fileWays (ys.filterMap id)).map (fun w => UInt64.ofNat w.Refs.length) =
      (fileWays cs).map (fun w => UInt64.ofNat w.Refs.length) := by
    have := congrArg (List.map fun c => UInt64.ofNat c.2.length) hw
    simp only [List.map_map] at this
    exact this
  unfold totals at a3 a4 a5 b3 b4 b5
  dsimp only at a3 a4 a5 b3 b4 b5
  rw [e1] at b3
  rw [e2] at b4
  rw [e3] at b5
  rw [e4] at b7
  rw [e5] at b8
  rw [e6] at b9
  have hmax : ∀ {x y : UInt64} {xs : List UInt64}, IsMax x xs → IsMax y xs → x = y := fun hx hy =>
    UInt64.le_antisymm (hy.2 _ hx.1) (hx.2 _ hy.1)
  exact ⟨a3.trans b3.symm, a4.trans b4.symm, a5.trans b5.symm, hmax a7 b7, hmax a8 b8, hmax a9 b9⟩

/-! ### The hypotheses are met -/

/-- The file of `Props/Programs.lean` rewritten with the index `tinyIx`, which knows node 2: two different files with the same node
index. -/
example (fs fs1 fs2 : FS) (hin : Holds fs "src" tinyFile) (ixFile : List UInt8) (hload : NodeIndex.NewNodeIndex ixFile = .ok tinyIx)
    (hix : Holds fs "nix" ixFile) (h1 : Holds fs1 "src" tinyFile) (h2 : Holds fs2 "rew" (fileOf tinyRewritten))
    (cut : Option Nat) (chunks1 chunks2 : Nat → Nat) :
    SameRun "out" ((nodeindex (fun _ => none) noSched cut chunks1 never "src" "out").exec fs1)
        ((nodeindex (fun _ => none) noSched cut chunks2 never "rew" "out").exec fs2) ∧ tinyFile ≠ fileOf tinyRewritten := by
  obtain ⟨wf, hneg, hcov⟩ := tinyIx_wf
  have hn : NodeIndex.passCount tinyIx none = .ok 1 := by rfl
  have hsi : tinyIx.SubIndex 0 1 = .ok ⟨[⟨2, 1⟩], [-5], 2⟩ := by decide +kernel
  obtain ⟨fs0, A1, hA1⟩ := one_rewrite hn hsi (by decide +kernel) tiny_split (xs := tinyRewritten) (by decide +kernel) hin hix
    hload (out := "rew") (by decide +kernel)
  obtain ⟨bs, hc⟩ := tiny_contents (fun _ => none)
  have hsubs : mapRes (fun p => tinyIx.SubIndex (UInt64.ofNat p) 1) (List.range (1 : UInt64).toNat) = .ok [⟨[⟨2, 1⟩], [-5], 2⟩] := by
    decide +kernel
  exact ⟨C111_nodeindex (fun _ => none) (fun _ => noSched) (by simp [noSched]) (by decide +kernel) (by decide +kernel) (by simp) hc wf hneg
    none 1 hn hsubs hload "src" "nix" "rew" fs fs0 hin hix A1 _ hA1 noSched noSched cut chunks1 chunks2 "out" fs1 fs2 h1 h2,
    by decide +kernel⟩

end Osm.Props
