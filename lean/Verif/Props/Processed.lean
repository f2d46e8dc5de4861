import Verif.Lemmas.Processed
import Verif.Props.Rewritten

/-!
# C112: what no command changes

`file'` was made of `file` by any number of complete runs of some of decompress, tagfilter and rewritenodes (`cmds`; see
`Spec/Processed.lean`).
-/

namespace Osm.Props
open Osm Osm.T Osm.Pbf Osm.Spec Osm.Spec.OsmFormat Osm.Interrupt Osm.Repeat Osm.Content

/-- C112: it is a file in the format again, not empty, and with not more than 2^31 blocks (which, with its length, is what the
theorems about each of the commands ask of their input). -/
theorem C112_format (inflate : Inflate) {cmds : Cmd → Prop} {file file' : List UInt8} (hl : file.length < 2 ^ 63) (hne : file ≠ []) {cs : List Content}
    (hfew : cs.length ≤ 2 ^ 31) (hc : IsOsmContents inflate file cs) (h : Processed inflate cmds file file') :
    file'.length < 2 ^ 63 ∧ file' ≠ [] ∧ ∃ cs', IsOsmContents inflate file' cs' ∧ cs'.length ≤ 2 ^ 31 := by
  obtain ⟨cs', g, _⟩ := Format.processed_same inflate ⟨hl, hne, hfew, hc⟩ h
  exact ⟨g.len, g.some, cs', g.is, g.few⟩

/-- C112: relindex with at least one pass, with the same way index. -/
theorem C112_relindex (inflate : Inflate) {cmds : Cmd → Prop} {file file' : List UInt8} (hl : file.length < 2 ^ 63) (hne : file ≠ []) {cs : List Content}
    (hfew : cs.length ≤ 2 ^ 31) (hc : IsOsmContents inflate file cs) (h : Processed inflate cmds file file')
    (s1 s2 : Block → Sched) (passes : Nat) (hp : 0 < passes) (inp1 inp2 wayIndex out : String) (fs1 fs2 : FS)
    (i1 : Holds fs1 inp1 file) (i2 : Holds fs2 inp2 file') (hw : SameData wayIndex fs1 fs2) :
    SameRun out ((relindex inflate s1 none passes inp1 wayIndex out).exec fs1)
      ((relindex inflate s2 none passes inp2 wayIndex out).exec fs2) := by
  obtain ⟨cs', g, s, _⟩ := Format.processed_same inflate ⟨hl, hne, hfew, hc⟩ h
  obtain ⟨b1, p1, m1⟩ := sound_is_source (C87_source inflate file hl hne _ (Format.contents_blocks hc))
  obtain ⟨b2, p2, m2⟩ := sound_is_source (C87_source inflate file' g.len g.some _ (Format.contents_blocks g.is))
  refine Format.process_added (h := fun x : Option (List Int64) => x.getD []) none p1 p2 ?_ i1 i2 fun xs ys h =>
    Format.relindex_list out wayIndex hp h hw
  rw [Programs.works_source s1 Programs.relReader RelIndex.work Programs.relWork_agrees (matches_handed m1 none),
    Programs.works_source s2 Programs.relReader RelIndex.work Programs.relWork_agrees (matches_handed m2 none)]
  exact s.rel

/-- C112: the ways, with their ids and numbers of references, in their order, and the relations with their ids, members and types. -/
theorem C112_entities (inflate : Inflate) {cmds : Cmd → Prop} {file file' : List UInt8} (hl : file.length < 2 ^ 63) (hne : file ≠ []) {cs : List Content}
    (hfew : cs.length ≤ 2 ^ 31) (hc : IsOsmContents inflate file cs) (h : Processed inflate cmds file file') :
    ∃ cs', IsOsmContents inflate file' cs' ∧
      (fileWays cs').map (fun w => (w.ID, w.Refs.length)) = (fileWays cs).map (fun w => (w.ID, w.Refs.length)) ∧
      (fileRelations cs').map (fun r => (r.ID, r.MemIDs, r.MemberType)) =
        (fileRelations cs).map (fun r => (r.ID, r.MemIDs, r.MemberType)) := by
  obtain ⟨cs', g, s, _⟩ := Format.processed_same inflate ⟨hl, hne, hfew, hc⟩ h
  exact ⟨cs', g.is, s.ways, s.rels⟩

/-- C112: what entitycount prints about ways and relations. -/
theorem C112_entitycount (inflate : Inflate) {cmds : Cmd → Prop} {file file' : List UInt8} (hl : file.length < 2 ^ 63) (hne : file ≠ [])
    {cs : List Content} (hfew : cs.length ≤ 2 ^ 31) (hc : IsOsmContents inflate file cs) (h : Processed inflate cmds file file')
    (s1 s2 : Block → Sched) (hs1 : ∀ b, (s1 b).pooled.length < 2 ^ 63) (hs2 : ∀ b, (s2 b).pooled.length < 2 ^ 63) (W1 W2 : Nat)
    (st1 st2 : St (List T.PrimitiveGroup))
    (hr1 : Reachable (Count.countCfg inflate s1 file) W1 st1) (hd1 : st1.main = .done) (hc1 : st1.cancelled = false)
    (hr2 : Reachable (Count.countCfg inflate s2 file') W2 st2) (hd2 : st2.main = .done) (hc2 : st2.cancelled = false)
    (m1 m2 : Count.Var → UInt64) (hp1 : Count.Prints inflate s1 st1 m1) (hp2 : Count.Prints inflate s2 st2 m2) :
    m1 .wayCount = m2 .wayCount ∧ m1 .relationCount = m2 .relationCount ∧ m1 .wayRefCount = m2 .wayRefCount ∧
      m1 .maxWay = m2 .maxWay ∧ m1 .maxRelation = m2 .maxRelation ∧ m1 .maxWayRefCount = m2 .maxWayRefCount := by
  obtain ⟨cs', g, s, _⟩ := Format.processed_same inflate ⟨hl, hne, hfew, hc⟩ h
  obtain ⟨a1, a2, a3, a4, a5, a6, a7, a8, a9⟩ := C61_format inflate s1 hs1 file hl hne cs hc W1 st1 hr1 hd1 hc1 m1 hp1
  obtain ⟨b1, b2, b3, b4, b5, b6, b7, b8, b9⟩ := C61_format inflate s2 hs2 file' g.len g.some _ g.is W2 st2 hr2 hd2 hc2 m2 hp2
  have hw := s.ways
  have hr := s.rels
  have e1 : (fileWays cs').length = (fileWays cs).length := by
    simpa using congrArg List.length hw
  have e2 : (fileRelations cs').length = (fileRelations cs).length := by
    simpa using congrArg List.length hr
  have e3 : (fileWays cs').map (·.Refs.length) = (fileWays cs).map (·.Refs.length) := by
    have := congrArg (List.map fun c => c.2) hw
    simp only [List.map_map] at this
    exact this
  have e4 : (fileWays cs').map (·.ID.toUInt64) = (fileWays cs).map (·.ID.toUInt64) := by
    have := congrArg (List.map fun c => c.1.toUInt64) hw
    simp only [List.map_map] at this
    exact this
  have e5 : (fileRelations cs').map (·.ID.toUInt64) = (fileRelations cs).map (·.ID.toUInt64) := by
    have := congrArg (List.map fun c => c.1.toUInt64) hr
    simp only [List.map_map] at this
    exact this
  have e6 : (fileWays cs').map (fun w => UInt64.ofNat w.Refs.length) = (fileWays cs).map (fun w => UInt64.ofNat w.Refs.length) := by
    have := congrArg (List.map fun c => UInt64.ofNat c.2) hw
    simp only [List.map_map] at this
    exact this
  unfold totals at a3 a4 a5 b3 b4 b5
  dsimp only at a3 a4 a5 b3 b4 b5
  rw [e1] at b3
  rw [e2] at b4
  rw [e3] at b5
  rw [e4] at b7
  rw [e5] at b8
  rw [e6] at b9
  have hmax : ∀ {x y : UInt64} {xs : List UInt64}, IsMax x xs → IsMax y xs → x = y := fun hx hy =>
    UInt64.le_antisymm (hy.2 _ hx.1) (hx.2 _ hy.1)
  exact ⟨a3.trans b3.symm, a4.trans b4.symm, a5.trans b5.symm, hmax a7 b7, hmax a8 b8, hmax a9 b9⟩

/-- C112: wayindex, if rewritenodes is not among the commands. -/
theorem C112_wayindex (inflate : Inflate) {cmds : Cmd → Prop} (hk : ¬ cmds .rewritenodes) {file file' : List UInt8}
    (hl : file.length < 2 ^ 63) (hne : file ≠ []) {cs : List Content}
    (hfew : cs.length ≤ 2 ^ 31) (hc : IsOsmContents inflate file cs) (h : Processed inflate cmds file file')
    (s1 s2 : Block → Sched) (chunks1 chunks2 : Nat → Nat) (shift : Int64) (inp1 inp2 out : String) (fs1 fs2 : FS)
    (i1 : Holds fs1 inp1 file) (i2 : Holds fs2 inp2 file') :
    SameRun out ((wayindex inflate s1 none chunks1 never shift inp1 out).exec fs1)
      ((wayindex inflate s2 none chunks2 never shift inp2 out).exec fs2) := by
  obtain ⟨cs', g, _, sw, _⟩ := Format.processed_same inflate ⟨hl, hne, hfew, hc⟩ h
  obtain ⟨b1, p1, m1⟩ := sound_is_source (C87_source inflate file hl hne _ (Format.contents_blocks hc))
  obtain ⟨b2, p2, m2⟩ := sound_is_source (C87_source inflate file' g.len g.some _ (Format.contents_blocks g.is))
  refine Format.process_added (h := Option.toList) none p1 p2 ?_ i1 i2 fun xs ys h => ?_
  · rw [Programs.works_source s1 Programs.wayReader (Programs.wayWork shift) (Programs.wayWork_agrees shift) (matches_handed m1 none),
      Programs.works_source s2 Programs.wayReader (Programs.wayWork shift) (Programs.wayWork_agrees shift) (matches_handed m2 none)]
    show (mapRes _ (cs.map Format.inside) >>= _) = (mapRes _ (cs'.map Format.inside) >>= _)
    cases ha : WayIndex.goShl 1 shift with
    | ok amt =>
      have : Programs.wayWork shift = WayIndexer.work shift amt := by
        funext pb
        unfold Programs.wayWork
        rw [ha, Res.ok_bind]
      rw [this]
      exact sw hk shift amt
    | panic =>
      have : Programs.wayWork shift = fun _ => .panic := by
        funext pb
        unfold Programs.wayWork
        rw [ha]
        rfl
      rw [this, Format.mapRes_panics, Format.mapRes_panics]
      · intro h0
        have : cs' = [] := List.map_eq_nil_iff.1 h0
        exact g.some (Format.no_contents (this ▸ g.is))
      · intro h0
        have : cs = [] := List.map_eq_nil_iff.1 h0
        exact hne (Format.no_contents (this ▸ hc))
    | hang =>
      have : WayIndex.goShl 1 shift ≠ .hang := by
        unfold WayIndex.goShl
        repeat' split
        all_goals simp
      exact absurd ha this
  · rw [Format.wayOutput_list out shift chunks1 never h, WayIndexer.output_shape, WayIndexer.output_shape]
    exact rel_withHeader out chunks1 chunks2 _ _ (WayIndexer.loopSpec out (out ++ ".loc.tmp") (tmp_ne out) shift ys 0 0) _
      (WayIndexer.header_length shift) (fun _ _ => True) fs1 fs2 trivial

/-- C112: nodeindex, if tagfilter is not among the commands. -/
theorem C112_nodeindex (inflate : Inflate) {cmds : Cmd → Prop} (hk : ¬ cmds .tagfilter) {file file' : List UInt8}
    (hl : file.length < 2 ^ 63) (hne : file ≠ []) {cs : List Content}
    (hfew : cs.length ≤ 2 ^ 31) (hc : IsOsmContents inflate file cs) (h : Processed inflate cmds file file')
    (s1 s2 : Block → Sched) (chunks1 chunks2 : Nat → Nat) (inp1 inp2 out : String) (fs1 fs2 : FS)
    (i1 : Holds fs1 inp1 file) (i2 : Holds fs2 inp2 file') :
    SameRun out ((nodeindex inflate s1 none chunks1 never inp1 out).exec fs1)
      ((nodeindex inflate s2 none chunks2 never inp2 out).exec fs2) := by
  obtain ⟨cs', g, _, _, sn⟩ := Format.processed_same inflate ⟨hl, hne, hfew, hc⟩ h
  obtain ⟨b1, p1, m1⟩ := sound_is_source (C87_source inflate file hl hne _ (Format.contents_blocks hc))
  obtain ⟨b2, p2, m2⟩ := sound_is_source (C87_source inflate file' g.len g.some _ (Format.contents_blocks g.is))
  refine process_alike none p1 p2 ?_ i1 i2 fun xs => ?_
  · rw [Programs.works_source s1 Programs.nodeReader NodeIndexer.work Programs.nodeWork_agrees (matches_handed m1 none),
      Programs.works_source s2 Programs.nodeReader NodeIndexer.work Programs.nodeWork_agrees (matches_handed m2 none)]
    exact sn hk
  · rw [NodeIndexer.output_shape, NodeIndexer.output_shape]
    exact rel_withHeader out chunks1 chunks2 _ _ (NodeIndexer.loopSpec out (out ++ ".loc.tmp") (tmp_ne out) xs 0 0) _
      NodeIndexer.header_length (fun _ _ => True) fs1 fs2 trivial

/-! ### The hypotheses are met -/

/-- The file of `Props/Programs.lean`, first rewritten and then filtered. -/
theorem tiny_processed (fs : FS) (hin : Holds fs "src" tinyFile) (ixFile : List UInt8)
    (hload : NodeIndex.NewNodeIndex ixFile = .ok tinyIx) (hix : Holds fs "nix" ixFile) :
    Processed (fun _ => none) (fun _ => True) tinyFile (fileOf tinyAB) := by
  obtain ⟨wf, hneg, hcov⟩ := tinyIx_wf
  have hn : NodeIndex.passCount tinyIx none = .ok 1 := by rfl
  have hsi : tinyIx.SubIndex 0 1 = .ok ⟨[⟨2, 1⟩], [-5], 2⟩ := by decide +kernel
  obtain ⟨fs1, A1, hA1⟩ := one_rewrite hn hsi (by decide +kernel) tiny_split (xs := tinyRewritten) (by decide +kernel) hin hix
    hload (out := "a1") (by decide +kernel)
  have sA : split (fileOf tinyRewritten) = .ok (blocksOf tinyRewritten) := by decide +kernel
  have mA : mapRes (TagFilter.filterWork (fun _ => none) noSched) (blocksOf tinyRewritten) = .ok tinyAB := by decide +kernel
  obtain ⟨n1, fs2, A2, hA2, _⟩ := one_filter sA mA hA1 (out := "a2")
  have hw2 : TagFilter.written tinyAB = tinyAB := by decide +kernel
  rw [hw2] at hA2
  have hsubs : mapRes (fun p => tinyIx.SubIndex (UInt64.ofNat p) 1) (List.range (1 : UInt64).toNat) = .ok [⟨[⟨2, 1⟩], [-5], 2⟩] := by
    decide +kernel
  refine .step (.step .start trivial (.rewritenodes (fun _ => noSched) (by simp [noSched]) "src" "nix" "a1" fs fs1 none 1 tinyIx ixFile _ wf hneg
    hn hsubs hload hin hix A1 hA1)) trivial (.tagfilter noSched (by simp [noSched]) "a1" "a2" fs1 fs2 n1 hA1 A2 hA2 (by decide +kernel))

/-- So its relation index is the same. -/
example (fs : FS) (hin : Holds fs "src" tinyFile) (ixFile : List UInt8)
    (hload : NodeIndex.NewNodeIndex ixFile = .ok tinyIx) (hix : Holds fs "nix" ixFile) (fs1 fs2 : FS) (h1 : Holds fs1 "src" tinyFile)
    (h2 : Holds fs2 "a2" (fileOf tinyAB)) (hw : SameData "wix" fs1 fs2) :
    SameRun "rix" ((relindex (fun _ => none) noSched none 2 "src" "wix" "rix").exec fs1)
      ((relindex (fun _ => none) noSched none 2 "a2" "wix" "rix").exec fs2) := by
  obtain ⟨bs, hc⟩ := tiny_contents (fun _ => none)
  exact C112_relindex (fun _ => none) (by decide +kernel) (by decide +kernel) (by simp) hc (tiny_processed fs hin ixFile hload hix) noSched
    noSched 2 (by decide) "src" "a2" "wix" "rix" fs1 fs2 h1 h2 hw

/-- Two runs of rewritenodes: the node index of the result is that of the source. -/
example (fs : FS) (hin : Holds fs "src" tinyFile) (ixFile : List UInt8)
    (hload : NodeIndex.NewNodeIndex ixFile = .ok tinyIx) (hix : Holds fs "nix" ixFile) :
    ∃ file', Processed (fun _ => none) (fun k => k = .rewritenodes) tinyFile file' ∧ file' ≠ tinyFile ∧
      ∀ (fs1 fs2 : FS) (chunks : Nat → Nat), Holds fs1 "src" tinyFile → Holds fs2 "rew" file' →
        SameRun "out" ((nodeindex (fun _ => none) noSched none chunks never "src" "out").exec fs1)
          ((nodeindex (fun _ => none) noSched none chunks never "rew" "out").exec fs2) := by
  obtain ⟨wf, hneg, hcov⟩ := tinyIx_wf
  have hn : NodeIndex.passCount tinyIx none = .ok 1 := by rfl
  have hsi : tinyIx.SubIndex 0 1 = .ok ⟨[⟨2, 1⟩], [-5], 2⟩ := by decide +kernel
  obtain ⟨fs1, A1, hA1⟩ := one_rewrite hn hsi (by decide +kernel) tiny_split (xs := tinyRewritten) (by decide +kernel) hin hix
    hload (out := "a1") (by decide +kernel)
  have hsubs : mapRes (fun p => tinyIx.SubIndex (UInt64.ofNat p) 1) (List.range (1 : UInt64).toNat) = .ok [⟨[⟨2, 1⟩], [-5], 2⟩] := by
    decide +kernel
  obtain ⟨bs, hc⟩ := tiny_contents (fun _ => none)
  have hp : Processed (fun _ => none) (fun k => k = .rewritenodes) tinyFile (fileOf tinyRewritten) :=
    .step .start rfl (.rewritenodes (fun _ => noSched) (by simp [noSched]) "src" "nix" "a1" fs fs1 none 1 tinyIx ixFile _ wf hneg hn hsubs
      hload hin hix A1 hA1)
  exact ⟨_, hp, by decide +kernel, fun fs1 fs2 chunks h1 h2 => C112_nodeindex (fun _ => none) (by simp) (by decide +kernel)
    (by decide +kernel) (by simp) hc hp noSched noSched chunks chunks "src" "rew" "out" fs1 fs2 h1 h2⟩

/-- The file filtered: its way index is that of the source. -/
example (fs : FS) (hin : Holds fs "src" tinyFile) :
    ∃ file', Processed (fun _ => none) (fun k => k ≠ .rewritenodes) tinyFile file' ∧ file' ≠ tinyFile ∧
      ∀ (fs1 fs2 : FS) (chunks : Nat → Nat), Holds fs1 "src" tinyFile → Holds fs2 "flt" file' →
        SameRun "out" ((wayindex (fun _ => none) noSched none chunks never 2 "src" "out").exec fs1)
          ((wayindex (fun _ => none) noSched none chunks never 2 "flt" "out").exec fs2) := by
  have mB : mapRes (TagFilter.filterWork (fun _ => none) noSched)
      [⟨0, ⟨[1, 2, 3], tinyFile.drop 20⟩, osmHeader⟩, ⟨1, ⟨[10, 66] ++ tinyPayload, []⟩, osmData⟩] = .ok tinyFiltered := by
    decide +kernel
  obtain ⟨n, fs0, B1, hB1, _⟩ := one_filter tiny_split mB hin (out := "flt")
  have hw1 : TagFilter.written tinyFiltered = tinyFiltered := by decide +kernel
  rw [hw1] at hB1
  obtain ⟨bs, hc⟩ := tiny_contents (fun _ => none)
  have hp : Processed (fun _ => none) (fun k => k ≠ .rewritenodes) tinyFile (fileOf tinyFiltered) :=
    .step .start (by simp) (.tagfilter noSched (by simp [noSched]) "src" "flt" fs fs0 n hin B1 hB1 (by decide +kernel))
  exact ⟨_, hp, by decide +kernel, fun fs1 fs2 chunks h1 h2 => C112_wayindex (fun _ => none) (by simp) (by decide +kernel)
    (by decide +kernel) (by simp) hc hp noSched noSched chunks chunks 2 "src" "flt" "out" fs1 fs2 h1 h2⟩

end Osm.Props
