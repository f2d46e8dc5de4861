import Verif.Props.Programs
import Verif.Lemmas.Whole

/-!
# C46, C69: rewritten files in full

What the rewritten file reads as when everything in it is decoded: the blocks of the input with the refs replaced and
nothing else changed. So every other program may be run on the rewritten file; in particular relindex (C69), whatever
number of passes rewritenodes made, if they covered the index.
-/

namespace Osm.Props
open Osm Osm.T Osm.Pbf Osm.Spec Osm.Rewrite Osm.NodeIndex Osm.Programs

/-- A sound source is a source. -/
theorem sound_is_source {inflate : Inflate} {file : List UInt8} {blocks : List (Option PrimitiveBlock)}
    (h : SoundSource inflate file blocks) : Source inflate file blocks := by
  obtain ⟨bs, h1, h2⟩ := h
  refine ⟨bs, h1, ?_⟩
  clear h1
  induction h2 with
  | nil => exact .nil
  | cons h _ ih =>
    refine .cons ?_ ih
    cases h with
    | other hk => exact .other _ hk
    | data blob p part full hk hb hp hf _ _ => exact .data _ blob p full hk hb hp hf

/-- C46: decoded in full, the rewritten file has the blocks of the input, with each ref which some pass resolves replaced by
its location and nothing else changed: no node, tag, relation, string, granularity or offset, no block more or less, none
moved. It can be rewritten, indexed and filtered again like the input. -/
theorem C46_whole (inflate : Inflate) (scheds : Nat → Block → Sched)
    (hsched : ∀ i b, (scheds i b).pooled.length < 2 ^ 63) {ix : NodeIdx} (wf : WellFormed ix.elements ix.locations)
    (hneg : NegativeLocs ix.locations) (memory : Option UInt64) (n : UInt64) (hn : passCount ix memory = .ok n)
    (hn0 : n ≠ 0) {subs : List SubIdx}
    (hsubs : mapRes (fun p => ix.SubIndex (UInt64.ofNat p) n) (List.range n.toNat) = .ok subs)
    (inp index out : String) {blocks : List (Option PrimitiveBlock)} {file ixFile : List UInt8} (hl : file.length < 2 ^ 63)
    (hs : SoundSource inflate file blocks) (hsm : ∀ cs, FileHas inflate waysDecoded file cs → SmallFile cs)
    (fs : FS) (hin : Holds fs inp file) (hix : Holds fs index ixFile) (hload : NewNodeIndex ixFile = .ok ix) :
    ∃ fs' file', (rewritenodes inflate scheds memory inp index out).exec fs = .ok ((), fs') ∧ Holds fs' out file' ∧
      file'.length < 2 ^ 63 ∧
      SoundSource inflate file' (blocks.map (Option.map (mapRefs (locate (subs.flatMap (·.element)) ix.locations)))) ∧
      (∀ p, 1 ≤ p → p < n.toNat → fs' (RelIndex.makePassFilename out p n.toNat) = none) ∧
      ∀ g, g ≠ out → (∀ p, 1 ≤ p → p < n.toNat → g ≠ RelIndex.makePassFilename out p n.toNat) → fs' g = fs g := by
  obtain ⟨bs, s1, s2⟩ := hs
  obtain ⟨cs, c1, c2⟩ := sound_source s2
  have hc : SoundHas inflate file cs := ⟨bs, s1, c1⟩
  obtain ⟨fs', file', h1, h2, h3, ⟨bs', h4, h5⟩, h6, h7⟩ := rewritenodes_gen inflate scheds wf hneg memory n hn hn0 hsubs
    (SoundHas inflate) (SoundHas inflate) (fun _ _ h => h)
    (fun p _ _ hw _ _ _ inp' out' fs hl hc hsm hin => pass_sound inflate (scheds p) (hsched p) hw hl hc hsm inp' out' fs hin)
    inp index out hl hc (hsm cs (soundHas_has hc)) fs hin hix hload
  exact ⟨fs', file', h1, h2, h3, ⟨bs', h4, source_sound _ c2 h5⟩, h6, h7⟩

theorem allRelations_mapRefs (f : Int64 → Int64) (fulls : List (Option PrimitiveBlock)) :
    allRelations (fulls.map (Option.map (mapRefs f))) = allRelations fulls := by
  unfold allRelations
  simp only [List.filterMap_map, List.flatMap_map]
  induction fulls with
  | nil => rfl
  | cons x xs ih => cases x <;> simp_all [mapRefs, List.flatMap_map]

/-- C69: the four commands one after the other, with any memory target for rewritenodes whose passes cover the node index
(C31 says which; without a target there is one pass, which does) and any number of passes over the way index up to
`2^shift`; relindex reads the source or the rewritten file. -/
theorem C69_any_memory_partial (inflate : Inflate) {file : List UInt8} {blocks : List (Option PrimitiveBlock)}
    (hs : SoundSource inflate file blocks) (hl : file.length < 2 ^ 63)
    (hi : Indexable blocks)
    (hsmall : ∀ cs, FileHas inflate waysDecoded file cs → SmallFile cs)
    {f : Int64 → Int64} (hf : Locates blocks f)
    {shift : Int64} (hw : WaysIndexable shift ((allWays blocks).map (relocate f))) (hw0 : allWays blocks ≠ [])
    (hr : RelationsOk (pathOf blocks f) (allRelations blocks)) (hr0 : allRelations blocks ≠ [])
    {n : Nat} (hn : 1 ≤ n) (hn2 : n ≤ 2 ^ shift.toInt.toNat)
    {src nix rew wix rix : String} (names : Names n src nix rew wix rix)
    (sched1 sched3 sched4 : Block → Sched) (scheds2 : Nat → Block → Sched)
    (hs2 : ∀ i b, (scheds2 i b).pooled.length < 2 ^ 63)
    (chunks1 chunks3 : Nat → Nat) (fs : FS) (hin : Holds fs src file) (memory : Option UInt64)
    (hcov : ∀ fs1 ixFile ix, (nodeindex inflate sched1 chunks1 src nix).exec fs = .ok ((), fs1) → Holds fs1 nix ixFile →
      NewNodeIndex ixFile = .ok ix → ∃ m, passCount ix memory = .ok m ∧ m ≠ 0 ∧ PassesCover ix m.toNat ∧
        ∀ p, 1 ≤ p → p < m.toNat → RelIndex.makePassFilename rew p m.toNat ≠ src)
    (relsFrom : String) (hfrom : relsFrom = src ∨ relsFrom = rew) :
    ∃ fs1 fs2 fs3 fs4,
      (nodeindex inflate sched1 chunks1 src nix).exec fs = .ok ((), fs1) ∧
      (Rewrite.rewritenodes inflate scheds2 memory src nix rew).exec fs1 = .ok ((), fs2) ∧
      (wayindex inflate sched3 chunks3 shift rew wix).exec fs2 = .ok ((), fs3) ∧
      (relindex inflate sched4 n relsFrom wix rix).exec fs3 = .ok ((), fs4) ∧
      Holds fs4 rix (Int64SliceAsByteSlice ((allRelations blocks).flatMap (relationEntry (pathOf blocks f)))) := by
  obtain ⟨hnd, hpn⟩ := names
  simp only [List.nodup_cons, List.mem_cons, List.not_mem_nil, or_false, not_or, List.nodup_nil, and_true,
    not_false_eq_true] at hnd
  obtain ⟨⟨d1, d2, d3, d4, d5, d6⟩, ⟨d7, d8, d9, d10, d11⟩, ⟨d12, d13, d14, d15⟩, ⟨d16, d17, d18⟩, ⟨d19, d20⟩, d21⟩ := hnd
  -- nodeindex
  obtain ⟨fs1, ixFile, ix, a1, a2, a3, a4, a5, a6, a7, a8, a9⟩ := nodeindex_ok sched1 chunks1 (sound_is_source hs) hi src nix fs hin
  have hin1 : Holds fs1 src file := by
    obtain ⟨pos, hin⟩ := hin
    exact ⟨pos, (a9 src d1 d2).trans hin⟩
  have hloc := locate_source hi hf a4 a8
  -- rewritenodes
  obtain ⟨m, m1, m2, ⟨subs, p1, p2⟩, m4⟩ := hcov fs1 ixFile ix a1 a2 a3
  rw [UInt64.ofNat_toNat] at p1
  obtain ⟨fs2, file2, b1, b2, b3, b4, _, b5⟩ := C46_whole inflate scheds2 hs2 a4 a7 memory m m1 m2 p1 src nix rew
    hl hs hsmall fs1 hin1 a2 a3
  rw [p2, hloc] at b4
  have hsrc2 : fs2 src = fs1 src := b5 src d3 fun p q1 q2 h => m4 p q1 q2 h.symm
  -- wayindex
  obtain ⟨bs2, t1, t2⟩ := sound_is_source b4
  have hw' : WaysIndexable shift (allWays (blocks.map (Option.map (mapRefs f)))) := by rw [allWays_mapRefs]; exact hw
  obtain ⟨batches, fs3, wfile, w1, w2, w3, w4, w5⟩ := wayOutput_ok shift _ hw' wix chunks3 fs2
  have hwork := works_source sched3 wayReader (wayWork shift) (wayWork_agrees shift) t2
  rw [workAll_eq hw.range, w1] at hwork
  have hwi : (wayindex inflate sched3 chunks3 shift rew wix).exec fs2 = .ok ((), fs3) := by
    unfold wayindex
    rw [process_exec _ _ _ t1 hwork fs2 b2]
    exact w2
  rw [allWays_mapRefs] at w4
  -- relindex
  obtain ⟨q1, q2⟩ := pathOf_ways hw
  have hans := entries_answers shift _ hw _ q1 q2
  have hne' : (allWays blocks).map (relocate f) ≠ [] := fun h => hw0 (List.map_eq_nil_iff.1 h)
  have hcover := C41_indexed shift _ hw hne' n hn hn2
  have hn63 : n < 2 ^ 63 := Nat.lt_of_le_of_lt hn2 (Nat.pow_lt_pow_right (by omega) (by have := hw.range; omega))
  rcases hfrom with rfl | rfl
  · obtain ⟨bs, s1, s2⟩ := sound_is_source hs
    obtain ⟨sent, fs4, r1, r2, r3⟩ := C44_content_partial (WayIndexer.entries_ordered shift _ hw) hans n hn hn63 hcover hr hr0
      rix wix ⟨d20, fun p hp h => hpn p hp (by simp [← h])⟩ fs3 w3 w4
    refine ⟨fs1, fs2, fs3, fs4, a1, b1, hwi, ?_, r3⟩
    unfold relindex
    rw [process_exec _ _ _ s1 ((works_source sched4 relReader RelIndex.work relWork_agrees s2).trans r1) fs3]
    · exact r2
    · obtain ⟨pos, hin1⟩ := hin1
      refine ⟨pos, ?_⟩
      rw [w5 _ d4 d5, hsrc2, hin1]
  · have hr' := hr
    have hr0' := hr0
    rw [← allRelations_mapRefs f] at hr' hr0'
    obtain ⟨sent, fs4, r1, r2, r3⟩ := C44_content_partial (WayIndexer.entries_ordered shift _ hw) hans n hn hn63 hcover hr' hr0'
      rix wix ⟨d20, fun p hp h => hpn p hp (by simp [← h])⟩ fs3 w3 w4
    rw [allRelations_mapRefs] at r3
    refine ⟨fs1, fs2, fs3, fs4, a1, b1, hwi, ?_, r3⟩
    unfold relindex
    rw [process_exec _ _ _ t1 ((works_source sched4 relReader RelIndex.work relWork_agrees t2).trans r1) fs3]
    · exact r2
    · obtain ⟨pos, b2⟩ := b2
      refine ⟨pos, ?_⟩
      rw [w5 _ d16 d17, b2]

theorem tiny_agrees : BlockAgrees waysDecoded tinyView tinyBlock := by
  refine ⟨⟨rfl, ?_⟩, ⟨⟨⟨rfl, ?_⟩, ⟨rfl, rfl⟩, ⟨rfl, trivial⟩⟩, ⟨⟨rfl, trivial⟩, ⟨rfl, rfl⟩, ⟨rfl, trivial⟩⟩,
    ⟨⟨rfl, trivial⟩, ⟨rfl, rfl⟩, ⟨rfl, ?_, trivial⟩⟩, trivial⟩, rfl, rfl, rfl, rfl⟩
  · show ReadStringTable ⟨[10, 0], []⟩ = .ok ⟨[[]]⟩
    decide +kernel
  · show ReadDenseNodes _ = .ok ⟨[2, 3, 5], [20, 30, 50], [200, 300, 500], []⟩
    decide +kernel
  · decide +kernel

/-- The file of C69 is sound. -/
theorem tiny_sound (inflate : Inflate) : SoundSource inflate tinyFile [none, some tinyBlock] := by
  obtain ⟨part, hpart, hview⟩ := Res.bind_eq_ok.1
    (show (ReadPrimitiveBlock waysDecoded ⟨tinyPayload, []⟩ >>= fun pb => .ok (trimBlock pb)) = .ok tinyView by decide +kernel)
  refine ⟨_, tiny_split, .cons (.other _ (by decide)) (.cons (.data _ ⟨some ⟨tinyPayload, []⟩, none, none⟩ tinyPayload part _ rfl
    (by decide +kernel) (.raw ⟨tinyPayload, []⟩ none none) (by decide +kernel) hpart ?_) .nil)⟩
  rw [Res.ok.inj hview]
  exact tiny_agrees

/-- One pass over its index suffices for a target of 1 MiB. -/
theorem tiny_cover (inflate : Inflate) (sched1 : Block → Sched) (chunks1 : Nat → Nat) (fs : FS)
    (hin : Holds fs "src" tinyFile) :
    ∀ fs1 ixFile ix, (nodeindex inflate sched1 chunks1 "src" "nix").exec fs = .ok ((), fs1) → Holds fs1 "nix" ixFile →
      NewNodeIndex ixFile = .ok ix → ∃ m, passCount ix (some 1) = .ok m ∧ m ≠ 0 ∧ PassesCover ix m.toNat ∧
        ∀ p, 1 ≤ p → p < m.toNat → RelIndex.makePassFilename "rew" p m.toNat ≠ "src" := by
  intro fs1 ixFile ix h1 ⟨pos, h2⟩ h3
  obtain ⟨fs1', ixFile', ix', a1, ⟨pos', a2⟩, a3, a4, a5, a6, a7, a8, a9⟩ :=
    nodeindex_ok sched1 chunks1 (tiny_source inflate) tiny_indexable "src" "nix" fs hin
  rw [h1] at a1
  cases a1
  rw [h2] at a2
  cases a2
  rw [h3] at a3
  cases a3
  have hlen : ix.locations.length ≤ 6 := a6.1
  have hel : ix.elements ≠ [] := by
    intro h0
    obtain ⟨l, hl⟩ : ∃ l, NodeIndexer.nodeLocation tinyBlock 20 200 = .ok l :=
      ⟨_, (NodeIndexer.nodeLocation_eq tinyBlock ⟨2, 20, 200⟩).1⟩
    obtain ⟨e, he, _⟩ := (a8 2 l).2 ⟨(tinyBlock, ⟨2, 20, 200⟩), by decide +kernel, by decide, hl⟩
    rw [h0] at he
    cases he
  have hone : passCount ix (some 1) = .ok 1 := by
    unfold passCount NodeIdx.LocationCount
    have : (UInt64.ofNat ix.locations.length * 8) / (1 * 1048576) + 1 = 1 := by
      generalize ix.locations.length = n at hlen
      have : n = 0 ∨ n = 1 ∨ n = 2 ∨ n = 3 ∨ n = 4 ∨ n = 5 ∨ n = 6 := by omega
      rcases this with rfl | rfl | rfl | rfl | rfl | rfl | rfl <;> decide
    dsimp only
    rw [if_neg (by decide), this]
  refine ⟨1, hone, by decide, C31_single_pass ix a4 a5 a6.2 hel, ?_⟩
  intro p q1 q2
  exact absurd q2 (by simp; omega)

/-- The hypotheses of `C46_whole` hold for this file and the index nodeindex makes of it: the rewritten file is sound, with
the refs of its two ways replaced. -/
example (inflate : Inflate) (scheds : Nat → Block → Sched) (hsched : ∀ i b, (scheds i b).pooled.length < 2 ^ 63)
    (sched1 : Block → Sched) (chunks1 : Nat → Nat) (fs : FS) (hin : Holds fs "src" tinyFile) :
    ∃ fs1 fs2 file' f, (nodeindex inflate sched1 chunks1 "src" "nix").exec fs = .ok ((), fs1) ∧
      (rewritenodes inflate scheds (some 1) "src" "nix" "rew").exec fs1 = .ok ((), fs2) ∧ Holds fs2 "rew" file' ∧
      SoundSource inflate file' [none, some (mapRefs f tinyBlock)] ∧ f 4 = 4 ∧
      NodeIndexer.nodeLocation tinyBlock 20 200 = .ok (f 2) := by
  obtain ⟨fs1, ixFile, ix, a1, a2, a3, a4, a5, a6, a7, a8, a9⟩ :=
    nodeindex_ok sched1 chunks1 (tiny_source inflate) tiny_indexable "src" "nix" fs hin
  obtain ⟨m, m1, m2, ⟨subs, p1, p2⟩, m4⟩ := tiny_cover inflate sched1 chunks1 fs hin fs1 ixFile ix a1 a2 a3
  rw [UInt64.ofNat_toNat] at p1
  obtain ⟨f, hf⟩ := C69_locates tiny_indexable
  have hin1 : Holds fs1 "src" tinyFile := by
    obtain ⟨pos, hin⟩ := hin
    exact ⟨pos, (a9 "src" (by decide) (by decide)).trans hin⟩
  obtain ⟨fs2, file2, b1, b2, b3, b4, _⟩ := C46_whole inflate scheds hsched a4 a7 (some 1) m m1 m2 p1 "src" "nix" "rew"
    (by decide +kernel) (tiny_sound inflate) (tiny_small inflate) fs1 hin1 a2 a3
  rw [p2, locate_source tiny_indexable hf a4 a8] at b4
  exact ⟨fs1, fs2, file2, f, a1, b1, b2, b4, hf.other 4 (by decide +kernel), hf.node (tinyBlock, ⟨2, 20, 200⟩) (by decide +kernel)⟩

/-- The hypotheses of `C69_any_memory_partial` hold for this file with a memory target of 1 MiB, two passes over the way
index, and relindex on the rewritten file. -/
example (inflate : Inflate) (sched1 sched3 sched4 : Block → Sched) (scheds2 : Nat → Block → Sched)
    (hs2 : ∀ i b, (scheds2 i b).pooled.length < 2 ^ 63)
    (chunks1 chunks3 : Nat → Nat) (fs : FS) (hin : Holds fs "src" tinyFile) :
    ∃ fs1 fs2 fs3 fs4 loc2 loc3 loc5,
      NodeIndexer.nodeLocation tinyBlock 20 200 = .ok loc2 ∧ NodeIndexer.nodeLocation tinyBlock 30 300 = .ok loc3 ∧
      NodeIndexer.nodeLocation tinyBlock 50 500 = .ok loc5 ∧
      (nodeindex inflate sched1 chunks1 "src" "nix").exec fs = .ok ((), fs1) ∧
      (Rewrite.rewritenodes inflate scheds2 (some 1) "src" "nix" "rew").exec fs1 = .ok ((), fs2) ∧
      (wayindex inflate sched3 chunks3 3 "rew" "wix").exec fs2 = .ok ((), fs3) ∧
      (relindex inflate sched4 2 "rew" "wix" "rix").exec fs3 = .ok ((), fs4) ∧
      Holds fs4 "rix" (Int64SliceAsByteSlice [7, 3, 10, 3, loc2, loc3, 4, 99, 0, 11, 2, loc5, 9]) := by
  have hi := tiny_indexable
  obtain ⟨f, hf⟩ := C69_locates hi
  have v2 := hf.node (tinyBlock, ⟨2, 20, 200⟩) (by decide +kernel)
  have v3 := hf.node (tinyBlock, ⟨3, 30, 300⟩) (by decide +kernel)
  have v5 := hf.node (tinyBlock, ⟨5, 50, 500⟩) (by decide +kernel)
  have v4 := hf.other 4 (by decide +kernel)
  have v9 := hf.other 9 (by decide +kernel)
  dsimp only at v2 v3 v5
  have w2 : f 2 = NodeIndexer.locVal tinyBlock ⟨2, 20, 200⟩ := by
    rw [(NodeIndexer.nodeLocation_eq tinyBlock ⟨2, 20, 200⟩).1] at v2; exact (Res.ok.inj v2).symm
  have w3 : f 3 = NodeIndexer.locVal tinyBlock ⟨3, 30, 300⟩ := by
    rw [(NodeIndexer.nodeLocation_eq tinyBlock ⟨3, 30, 300⟩).1] at v3; exact (Res.ok.inj v3).symm
  have w5 : f 5 = NodeIndexer.locVal tinyBlock ⟨5, 50, 500⟩ := by
    rw [(NodeIndexer.nodeLocation_eq tinyBlock ⟨5, 50, 500⟩).1] at v5; exact (Res.ok.inj v5).symm
  have hways : (allWays [none, some tinyBlock]).map (relocate f) =
      [⟨10, [], [], [f 2, f 3, f 4]⟩, ⟨11, [], [], [f 5, f 5, f 9]⟩] := rfl
  rw [w2, w3, w5, v4, v9] at hways
  have hp10 : pathOf [none, some tinyBlock] f 10 = indexedRefs ⟨10, [], [], [f 2, f 3, f 4]⟩ := rfl
  have hp11 : pathOf [none, some tinyBlock] f 11 = indexedRefs ⟨11, [], [], [f 5, f 5, f 9]⟩ := rfl
  have hp99 : pathOf [none, some tinyBlock] f 99 = [] := rfl
  rw [w2, w3, v4] at hp10
  rw [w5, v9] at hp11
  obtain ⟨fs1, fs2, fs3, fs4, a, b, c, d, e⟩ := C69_any_memory_partial inflate (tiny_sound inflate) (by decide +kernel) hi
    (tiny_small inflate) hf (shift := 3)
    (by
      rw [hways]
      exact ⟨by decide, by decide, by decide, by decide +kernel, by decide +kernel⟩)
    (by decide +kernel)
    ⟨by decide +kernel, by decide +kernel, by decide +kernel, by
      intro w
      unfold pathOf
      cases hfind : (allWays [none, some tinyBlock]).find? (fun x => x.ID == w) with
      | none => exact Nat.two_pow_pos 62
      | some x =>
        have := List.mem_of_find?_eq_some hfind
        have hx : x = ⟨10, [], [], [2, 3, 4]⟩ ∨ x = ⟨11, [], [], [5, 5, 9]⟩ := by
          revert this
          simp [allWays, sourceWays, tinyBlock]
        dsimp only
        have hl := (C40_refs_spec (relocate f x)).2.1.length_le
        rcases hx with rfl | rfl <;> (simp only [relocate, List.map_cons, List.map_nil, List.length_cons, List.length_nil] at hl ⊢; omega)⟩
    (by decide +kernel) (n := 2) (by decide) (by decide) (src := "src") (nix := "nix") (rew := "rew") (wix := "wix") (rix := "rix")
    ⟨by decide +kernel, by decide +kernel⟩ sched1 sched3 sched4 scheds2 hs2 chunks1 chunks3 fs hin
    (some 1) (tiny_cover inflate sched1 chunks1 fs hin) "rew" (.inr rfl)
  refine ⟨fs1, fs2, fs3, fs4, _, _, _, v2, v3, v5, a, b, c, d, ?_⟩
  have : (allRelations [none, some tinyBlock]).flatMap (relationEntry (pathOf [none, some tinyBlock] f)) =
      [7, 3, 10, 3, f 2, f 3, 4, 99, 0, 11, 2, f 5, 9] := by
    rw [show (allRelations [none, some tinyBlock]) = [⟨7, [], [], [], [10, 2, 99, 11], [1, 0, 1, 1]⟩] from rfl]
    simp only [List.flatMap_cons, List.flatMap_nil, List.append_nil]
    unfold relationEntry
    rw [show wayMembers ⟨7, [], [], [], [10, 2, 99, 11], [1, 0, 1, 1]⟩ = [10, 99, 11] from rfl]
    simp only [List.flatMap_cons, List.flatMap_nil, List.append_nil, hp10, hp11, hp99]
    rw [w2, w3, w5]
    decide +kernel
  rw [← this]
  exact e

end Osm.Props
