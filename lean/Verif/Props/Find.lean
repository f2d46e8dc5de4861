import Verif.Lemmas.Find
import Verif.Props.Count

/-! # Extraction of entities (C70) and the search (C65) -/

namespace Osm.Props
open Osm Osm.T Osm.Spec Osm.Find

/-! ## C70 -/

/-- C70: from every block that makes sense exactly its nodes are extracted, in order: ids, tags (of repeated keys the last),
and coordinates as offset + granularity * value. -/
theorem C70_nodes (b : PrimitiveBlock) (hs : Sound b) : ∃ ns, b.ToNodes = .ok ns ∧ NodesAre b ns := toNodes_are hs

/-- C70: and exactly its ways. -/
theorem C70_ways (b : PrimitiveBlock) (hs : Sound b) : ∃ ws, b.ToWays = .ok ws ∧ WaysAre b ws := toWays_are hs

/-- C70: and exactly its relations. -/
theorem C70_relations (b : PrimitiveBlock) (hs : Sound b) : ∃ rs, b.ToRelations = .ok rs ∧ RelationsAre b rs :=
  toRelations_are hs

/-- The hypotheses of C70 are needed: with a string number out of range, extraction panics. -/
theorem C70_panics (b : PrimitiveBlock) (g : T.PrimitiveGroup) (hb : b.PrimitiveGroup = [g]) (w : Way) (hg : g.Ways = [w])
    (k : UInt32) (hk : w.Keys = [k]) (hn : strAt b k = none) : b.ToWays = .panic := by
  have : b.GetString k = .panic := by
    unfold strAt at hn
    unfold PrimitiveBlock.GetString
    cases hs : b.StringTable with
    | none => rfl
    | some st =>
      rw [hs] at hn
      show Res.ofOption st.S[k.toNat]? = _
      rw [show st.S[k.toNat]? = none from hn]
      rfl
  unfold PrimitiveBlock.ToWays
  rw [hb]
  unfold mapRes
  rw [hg]
  unfold mapRes PrimitiveBlock.toHLWay PrimitiveBlock.makeTags
  rw [hk]
  unfold PrimitiveBlock.makeTags.go
  rw [this]
  rfl

/-! ## C65 -/

/-- C65: after a complete run over a file with any number of workers, any distribution of the blocks and any interleaving of
the output, exactly the entities with a requested id have been printed, each as often as it is in the file, and those of a
block in the order in which they are in the block (nodes, ways, relations). -/
theorem C65_prints (inflate : Inflate) (sched : Pbf.Block → Sched) (hsched : ∀ b, (sched b).pooled.length < 2 ^ 63)
    (ids : List UInt64) (file : List UInt8) (hl : file.length < 2 ^ 63) (cs : List Content)
    (hc : FileHas inflate readAll file cs) (hso : SoundFile cs) (W : Nat) (s : Pbf.St (List Entity))
    (hr : Pbf.Reachable (findCfg inflate sched ids file) W s) (hd : s.main = .done) (hcc : s.cancelled = false)
    (out : List Entity) (hp : Find.Prints inflate sched ids s out) :
    ∃ ess, Each ContentEntities cs ess ∧ out.Perm (requested ids ess.flatten) ∧
      ∀ es ∈ ess, List.Sublist (requested ids es) out := by
  obtain ⟨bs, b1, b2⟩ := hc
  obtain ⟨bs', e1, _, e3, _⟩ := C55_each_once _ hl W s hr hd hcc
  have e1 : Pbf.split file = .ok bs' := e1
  rw [b1] at e1
  cases e1
  have hf := fun b hb => ((Rewrite.split_blocks hl b1).2 b hb).1
  obtain ⟨ess, h1, h2⟩ := find_contents inflate sched hsched ids hf b2 hso
  obtain ⟨outs, p1, p2⟩ := hp
  rw [List.flatMap_def] at e3
  obtain ⟨os, o1, o2⟩ := Count.mapRes_perm e3.symm h2
  obtain ⟨oss, w1, w2⟩ := workers_print (findBlock inflate sched ids) (s.workers.map (·.took)) os o1
  have hw : mapRes (fun w : Pbf.Worker (List Entity) => findWorker inflate sched ids w.took) s.workers =
      .ok (oss.map List.flatten) := by
    rw [← w2]
    unfold findWorker
    generalize s.workers = l
    induction l with
    | nil => rfl
    | cons w l ih => rw [List.map_cons]; unfold mapRes; rw [ih]
  rw [hw] at p1
  cases p1
  have hflat : (oss.map List.flatten).flatten = oss.flatten.flatten := by
    rw [List.flatten_flatten]
  refine ⟨ess, h1, ?_, ?_⟩
  · refine (interleaved_perm p2).trans ?_
    rw [hflat, w1]
    have : requested ids ess.flatten = (ess.map (requested ids)).flatten := by
      unfold requested
      rw [List.filter_flatten]
    rw [this]
    exact Count.flatten_perm o2.symm
  · intro es hes
    have hm : requested ids es ∈ oss.flatten := by
      rw [w1]
      exact o2.mem_iff.1 (List.mem_map.2 ⟨es, hes, rfl⟩)
    obtain ⟨os', h3, h4⟩ := List.mem_flatten.1 hm
    refine List.Sublist.trans ?_ (interleaved_sublist p2 _ (List.mem_map.2 ⟨os', h3, rfl⟩))
    obtain ⟨a, c, rfl⟩ := List.append_of_mem h4
    rw [List.flatten_append, List.flatten_cons]
    exact (List.sublist_append_left _ _).trans (List.sublist_append_right _ _)

/-- C65: no schedule panics; with at least one worker a run can be completed from every state, and after every complete run
something (maybe nothing) has been printed. -/
theorem C65_completes (inflate : Inflate) (sched : Pbf.Block → Sched) (hsched : ∀ b, (sched b).pooled.length < 2 ^ 63)
    (ids : List UInt64) (file : List UInt8) (hl : file.length < 2 ^ 63) (cs : List Content)
    (hc : FileHas inflate readAll file cs) (hso : SoundFile cs) (W : Nat) :
    (∀ s, Pbf.Reachable (findCfg inflate sched ids file) W s → s.crashed = false) ∧
    (∀ s, Pbf.Reachable (findCfg inflate sched ids file) W s → s.main = .done → s.cancelled = false →
      ∃ out, Find.Prints inflate sched ids s out) ∧
    (0 < W → ∀ s, Pbf.Reachable (findCfg inflate sched ids file) W s →
      ∃ n s', Pbf.Steps (findCfg inflate sched ids file) n s s' ∧ s'.cancelled = s.cancelled ∧ s'.main = .done) := by
  obtain ⟨bs, b1, b2⟩ := hc
  have hf := fun b hb => ((Rewrite.split_blocks hl b1).2 b hb).1
  obtain ⟨ess, h1, h2⟩ := find_contents inflate sched hsched ids hf b2 hso
  have hcl := Pbf.clean_run (c := findCfg inflate sched ids file) hl b1
    (fun b hb => NodeIndex.mapRes_mem h2 b hb) (fun _ => rfl) (fun _ => rfl) W
  refine ⟨hcl.1, ?_, fun hW => (hcl.2 hW).1⟩
  intro s hr hd hcc
  obtain ⟨bs', e1, _, e3, _⟩ := C55_each_once _ hl W s hr hd hcc
  have e1 : Pbf.split file = .ok bs' := e1
  rw [b1] at e1
  cases e1
  rw [List.flatMap_def] at e3
  obtain ⟨os, o1, o2⟩ := Count.mapRes_perm e3.symm h2
  obtain ⟨oss, w1, w2⟩ := workers_print (findBlock inflate sched ids) (s.workers.map (·.took)) os o1
  obtain ⟨out, ho⟩ := interleaved_exists _ (oss.map List.flatten) rfl
  refine ⟨out, _, ?_, ho⟩
  rw [← w2]
  unfold findWorker
  generalize s.workers = l
  induction l with
  | nil => rfl
  | cons w l ih => rw [List.map_cons]; unfold mapRes; rw [ih]

/-! ## Examples -/

/-- A block with two nodes (the second with a repeated key), a way and a relation. -/
def soundBlock : PrimitiveBlock where
  StringTableRaw := none
  StringTable := some ⟨[[], [97], [98], [99]]⟩
  PrimitiveGroup := [⟨none, some ⟨[5, 7], [10, 20], [30, 40], [0, 1, 2, 1, 3, 0]⟩, [], [], [], []⟩,
    ⟨none, none, [⟨7, [1], [3], [5, 7]⟩], [], [⟨9, [2], [1], [3], [7], [1]⟩], []⟩]
  Granularity := 100
  DateGranularity := 1000
  LatOffset := 1
  LonOffset := 2

theorem soundBlock_sound : Sound soundBlock where
  dense := by
    intro g hg dn hd
    simp only [soundBlock, List.mem_cons, List.not_mem_nil, or_false] at hg
    rcases hg with rfl | rfl
    · cases hd
      refine ⟨rfl, rfl, [[], [(1, 2), (1, 3)]], ⟨rfl, Or.inr ⟨by decide, by decide⟩⟩, ?_⟩
      intro g hg
      simp only [List.mem_cons, List.not_mem_nil, or_false] at hg
      rcases hg with rfl | rfl
      · exact ⟨rfl, by simp⟩
      · exact ⟨rfl, by decide⟩
    · cases hd
  ways := by
    intro g hg w hw
    simp only [soundBlock, List.mem_cons, List.not_mem_nil, or_false] at hg
    rcases hg with rfl | rfl
    · cases hw
    · simp only [List.mem_cons, List.not_mem_nil, or_false] at hw
      subst hw
      exact ⟨rfl, by decide⟩
  relations := by
    intro g hg w hw
    simp only [soundBlock, List.mem_cons, List.not_mem_nil, or_false] at hg
    rcases hg with rfl | rfl
    · cases hw
    · simp only [List.mem_cons, List.not_mem_nil, or_false] at hw
      subst hw
      exact ⟨⟨rfl, by decide⟩, by decide⟩

/-- What is extracted from it. -/
example : soundBlock.ToNodes = .ok [⟨5, [], 1001, 3002⟩, ⟨7, [([97], [99])], 2001, 4002⟩] ∧
    soundBlock.ToWays = .ok [⟨7, [([97], [99])], [5, 7]⟩] ∧
    soundBlock.ToRelations = .ok [⟨9, [([98], [97])], [[99]], [7], [1]⟩] := by decide +kernel

/-- A file with this block meets the hypotheses of C65. -/
example (inflate : Inflate) : ∃ file : List UInt8, file.length < 2 ^ 63 ∧
    FileHas inflate readAll file [.other Pbf.osmHeader [1, 2, 3], .data soundBlock] ∧
    SoundFile [.other Pbf.osmHeader [1, 2, 3], .data soundBlock] := by
  obtain ⟨file, h1, h2⟩ := oneBlockFile inflate Find.reader soundBlock
    (by
      refine ⟨rfl, ?_⟩
      intro g hg
      simp only [soundBlock, List.mem_cons, List.not_mem_nil, or_false] at hg
      rcases hg with rfl | rfl <;> exact ⟨rfl, rfl, rfl⟩) (by decide +kernel) (by decide +kernel)
  refine ⟨file, h1, h2, ?_⟩
  intro b hb
  simp only [List.mem_cons, List.not_mem_nil, or_false] at hb
  rcases hb with hb | hb
  · cases hb
  · cases hb; exact soundBlock_sound

/-- Searching for 7 in it finds a node and a way. -/
example : printNodes [7, 8] [⟨5, [], 1001, 3002⟩, ⟨7, [([97], [99])], 2001, 4002⟩] = [.node ⟨7, [([97], [99])], 2001, 4002⟩] ∧
    printWays [7, 8] [⟨7, [([97], [99])], [5, 7]⟩] = [.way ⟨7, [([97], [99])], [5, 7]⟩] := by decide

end Osm.Props
