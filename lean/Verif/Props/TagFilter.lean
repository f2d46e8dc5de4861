import Verif.Lemmas.TagFilter
import Verif.Lemmas.HlRoom
import Verif.Props.Hl

/-! # Tag filtering (C49, C50) -/

namespace Osm.Props
open Osm Osm.Pb Osm.T Osm.Pbf Osm.Spec Osm.TagFilter

/-! ## C49 -/

/-- C49: which keys are kept. -/
theorem C49_keepTag (k : GoStr) : keepTag k = true ↔ Wanted k := keepTag_iff k

/-- C49: the nodes that survive the loop, in order, with their wanted tags. -/
theorem C49_nodes (ns : List HLNode) : ∃ f, filterNodes ns = .ok f ∧ f.nodes = wantedNodes ns := by
  obtain ⟨idx, h⟩ := filterNodes_eq ns
  exact ⟨_, h, rfl⟩

/-- A node is kept, with the tags that are wanted, iff it has one. -/
theorem C49_wantedNodes (ns : List HLNode) (n' : HLNode) : n' ∈ wantedNodes ns ↔
    ∃ n ∈ ns, (∃ e ∈ n.Tags, Wanted e.1) ∧ n'.Id = n.Id ∧ n'.Lat = n.Lat ∧ n'.Lon = n.Lon ∧
      n'.Tags = n.Tags.filter fun e => Wanted e.1 := by
  unfold wantedNodes wantedTags
  simp only [List.mem_map, List.mem_filter, decide_eq_true_eq]
  constructor
  · rintro ⟨n, ⟨h1, h2⟩, rfl⟩
    exact ⟨n, h1, h2, rfl, rfl, rfl, rfl⟩
  · rintro ⟨n, h1, h2, h3, h4, h5, h6⟩
    refine ⟨n, ⟨h1, h2⟩, ?_⟩
    obtain ⟨_, _, _, _⟩ := n'
    simp_all

/-- C49: whatever the schedule and the number of workers, a completed run delivers what the workers make of the blocks,
in file order; so the writer does what `tagfilter` does. -/
theorem C49_any_schedule (inflate : Inflate) (sched : Block → Sched) (file : List UInt8)
    (hl : file.length < 2 ^ 63) (W : Nat) (got : List Rewrite.Out) (hd : Delivers (filterCfg inflate sched file) W got)
    (inp out : String) (fs : FS) (hin : Holds fs inp file) :
    (tagfilter inflate sched inp out).exec fs = (output out got).exec fs := by
  obtain ⟨s, hr, hdn, hc, rfl⟩ := hd
  obtain ⟨bs, e1, e2, _⟩ := C55_in_order _ hl rfl W s hr hdn hc
  obtain ⟨pos, hin⟩ := hin
  have e1 : split file = .ok bs := e1
  have e2 : mapRes (filterWork inflate sched) bs = .ok s.got := e2
  unfold tagfilter
  rw [Prog.exec_bind, exec_OsOpen_some hin, Res.ok_bind, Prog.exec_bind, exec_MMapMap]
  dsimp only
  rw [hin]
  dsimp only
  have hne : file ≠ [] := ((split_iff file hl bs).1 e1).1
  rw [if_neg hne, Res.ok_bind, Prog.exec_bind, Prog.exec_lift, e1, Res.ok_bind, Res.ok_bind, Prog.exec_bind, Prog.exec_lift,
    e2, Res.ok_bind, Res.ok_bind]

/-- C49: filtering a file, with any number of workers, any schedule and any chunking of zlib: the file written has, in
the same order, the blocks of the input in which an entity is left, with the wanted nodes (if the block has no empty
string in it, see `Shows`; coordinates in multiples of 100), and the same ways and relations. If no block is left the
file is empty.
Missing: nodes of blocks with an empty string among the tags or roles, for which the claim is false
(`C49_false_with_empty_value`); for those, `Shows` has the exact condition. -/
theorem C49_file_partial (inflate : Inflate) (sched : Block → Sched) (hsched : ∀ b, (sched b).pooled.length < 2 ^ 63)
    (file : List UInt8) (hl : file.length < 2 ^ 63) (cs : List Content) (hc : FileHas inflate readAll file cs)
    (its : List Item) (hi : Matches IsItem cs its) (hfew : ∀ it ∈ its, it.FewStrings) (W : Nat) (got : List Rewrite.Out)
    (hd : Delivers (filterCfg inflate sched file) W got) (out : String) (fs : FS) :
    ∃ fs' file' fillers, (output out got).exec fs = .ok (fillers, fs') ∧ Holds fs' out file' ∧
      (its.filterMap Item.wanted = [] → file' = []) ∧
      (its.filterMap Item.wanted ≠ [] → file'.length < 2 ^ 63 → ∃ cs', FileHas inflate readAll file' cs' ∧
        Matches Shows (its.filterMap Item.wanted) cs') ∧
      ∀ g, g ≠ out → fs' g = fs g := by
  obtain ⟨fs', h1, h2, h3⟩ := TagFilter.output_exec out got fs
  obtain ⟨s, hr, hdn, hcc, rfl⟩ := hd
  obtain ⟨bs, e1, e2, _⟩ := C55_in_order _ hl rfl W s hr hdn hcc
  have e1 : split file = .ok bs := e1
  have e2 : mapRes (filterWork inflate sched) bs = .ok s.got := e2
  obtain ⟨bs', b1, b2⟩ := hc
  rw [e1] at b1
  cases b1
  obtain ⟨hbne, hb⟩ := Rewrite.split_blocks hl e1
  have hm := works_items inflate sched hsched bs cs its _ hb b2 hi hfew e2
  obtain ⟨m1, m2, m3, cs', m4, m5⟩ := sent_written inflate hm
  have hfm : (its.map Item.wanted).filterMap id = its.filterMap Item.wanted := by
    rw [List.filterMap_map]; rfl
  rw [hfm] at m3 m5
  refine ⟨fs', _, _, h1, h2, fun he => ?_, fun hne hlen => ⟨cs', ?_, m5⟩, h3⟩
  · rw [he] at m3
    rw [List.length_eq_zero_iff.1 m3]
    rfl
  · refine Rewrite.fileOf_has inflate readAll ?_ m1 hlen m4
    intro h0
    rw [h0] at m3
    exact hne (List.length_eq_zero_iff.1 m3.symm)

/-- C49 is false with an empty value: the node `{"a": ""}` is written without its tag. -/
theorem C49_false_with_empty_value (inflate : Inflate) :
    ∃ pb : PrimitiveBlock, BlockShape readAll pb ∧ pb.ToNodes = .ok [⟨7, [([97], [])], 0, 0⟩] ∧ Wanted [97] ∧
      ∃ s b', filterBlock [] pb = .ok s ∧ s.msg.1 = osmData ∧ Reads inflate readAll s.msg.2 b' ∧
        b'.ToNodes = .ok [⟨7, [], 0, 0⟩] ∧ b'.ToWays = .ok [] ∧ b'.ToRelations = .ok [] := by
  let pb : PrimitiveBlock := ⟨none, some ⟨[[], [97]]⟩, [⟨none, some ⟨[7], [0], [0], [1, 0, 0]⟩, [], [], [], []⟩], 100, 1000, 0, 0⟩
  have hn : pb.ToNodes = .ok [⟨7, [([97], [])], 0, 0⟩] := by decide +kernel
  have hws : pb.ToWays = .ok [] := by decide +kernel
  have hrs : pb.ToRelations = .ok [] := by decide +kernel
  have hwt : wantedNodes [⟨7, [([97], [])], 0, 0⟩] = [⟨7, [([97], [])], 0, 0⟩] := by decide +kernel
  have hm : TagsAreMaps [⟨7, [([97], [])], 0, 0⟩] [] [] := by simp [TagsAreMaps, IsMap]
  refine ⟨pb, ⟨rfl, ?_⟩, hn, by decide +kernel, ?_⟩
  · intro g hg
    obtain rfl := List.mem_singleton.1 hg
    exact ⟨rfl, rfl, rfl⟩
  have ht : table [[97], []] = [[97], []] := table_empty_added [97] (by decide)
  have hs : sortedTags [([97], [])] = [([97], ([] : GoStr))] := by
    simp [sortedTags, sortBy, TagMap.get]
  have hx : blockStrings [⟨7, [([97], [])], 0, 0⟩] [] [] = [[97], []] := by decide
  have hg : groupOf [[97], []] [([97], [])] = [(0, 1)] := by
    unfold groupOf ix
    rw [hs, ht]
    decide
  have ha : asm [⟨7, [([97], [])], 0, 0⟩] [] [] =
      ⟨none, some ⟨[[97], []]⟩, [⟨none, some ⟨[7], [0], [0], [0, 1, 0]⟩, [], [], [], []⟩], 100, 1000, 0, 0⟩ := by
    unfold asm gNodes denseOf nodesKV
    rw [hx]
    dsimp only
    simp only [List.map_cons, List.map_nil, hg, ht]
    rfl
  obtain ⟨blob, hb⟩ : ∃ blob, Blob.zero.Write (some (asm [⟨7, [([97], [])], 0, 0⟩] [] []).Write) [] = .ok blob := by
    exact asm_writes _ _ _ (by unfold Roomy; decide +kernel)
  obtain ⟨w1, _⟩ := written_reads inflate (asm_shape _ _ _) hb
  rw [trim_readAll (asm_shape _ _ _)] at w1
  refine ⟨⟨(osmData, blob), 1, 0, []⟩, _, ?_, rfl, w1, ?_, ?_, ?_⟩
  · obtain ⟨idx, hfn⟩ := filterNodes_eq [⟨7, [([97], [])], 0, 0⟩]
    unfold filterBlock
    rw [hn, Res.ok_bind, hws, Res.ok_bind, hrs, Res.ok_bind, hfn, Res.ok_bind, hwt]
    unfold send
    rw [if_pos (.inl (by simp [nodesToBuffer])), assemble_eq, make_eq _ _ _ hm, Res.ok_bind, hb, Res.ok_bind]
    rfl
  · rw [ha]
    decide +kernel
  · rw [ha]
    decide +kernel
  · rw [ha]
    decide +kernel

/-! ## C50 -/

/-- C50: whatever blocks a worker gets, it never holds nodes back, and the only panics are those of a block it
processes: the "pending nodes" panic is unreachable. -/
theorem C50_never_pending (inflate : Inflate) (sched : Block → Sched) (bs : List Block) :
    filterWorker inflate sched [] bs = mapRes (filterIter inflate sched []) bs ∧
    ∀ b s, filterIter inflate sched [] b = .ok s → s.pending = [] :=
  ⟨filterWorker_eq inflate sched bs, fun _ _ h => filterIter_pending h⟩

/-- C50: a worker sends exactly one message per block it gets, in order. -/
theorem C50_one_message (inflate : Inflate) (sched : Block → Sched) (bs : List Block) (ss : List Sent)
    (h : filterWorker inflate sched [] bs = .ok ss) :
    mapRes (filterWork inflate sched) bs = .ok (ss.map (·.msg)) ∧ ss.length = bs.length := by
  rw [filterWorker_eq] at h
  refine ⟨?_, Pbf.mapRes_length h⟩
  induction bs generalizing ss with
  | nil => cases h; rfl
  | cons b bs ih =>
    unfold mapRes at h ⊢
    obtain ⟨s, h1, h⟩ := Res.bind_eq_ok.1 h
    obtain ⟨rest, h2, h⟩ := Res.bind_eq_ok.1 h
    cases h
    rw [ih rest h2]
    unfold filterWork
    rw [h1]
    rfl

/-- C50: for any block (with the item it holds), what is added to the counters is the number of nodes kept and of nodes
dropped, which add up to the nodes read. -/
theorem C50_counts (inflate : Inflate) (sched : Block → Sched) (hsched : ∀ b, (sched b).pooled.length < 2 ^ 63)
    (b : Block) (hf : b.Data.Fits) (hlen : b.Data.bytes.length < 2 ^ 31) (hkind : b.Kind = osmHeader ∨ b.Kind = osmData)
    (c : Content) (hc : HasContent inflate readAll b.Kind b.Data.bytes c) (it : Item) (hit : IsItem c it)
    (hfew : it.FewStrings) (s : Sent) (hs : filterIter inflate sched [] b = .ok s) :
    s.kept = UInt64.ofNat it.kept ∧ it.kept ≤ it.nodes ∧ s.kept + s.dropped = UInt64.ofNat it.nodes := by
  obtain ⟨_, h2, h3⟩ := iter_content inflate sched hsched hf hlen hkind hc hit hfew hs
  have hle : it.kept ≤ it.nodes := by
    cases it with
    | other => exact Nat.le_refl _
    | entities ns ws rs => exact wantedNodes_le ns
  refine ⟨h2, hle, ?_⟩
  rw [h2, h3]
  apply UInt64.toNat_inj.1
  simp only [UInt64.toNat_add, UInt64.toNat_ofNat']
  omega

/-- C50: over a whole run: one message per block of the file, of which the fillers are counted and the others written. -/
theorem C50_run (inflate : Inflate) (sched : Block → Sched) (hsched : ∀ b, (sched b).pooled.length < 2 ^ 63)
    (file : List UInt8) (hl : file.length < 2 ^ 63) (cs : List Content) (hc : FileHas inflate readAll file cs)
    (its : List Item) (hi : Matches IsItem cs its) (hfew : ∀ it ∈ its, it.FewStrings) (W : Nat) (got : List Rewrite.Out)
    (hd : Delivers (filterCfg inflate sched file) W got) (out : String) (fs : FS) :
    got.length = cs.length ∧ ∃ fs' fillers, (output out got).exec fs = .ok (fillers, fs') ∧
      fillers + (its.filterMap Item.wanted).length = cs.length := by
  obtain ⟨fs', h1, h2, h3⟩ := TagFilter.output_exec out got fs
  obtain ⟨s, hr, hdn, hcc, rfl⟩ := hd
  obtain ⟨bs, e1, e2, _⟩ := C55_in_order _ hl rfl W s hr hdn hcc
  have e1 : split file = .ok bs := e1
  have e2 : mapRes (filterWork inflate sched) bs = .ok s.got := e2
  obtain ⟨bs', b1, b2⟩ := hc
  rw [e1] at b1
  cases b1
  obtain ⟨hbne, hb⟩ := Rewrite.split_blocks hl e1
  have hm := works_items inflate sched hsched bs cs its _ hb b2 hi hfew e2
  obtain ⟨m1, m2, m3, cs', m4, m5⟩ := sent_written inflate hm
  have hfm : (its.map Item.wanted).filterMap id = its.filterMap Item.wanted := by
    rw [List.filterMap_map]; rfl
  rw [hfm] at m3
  have hlen := Rewrite.each_length b2
  have hgl : s.got.length = bs.length := Pbf.mapRes_length e2
  have hle : (written s.got).length ≤ s.got.length := List.length_filter_le _ _
  refine ⟨by omega, fs', _, h1, by omega⟩

/-- C50: if what is left of every block has room in a block (see `Roomy`), no schedule panics, and with at least one worker every run
can be completed from every state. -/
theorem C50_completes (inflate : Inflate) (sched : Block → Sched) (hsched : ∀ b, (sched b).pooled.length < 2 ^ 63)
    (file : List UInt8) (hl : file.length < 2 ^ 63) (cs : List Content) (hc : FileHas inflate readAll file cs)
    (its : List Item) (hi : Matches IsItem cs its)
    (hw : ∀ it ∈ its, it.Roomy) (W : Nat) :
    (∀ s, Reachable (filterCfg inflate sched file) W s → s.crashed = false) ∧
    (0 < W → (∀ s, Reachable (filterCfg inflate sched file) W s →
        ∃ n s', Steps (filterCfg inflate sched file) n s s' ∧ s'.cancelled = s.cancelled ∧ s'.main = .done) ∧
      ∃ got, Delivers (filterCfg inflate sched file) W got) := by
  obtain ⟨bs, b1, b2⟩ := hc
  refine clean_run (c := filterCfg inflate sched file) hl b1 (fun b hb => ?_) (fun _ => rfl) (fun _ => rfl) W
  obtain ⟨c, hc', hcc⟩ := Rewrite.matches_mem b2 b hb
  obtain ⟨it, hit, hii⟩ := Rewrite.matches_mem hi c hc'
  have hf := ((Rewrite.split_blocks hl b1).2 b hb).1
  suffices h : ∃ s, filterIter inflate sched [] b = .ok s by
    obtain ⟨s, h⟩ := h
    refine ⟨s.msg, ?_⟩
    show filterWork inflate sched b = _
    unfold filterWork
    rw [h]
    rfl
  unfold filterIter
  cases c with
  | other k bs => rw [if_pos hcc.2.2]; exact ⟨_, rfl⟩
  | data c =>
    cases it with
    | other => cases hii
    | entities ns ws rs =>
      obtain ⟨h1, h2⟩ := hcc
      rw [if_neg (by rw [h1]; simp)]
      obtain ⟨raw, pb, r1, r2, r3⟩ := h2 b.Index b.Data.spare (sched b) hf (hsched b)
      obtain ⟨i, ⟨bs, sp⟩, kd⟩ := b
      dsimp only at h1 r1
      subst h1
      have r2' : ReadPrimitiveBlock TagFilter.reader raw = .ok pb := r2
      rw [trim_readAll (readBlock_shape _ _ _ r2)] at r3
      subst r3
      rw [r1, Res.ok_bind, r2', Res.ok_bind]
      obtain ⟨i1, i2, i3⟩ := hii
      obtain ⟨idx, hfn⟩ := filterNodes_eq ns
      unfold filterBlock
      rw [i1, Res.ok_bind, i2, Res.ok_bind, i3, Res.ok_bind, hfn, Res.ok_bind]
      unfold send
      split
      · have hm : TagsAreMaps (wantedNodes ns) ws rs :=
          ⟨wantedNodes_isMap (toNodes_isMap i1), toWays_isMap i2, toRelations_isMap i3⟩
        rw [assemble_eq, make_eq _ _ _ hm, Res.ok_bind]
        obtain ⟨blob, hb⟩ := asm_writes _ _ _ (hw _ hit)
        rw [hb, Res.ok_bind]
        exact ⟨_, rfl⟩
      · exact ⟨_, rfl⟩

/-! ## Example -/

/-- Three nodes, tagged `name=x`; `note=x`; `name=x` and `source:y=x`; and a way. -/
def taggedBlock : PrimitiveBlock :=
  ⟨none, some ⟨[[], asciiBytes "name", asciiBytes "x", asciiBytes "note", asciiBytes "source:y"]⟩,
    [⟨none, some ⟨[5, 6, 7], [1, 2, 3], [4, 5, 6], [1, 2, 0, 3, 2, 0, 1, 2, 4, 2, 0]⟩, [], [], [], []⟩,
     ⟨none, none, [⟨9, [3], [2], [5, 6]⟩], [], [], []⟩], 100, 1000, 0, 0⟩

/-- A block with a node tagged `note=x`. -/
def droppedBlock : PrimitiveBlock :=
  ⟨none, some ⟨[[], asciiBytes "note", asciiBytes "x"]⟩, [⟨none, some ⟨[8], [1], [4], [1, 2, 0]⟩, [], [], [], []⟩],
    100, 1000, 0, 0⟩

/-- What is in them. -/
def taggedItems : List Item :=
  [.other osmHeader [1, 2, 3],
   .entities [⟨5, [(asciiBytes "name", asciiBytes "x")], 100, 400⟩, ⟨6, [(asciiBytes "note", asciiBytes "x")], 200, 500⟩,
      ⟨7, [(asciiBytes "name", asciiBytes "x"), (asciiBytes "source:y", asciiBytes "x")], 300, 600⟩]
     [⟨9, [(asciiBytes "note", asciiBytes "x")], [5, 6]⟩] [],
   .entities [⟨8, [(asciiBytes "note", asciiBytes "x")], 100, 400⟩] [] []]

/-- What is wanted of them: two nodes and the way; the last block goes. -/
example : taggedItems.filterMap Item.wanted = [.other osmHeader [1, 2, 3],
    .entities [⟨5, [(asciiBytes "name", asciiBytes "x")], 100, 400⟩, ⟨7, [(asciiBytes "name", asciiBytes "x")], 300, 600⟩]
     [⟨9, [(asciiBytes "note", asciiBytes "x")], [5, 6]⟩] []] := by rfl

/-- A file that meets the hypotheses of C49 and C50. -/
theorem taggedFile (inflate : Inflate) : ∃ file : List UInt8, file.length < 2 ^ 63 ∧
    FileHas inflate readAll file [.other osmHeader [1, 2, 3], .data taggedBlock, .data droppedBlock] ∧
    Matches IsItem [.other osmHeader [1, 2, 3], .data taggedBlock, .data droppedBlock] taggedItems ∧
    (∀ it ∈ taggedItems, it.FewStrings) ∧ ∀ it ∈ taggedItems, it.Roomy := by
  have hok : ∀ pb : PrimitiveBlock, (Blob.zero.Write (some pb.Write) []).isOk = true →
      ∃ blob, Blob.zero.Write (some pb.Write) [] = .ok blob := by
    intro pb h
    cases hx : Blob.zero.Write (some pb.Write) [] with
    | ok x => exact ⟨x, rfl⟩
    | panic => rw [hx] at h; cases h
    | hang => rw [hx] at h; cases h
  obtain ⟨b1, hb1⟩ := hok taggedBlock (by decide +kernel)
  obtain ⟨b2, hb2⟩ := hok droppedBlock (by decide +kernel)
  have s1 : BlockShape readAll taggedBlock := by
    refine ⟨rfl, ?_⟩
    intro g hg
    simp only [taggedBlock, List.mem_cons, List.not_mem_nil, or_false] at hg
    rcases hg with rfl | rfl <;> exact ⟨rfl, rfl, rfl⟩
  have s2 : BlockShape readAll droppedBlock := by
    refine ⟨rfl, ?_⟩
    intro g hg
    obtain rfl := List.mem_singleton.1 hg
    exact ⟨rfl, rfl, rfl⟩
  obtain ⟨h1, h2⟩ := written_reads inflate s1 hb1
  obtain ⟨h3, h4⟩ := written_reads inflate s2 hb2
  have hw : ∀ x ∈ [(osmHeader, [1, 2, 3]), (osmData, b1), (osmData, b2)], Writable x := by
    intro x hx
    simp only [List.mem_cons, List.not_mem_nil, or_false] at hx
    rcases hx with rfl | rfl | rfl
    · exact ⟨.inl rfl, by decide⟩
    · exact ⟨.inr rfl, h2⟩
    · exact ⟨.inr rfl, h4⟩
  have hl := Rewrite.fileOf_length _ hw
  simp only [List.length_cons, List.length_nil] at hl
  refine ⟨_, by omega, Rewrite.fileOf_has inflate readAll (by simp) hw (by omega)
    (.cons ⟨rfl, rfl, by decide⟩ (.cons ⟨rfl, h1⟩ (.cons ⟨rfl, h3⟩ .nil))), ?_, ?_, ?_⟩
  · refine .cons ⟨rfl, rfl⟩ (.cons ⟨?_, ?_, ?_⟩ (.cons ⟨?_, ?_, ?_⟩ .nil)) <;> decide +kernel
  · intro it hit
    simp only [taggedItems, List.mem_cons, List.not_mem_nil, or_false] at hit
    rcases hit with rfl | rfl | rfl
    · trivial
    · unfold Item.FewStrings; decide +kernel
    · unfold Item.FewStrings; decide +kernel
  · intro it hit
    simp only [taggedItems, List.mem_cons, List.not_mem_nil, or_false] at hit
    rcases hit with rfl | rfl | rfl
    · trivial
    · unfold Item.Roomy Spec.Roomy; decide +kernel
    · unfold Item.Roomy Spec.Roomy; decide +kernel

end Osm.Props
