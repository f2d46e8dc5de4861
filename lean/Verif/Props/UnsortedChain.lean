import Verif.Spec.UnsortedChain
import Verif.Props.AnyWayIndex
import Verif.Props.Programs
import Verif.Props.Restart
import Verif.Props.Size

/-!
# C104: the commands one after the other on a source in any order
-/

namespace Osm.Props
open Osm Osm.Pb Osm.T Osm.Pbf Osm.Spec Osm.Programs

/-! ## The rewritten file -/

/-- What the indexer of ways sees of a block. -/
def seenOf : Content → Option PrimitiveBlock
  | .other _ _ => none
  | .data b => some b

theorem ways_flat {P : Int64 → Int64 → Prop} {gs gs' : List T.PrimitiveGroup} (h : Matches (GroupButRefs P) gs gs')
    {fs : List T.PrimitiveGroup} (hw : gs.map (·.Ways) = fs.map (·.Ways)) :
    Matches (WayButRefs P) (fs.flatMap (·.Ways)) (gs'.flatMap (·.Ways)) := by
  induction h generalizing fs with
  | nil =>
    obtain rfl := List.map_eq_nil_iff.1 hw.symm
    exact .nil
  | @cons g g' gs gs' h _ ih =>
    cases fs with
    | nil => simp at hw
    | cons f fs =>
      rw [List.map_cons, List.map_cons] at hw
      obtain ⟨h1, h2⟩ := List.cons.inj hw
      obtain ⟨ws, m, rfl⟩ := h
      rw [List.flatMap_cons, List.flatMap_cons, ← h1]
      exact matches_app m (ih h2)
where
  matches_app {α β : Type} {R : α → β → Prop} {as as' : List α} {bs bs' : List β} (h : Matches R as bs)
      (h' : Matches R as' bs') : Matches R (as ++ as') (bs ++ bs') := by
    induction h with
    | nil => exact h'
    | cons h _ ih => exact .cons h ih

theorem works_replaced {inflate : Inflate} (sched : Block → Sched) (hsched : ∀ b, (sched b).pooled.length < 2 ^ 63)
    (shift : Int64) {P : Int64 → Int64 → Prop} {cs : List Content} {fulls : List (Option PrimitiveBlock)}
    (h : Matches SeesWays cs fulls) : ∀ {cs' : List Content} {bs : List Block}, Matches (ButRefs P) cs cs' →
    (∀ b ∈ bs, b.Data.Fits) →
    Matches (fun b c => HasContent inflate Rewrite.reader b.Kind b.Data.bytes c) bs cs' →
    mapRes (blockWork inflate sched wayReader (wayWork shift)) bs = mapRes (wayWork shift) (cs'.map seenOf) ∧
    Matches (WayButRefs P) (allWays fulls) (allWays (cs'.map seenOf)) := by
  induction h with
  | nil => intro cs' bs h1 _ hm; cases h1; cases hm; exact ⟨rfl, .nil⟩
  | @cons c full cs fulls h _ ih =>
    intro cs' bs h1 hf hm
    cases h1 with
    | @cons _ c' _ cs' h1 h2 =>
    cases hm with
    | @cons b _ bs _ hb hm =>
      obtain ⟨i1, i2⟩ := ih h2 (fun b hb => hf b (List.mem_cons_of_mem _ hb)) hm
      have key : blockWork inflate sched wayReader (wayWork shift) b = wayWork shift (seenOf c') ∧
          Matches (WayButRefs P) (allWays [full]) (allWays [seenOf c']) := by
        cases h1 with
        | other k d =>
          obtain ⟨_, _, hk⟩ := hb
          cases full with
          | none =>
            refine ⟨?_, .nil⟩
            unfold blockWork decodeBlock
            rw [if_pos hk, Res.ok_bind]
            rfl
          | some _ => exact h.elim
        | data c c' h1 =>
          obtain ⟨hk, hr⟩ := hb
          cases full with
          | none => exact h.elim
          | some full =>
            constructor
            · obtain ⟨raw, pb, r1, r2, r3⟩ := hr b.Index b.Data.spare (sched b) (hf b List.mem_cons_self) (hsched b)
              rw [← hk] at r1
              unfold blockWork decodeBlock
              rw [if_neg (by simpa using hk), r1, Res.ok_bind,
                show ReadPrimitiveBlock wayReader raw = .ok pb from r2, Res.ok_bind, Res.ok_bind]
              refine wayWork_congr shift ?_
              rw [← trim_ways, r3]
            · obtain ⟨gs, m, rfl⟩ := h1
              have := ways_flat m h
              simpa [allWays, sourceWays, seenOf] using this
      refine ⟨?_, ?_⟩
      · unfold mapRes
        rw [List.map_cons]
        dsimp only
        rw [key.1, i1]
      · have e1 : ∀ (x : Option PrimitiveBlock) xs, allWays (x :: xs) = allWays [x] ++ allWays xs := by
          intro x xs
          simp [allWays]
        rw [List.map_cons, e1, e1 (seenOf c')]
        exact ways_flat.matches_app key.2 i2

/-! ## Room for the ways -/

theorem room_any {shift : Int64} {ws : List Way} (h : WaysRoom shift ws) {P : Int64 → Int64 → Prop} {ws' : List Way}
    (hm : Matches (WayButRefs P) ws ws') : WaysAnyOrder shift ws' := by
  have hsum : waysBlocks shift ws' ≤ (ws.map fun w => (10 * w.Refs.length + 1) / 2 ^ shift.toInt.toNat + 1).sum := by
    clear h
    induction hm with
    | nil => exact Nat.le_refl _
    | @cons w w' ws ws' hw _ ih =>
      have : wayBlocks shift w' ≤ (10 * w.Refs.length + 1) / 2 ^ shift.toInt.toNat + 1 := by
        obtain ⟨rs, m, rfl⟩ := hw
        unfold wayBlocks
        refine Nat.add_le_add_right (Nat.div_le_div_right ?_) 1
        have h1 := encodeDeltas_length (indexedRefs { w with Refs := rs }) [] 0
        have h2 := (C40_refs_spec { w with Refs := rs }).2.1.length_le
        have h3 := Rewrite.matches_length m
        dsimp only at h2
        unfold Pb.EncodeS64PackedDeltaZero
        simp only [List.length_append, List.length_cons, List.length_nil, Nat.zero_add] at h1 ⊢
        omega
      unfold waysBlocks at ih ⊢
      simp only [List.map_cons, List.sum_cons]
      omega
  refine ⟨h.range, ?_, Nat.le_trans hsum h.space, Nat.lt_of_le_of_lt (Nat.mul_le_mul_right _ hsum) h.memory⟩
  intro w hw
  obtain ⟨x, hx, rs, -, rfl⟩ := Rewrite.matches_right hm w hw
  exact h.ids x hx

/-! ## The way index and the relation index -/

theorem path_from {P : Int64 → Int64 → Prop} {blocks blocks' : List (Option PrimitiveBlock)}
    (h : Matches (WayButRefs P) (allWays blocks) (allWays blocks')) {x : Way} (hx : x ∈ allWays blocks') :
    PathFrom P blocks x.ID (indexedRefs x) := by
  obtain ⟨w, hw, rs, m, rfl⟩ := Rewrite.matches_right h x hx
  exact ⟨w, hw, rfl, rs, m, rfl⟩

theorem nodeindex_any {inflate : Inflate} (sched : Block → Sched) (chunks : Nat → Nat) {file : List UInt8}
    {fulls : List (Option PrimitiveBlock)} (hs : Source inflate file fulls) (hi : AnyOrder fulls)
    (inp out : String) (fs : FS) (hin : Holds fs inp file) :
    ∃ batches fs' ixFile ix, mapRes NodeIndexer.work fulls = .ok batches ∧
      (NodeIndexer.Output out chunks never batches).exec fs = .ok ((), fs') ∧
      (nodeindex inflate sched chunks inp out).exec fs = .ok ((), fs') ∧ Holds fs' out ixFile ∧
      NodeIndex.NewNodeIndex ixFile = .ok ix ∧
      (∀ g, g ≠ out → g ≠ out ++ ".loc.tmp" → fs' g = fs g) := by
  obtain ⟨bs, s1, s2⟩ := hs
  obtain ⟨batches, fs', ixFile, ix, h1, h2, h3, h4, -⟩ := any_index fulls hi out chunks fs
  refine ⟨batches, fs', ixFile, ix, h1, h2, ?_, h3, h4, ?_⟩
  · unfold nodeindex
    rw [process_exec _ _ _ s1 ((works_source sched nodeReader NodeIndexer.work nodeWork_agrees s2).trans h1) fs hin]
    exact h2
  · intro g g1 g2
    exact (Interrupt.touches_nodeOutput (S := fun f => f = out ∨ f = out ++ ".loc.tmp") (.inl rfl) (.inr rfl) chunks never
      batches).exec h2 g (by rintro (h | h) <;> contradiction)

theorem wayindex_any {inflate : Inflate} (sched : Block → Sched) (hsched : ∀ b, (sched b).pooled.length < 2 ^ 63)
    (chunks : Nat → Nat) {shift : Int64} {P : Int64 → Int64 → Prop} {cs cs' : List Content}
    {blocks : List (Option PrimitiveBlock)} (h : Matches SeesWays cs blocks) (hm : Matches (ButRefs P) cs cs')
    (hw : WaysRoom shift (allWays blocks)) {file : List UInt8} (hl : file.length < 2 ^ 63)
    (hc : FileHas inflate waysDecoded file cs') (inp out : String) (fs : FS) (hin : Holds fs inp file) :
    ∃ blocks' batches fs' wfile, Matches (WayButRefs P) (allWays blocks) (allWays blocks') ∧
      WaysAnyOrder shift (allWays blocks') ∧ WayIndexer.workAll shift blocks' = .ok batches ∧
      (WayIndexer.Output out shift chunks never batches).exec fs = .ok ((), fs') ∧
      (wayindex inflate sched chunks shift inp out).exec fs = .ok ((), fs') ∧ Holds fs' out wfile ∧
      WayIndex.NewWayIndex wfile =
        .ok ⟨WayIndexer.entries shift 0 (allWays blocks'), WayIndexer.locData shift (allWays blocks'), shift⟩ ∧
      (∀ g, g ≠ out → g ≠ out ++ ".loc.tmp" → fs' g = fs g) := by
  obtain ⟨bs, t1, t2⟩ := hc
  obtain ⟨k1, k2⟩ := works_replaced sched hsched shift h hm (fun b hb => ((Rewrite.split_blocks hl t1).2 b hb).1) t2
  have hany := room_any hw k2
  obtain ⟨batches, fs', wfile, w1, w2, w3, w4⟩ := WayIndexer.output_any shift _ hany out chunks fs
  rw [workAll_eq hw.range, w1] at k1
  refine ⟨_, batches, fs', wfile, k2, hany, w1, w2, ?_, w3, w4, ?_⟩
  · unfold wayindex
    rw [process_exec _ _ _ t1 k1 fs hin]
    exact w2
  · intro g g1 g2
    exact (Interrupt.touches_wayOutput (S := fun f => f = out ∨ f = out ++ ".loc.tmp") (.inl rfl) (.inr rfl) shift chunks never
      batches).exec w2 g (by rintro (h | h) <;> contradiction)

/-! ## C104 -/

/-- What the number of passes over the node index must be for rewritenodes to complete. -/
def PassesMade (memory : Option UInt64) (ix : NodeIndex.NodeIdx) : Prop :=
  ∃ m subs, NodeIndex.passCount ix memory = .ok m ∧ m ≠ 0 ∧
    mapRes (fun p => ix.SubIndex (UInt64.ofNat p) m) (List.range m.toNat) = .ok subs

/-- What it must be for every node to be looked at. -/
def PassesMeet (memory : Option UInt64) (ix : NodeIndex.NodeIdx) : Prop :=
  ∃ m, NodeIndex.passCount ix memory = .ok m ∧ m ≠ 0 ∧ PassesCover ix m.toNat

/-- C104: nodeindex, rewritenodes, wayindex and relindex one after the other on a source whose nodes, ways and relations
are in any order and may repeat: if the passes over the node index can be made (with no memory target they can,
`C104_no_target`) all four complete, and leave a relation index of exactly the relations of the source, in order, each
with its way members in order, each of which has no locations at all, or the path of a way of the source with that id,
in which each ref is the location of a node of the source with that id, or is left as it was. -/
theorem C104_sound (inflate : Inflate) {file : List UInt8} {blocks : List (Option PrimitiveBlock)}
    (hs : Source inflate file blocks) (hl : file.length < 2 ^ 63) (hi : AnyOrder blocks)
    (hsmall : ∀ cs, FileHas inflate waysDecoded file cs → SmallFile cs)
    {shift : Int64} (hw : WaysRoom shift (allWays blocks)) (hw0 : allWays blocks ≠ [])
    (hr : RelationsFit (allRelations blocks)) (hr0 : allRelations blocks ≠ [])
    {n : Nat} (hn : 1 ≤ n) (hn2 : n ≤ 2 ^ shift.toInt.toNat)
    {src nix rew wix rix : String} (names : Names n src nix rew wix rix)
    (names2 : ∀ p m, 1 ≤ p → p < m → RelIndex.makePassFilename rew p m ≠ src)
    (sched1 sched3 sched4 : Block → Sched) (scheds2 : Nat → Block → Sched)
    (hs2 : ∀ i b, (scheds2 i b).pooled.length < 2 ^ 63) (hs3 : ∀ b, (sched3 b).pooled.length < 2 ^ 63)
    (chunks1 chunks3 : Nat → Nat) (fs : FS) (hin : Holds fs src file) (memory : Option UInt64)
    (hpass : ∀ fs1 ixFile ix, (nodeindex inflate sched1 chunks1 src nix).exec fs = .ok ((), fs1) → Holds fs1 nix ixFile →
      NodeIndex.NewNodeIndex ixFile = .ok ix → PassesMade memory ix) :
    ∃ fs1 fs2 fs3 fs4 out, ∃ locs : Int64 → List Int64,
      (nodeindex inflate sched1 chunks1 src nix).exec fs = .ok ((), fs1) ∧
      (Rewrite.rewritenodes inflate scheds2 memory src nix rew).exec fs1 = .ok ((), fs2) ∧
      (wayindex inflate sched3 chunks3 shift rew wix).exec fs2 = .ok ((), fs3) ∧
      (relindex inflate sched4 n src wix rix).exec fs3 = .ok ((), fs4) ∧
      Holds fs4 rix out ∧
      IsRelIndex out ((allRelations blocks).map fun r => ⟨r.ID, (wayMembers r).map fun w => (w, locs w)⟩) ∧
      ∀ r ∈ allRelations blocks, ∀ w ∈ wayMembers r,
        locs w = [] ∨ PathFrom (MaybeLocated blocks) blocks w (locs w) := by
  obtain ⟨hnd, hpn⟩ := names
  simp only [List.nodup_cons, List.mem_cons, List.not_mem_nil, or_false, not_or, List.nodup_nil, and_true,
    not_false_eq_true] at hnd
  obtain ⟨⟨d1, d2, d3, d4, d5, d6⟩, ⟨d7, d8, d9, d10, d11⟩, ⟨d12, d13, d14, d15⟩, ⟨d16, d17, d18⟩, ⟨d19, d20⟩, d21⟩ := hnd
  obtain ⟨batches, fs1, ixFile, ix, a1, a2, a3, a4, a5, a6⟩ := nodeindex_any sched1 chunks1 hs hi src nix fs hin
  have hin1 : Holds fs1 src file := by
    obtain ⟨pos, hin⟩ := hin
    exact ⟨pos, (a6 src d1 d2).trans hin⟩
  obtain ⟨m, subs, m1, m2, m3⟩ := hpass fs1 ixFile ix a3 a4 a5
  obtain ⟨bs, s1, s2⟩ := hs
  obtain ⟨cs, c1, c2⟩ := source_contents s2
  have hc : FileHas inflate waysDecoded file cs := ⟨bs, s1, c1⟩
  obtain ⟨fs2, file2, cs2, b1, b2, b3, b4, b5⟩ := rewrite_sound blocks hi nix chunks1 fs fs1 a1 a2 a4 a5 inflate scheds2 hs2
    memory m m1 m2 m3 src rew hl hc (hsmall cs hc) fs1 hin1 a4
  obtain ⟨_, _, m', -, -, -, -, hframe⟩ := C48_any_run inflate scheds2 memory src nix rew fs1 fs2 b1
  obtain ⟨blocks', batches', fs3, wfile, w1, w2, w3, w4, w5, w6, w7, w8⟩ := wayindex_any sched3 hs3 chunks3 c2 b5 hw b3 b4
    rew wix fs2 b2
  have hne : allWays blocks' ≠ [] := by
    intro h0
    have := Rewrite.matches_length w1
    rw [h0] at this
    exact hw0 (List.length_eq_zero_iff.1 this.symm)
  have hn63 : n < 2 ^ 63 := Nat.lt_of_le_of_lt hn2 (Nat.pow_lt_pow_right (by omega) (by have := hw.range; omega))
  obtain ⟨sub2, v1, -⟩ := C103_passes_cover shift _ w2 hne n hn hn2
  obtain ⟨sent, fs4, out, locs, r1, r2, r3, r4, r5⟩ := C103_unsorted shift blocks' w2 wix chunks3 fs2 fs3 w3 w4 w6 w7 blocks
    hr hr0 n hn hn63 (fun p hp => NodeIndex.mapRes_mem v1 p (List.mem_range.2 hp)) rix ⟨d20, fun p hp h => hpn p hp (by simp [← h])⟩ fs3 w6
  refine ⟨fs1, fs2, fs3, fs4, out, locs, a3, b1, w5, ?_, r3, r4, ?_⟩
  · unfold relindex
    rw [process_exec _ _ _ s1 ((works_source sched4 relReader RelIndex.work relWork_agrees s2).trans r1) fs3]
    · exact r2
    · obtain ⟨pos, hin1⟩ := hin1
      refine ⟨pos, ?_⟩
      rw [w8 src d4 d5, hframe src d3 fun p p1 p2 h => names2 p _ p1 p2 h.symm, hin1]
  · intro r hr w hw
    rcases r5 r hr w hw with h | ⟨x, hx, rfl, h⟩
    · exact .inl h
    · refine .inr ?_
      rw [h]
      exact path_from w1 hx

/-- C104: if the ids of the nodes and those of the ways never go down (a file with all versions of everything) and the passes
cover the node index, nothing is missed: each way member that the source has is given the path of one of its versions, in
which every ref to a node of the source is the location of one of that node's versions. -/
theorem C104_history (inflate : Inflate) {file : List UInt8} {blocks : List (Option PrimitiveBlock)}
    (hs : Source inflate file blocks) (hl : file.length < 2 ^ 63) (hi : AnyOrder blocks) (hd : NeverDown blocks)
    (hsmall : ∀ cs, FileHas inflate waysDecoded file cs → SmallFile cs)
    {shift : Int64} (hw : WaysRoom shift (allWays blocks)) (hwd : WaysNeverDown (allWays blocks)) (hw0 : allWays blocks ≠ [])
    (hr : RelationsFit (allRelations blocks)) (hr0 : allRelations blocks ≠ [])
    {n : Nat} (hn : 1 ≤ n) (hn2 : n ≤ 2 ^ shift.toInt.toNat)
    {src nix rew wix rix : String} (names : Names n src nix rew wix rix)
    (names2 : ∀ p m, 1 ≤ p → p < m → RelIndex.makePassFilename rew p m ≠ src)
    (sched1 sched3 sched4 : Block → Sched) (scheds2 : Nat → Block → Sched)
    (hs2 : ∀ i b, (scheds2 i b).pooled.length < 2 ^ 63) (hs3 : ∀ b, (sched3 b).pooled.length < 2 ^ 63)
    (chunks1 chunks3 : Nat → Nat) (fs : FS) (hin : Holds fs src file) (memory : Option UInt64)
    (hpass : ∀ fs1 ixFile ix, (nodeindex inflate sched1 chunks1 src nix).exec fs = .ok ((), fs1) → Holds fs1 nix ixFile →
      NodeIndex.NewNodeIndex ixFile = .ok ix → PassesMeet memory ix) :
    ∃ fs1 fs2 fs3 fs4 out, ∃ locs : Int64 → List Int64,
      (nodeindex inflate sched1 chunks1 src nix).exec fs = .ok ((), fs1) ∧
      (Rewrite.rewritenodes inflate scheds2 memory src nix rew).exec fs1 = .ok ((), fs2) ∧
      (wayindex inflate sched3 chunks3 shift rew wix).exec fs2 = .ok ((), fs3) ∧
      (relindex inflate sched4 n src wix rix).exec fs3 = .ok ((), fs4) ∧
      Holds fs4 rix out ∧
      IsRelIndex out ((allRelations blocks).map fun r => ⟨r.ID, (wayMembers r).map fun w => (w, locs w)⟩) ∧
      ∀ r ∈ allRelations blocks, ∀ w ∈ wayMembers r,
        PathFrom (Located blocks) blocks w (locs w) ∨ (locs w = [] ∧ ∀ x ∈ allWays blocks, x.ID ≠ w) := by
  obtain ⟨hnd, hpn⟩ := names
  simp only [List.nodup_cons, List.mem_cons, List.not_mem_nil, or_false, not_or, List.nodup_nil, and_true,
    not_false_eq_true] at hnd
  obtain ⟨⟨d1, d2, d3, d4, d5, d6⟩, ⟨d7, d8, d9, d10, d11⟩, ⟨d12, d13, d14, d15⟩, ⟨d16, d17, d18⟩, ⟨d19, d20⟩, d21⟩ := hnd
  obtain ⟨batches, fs1, ixFile, ix, a1, a2, a3, a4, a5, a6⟩ := nodeindex_any sched1 chunks1 hs hi src nix fs hin
  have hin1 : Holds fs1 src file := by
    obtain ⟨pos, hin⟩ := hin
    exact ⟨pos, (a6 src d1 d2).trans hin⟩
  obtain ⟨m, m1, m2, m3⟩ := hpass fs1 ixFile ix a3 a4 a5
  obtain ⟨bs, s1, s2⟩ := hs
  obtain ⟨cs, c1, c2⟩ := source_contents s2
  have hc : FileHas inflate waysDecoded file cs := ⟨bs, s1, c1⟩
  obtain ⟨fs2, file2, cs2, b1, b2, b3, b4, b5⟩ := rewrite_history blocks hi hd nix chunks1 fs fs1 a1 a2 a4 a5 inflate scheds2 hs2
    memory m m1 m2 m3 src rew hl hc (hsmall cs hc) fs1 hin1 a4
  obtain ⟨_, _, m', -, -, -, -, hframe⟩ := C48_any_run inflate scheds2 memory src nix rew fs1 fs2 b1
  obtain ⟨blocks', batches', fs3, wfile, w1, w2, w3, w4, w5, w6, w7, w8⟩ := wayindex_any sched3 hs3 chunks3 c2 b5 hw b3 b4
    rew wix fs2 b2
  have hne : allWays blocks' ≠ [] := by
    intro h0
    have := Rewrite.matches_length w1
    rw [h0] at this
    exact hw0 (List.length_eq_zero_iff.1 this.symm)
  have hids : (allWays blocks').map (·.ID) = (allWays blocks).map (·.ID) := by
    refine Rewrite.rooms_eq' ?_ w1
    rintro a b ⟨rs, -, rfl⟩
    rfl
  have hnd' : WaysNeverDown (allWays blocks') := by
    have h1 : ((allWays blocks).map (·.ID)).Pairwise fun a b => a.toInt ≤ b.toInt := List.pairwise_map.2 hwd
    rw [← hids] at h1
    rw [List.pairwise_map] at h1
    exact h1
  have hn63 : n < 2 ^ 63 := Nat.lt_of_le_of_lt hn2 (Nat.pow_lt_pow_right (by omega) (by have := hw.range; omega))
  obtain ⟨sent, fs4, out, locs, r1, r2, r3, r4, r5⟩ := C103_history shift blocks' w2 hnd' wix chunks3 fs2 fs3 w3 w4 w6 w7 blocks
    hr hr0 n hn hn63 (C103_passes_cover shift _ w2 hne n hn hn2) rix ⟨d20, fun p hp h => hpn p hp (by simp [← h])⟩ fs3 w6
  refine ⟨fs1, fs2, fs3, fs4, out, locs, a3, b1, w5, ?_, r3, r4, ?_⟩
  · unfold relindex
    rw [process_exec _ _ _ s1 ((works_source sched4 relReader RelIndex.work relWork_agrees s2).trans r1) fs3]
    · exact r2
    · obtain ⟨pos, hin1⟩ := hin1
      refine ⟨pos, ?_⟩
      rw [w8 src d4 d5, hframe src d3 fun p p1 p2 h => names2 p _ p1 p2 h.symm, hin1]
  · intro r hr w hw
    rcases r5 r hr w hw with ⟨x, hx, rfl, h⟩ | ⟨h, h2⟩
    · refine .inl ?_
      rw [h]
      exact path_from w1 hx
    · refine .inr ⟨h, fun x hx e => ?_⟩
      have hmem : x.ID ∈ (allWays blocks').map (·.ID) := by rw [hids]; exact List.mem_map_of_mem hx
      obtain ⟨y, hy, hye⟩ := List.mem_map.1 hmem
      exact h2 y hy (hye.trans e)

/-- C104: with no memory target there is one pass, which covers the index of any source with nodes. -/
theorem C104_no_target (inflate : Inflate) {file : List UInt8} {blocks : List (Option PrimitiveBlock)}
    (hs : Source inflate file blocks) (hi : AnyOrder blocks) (hn0 : allNodes blocks ≠ [])
    (sched : Block → Sched) (chunks : Nat → Nat) (src nix : String) (fs : FS) (hin : Holds fs src file) (fs1 : FS)
    (ixFile : List UInt8) (ix : NodeIndex.NodeIdx) (h1 : (nodeindex inflate sched chunks src nix).exec fs = .ok ((), fs1))
    (h2 : Holds fs1 nix ixFile) (h3 : NodeIndex.NewNodeIndex ixFile = .ok ix) :
    PassesMeet none ix ∧ PassesMade none ix := by
  obtain ⟨bs, s1, s2⟩ := hs
  obtain ⟨batches, fs', ixFile', ix', g1, g2, g3, g4, g5, g6, g7, g8, -⟩ := any_index blocks hi nix chunks fs
  have : (nodeindex inflate sched chunks src nix).exec fs = .ok ((), fs') := by
    unfold nodeindex
    rw [process_exec _ _ _ s1 ((works_source sched nodeReader NodeIndexer.work nodeWork_agrees s2).trans g1) fs hin]
    exact g2
  rw [h1] at this
  obtain ⟨-, rfl⟩ := Prod.mk.inj (Res.ok.inj this)
  obtain ⟨p1, h2⟩ := h2
  obtain ⟨p2, g3⟩ := g3
  rw [h2] at g3
  obtain ⟨rfl, -⟩ := File.mk.inj (Option.some.inj g3)
  rw [h3] at g4
  obtain rfl := Res.ok.inj g4
  have hel : ix.elements ≠ [] := by
    intro h0
    obtain ⟨x, xs, hx⟩ := List.exists_cons_of_ne_nil hn0
    have hmem : x ∈ allNodes blocks := by rw [hx]; simp
    have hid := hi.ids x hmem
    have := NodeIndexer.i64_nat (x := x.2.id) (by omega)
    obtain ⟨e, he, _⟩ := (g8 x.2.id.toUInt64 (NodeIndexer.locVal x.1 x.2)).2
      ⟨x, hmem, by omega, (NodeIndexer.nodeLocation_eq x.1 x.2).1⟩
    rw [h0] at he
    simp at he
  have hcover : PassesCover ix 1 := by
    rw [NodeIndex.passes_iff ix g6 g7 1 (by omega) (by omega)]
    refine ⟨ix.elements.getLast hel, List.getLast?_eq_some_getLast hel, ?_, ?_⟩
    · have := g5.nonempty _ (List.getLast_mem hel)
      omega
    · have := g5.slots _ (List.getLast_mem hel)
      omega
  refine ⟨⟨1, rfl, by decide, hcover⟩, ?_⟩
  obtain ⟨subs, q, -⟩ := hcover
  exact ⟨1, subs, rfl, by decide, q⟩

/-! ## Examples -/

theorem pass_not_src (p m : Nat) : RelIndex.makePassFilename "rew" p m ≠ "src" := by
  intro h
  have := congrArg (fun s => s.toList.head?) h
  unfold RelIndex.makePassFilename at this
  simp at this

/-- A file of a header and one block. -/
def singleFile (payload : List UInt8) : List UInt8 :=
  [0, 0, 0, 13, 10, 9, 79, 83, 77, 72, 101, 97, 100, 101, 114, 24, 3, 1, 2, 3,
   0, 0, 0, 11, 10, 7, 79, 83, 77, 68, 97, 116, 97, 24, 68] ++ ([10, 66] ++ payload)

/-- As `tinyBlock`, with the nodes in the order 5, 2, 3 and the ways in the order 11, 10. -/
def mixedPayload : List UInt8 :=
  [10, 2, 10, 0, 18, 20, 18, 18, 10, 3, 10, 5, 2, 66, 3, 40, 20, 40, 74, 6, 144, 3, 200, 1, 144, 3, 18, 18, 26, 7, 8, 11, 66,
   3, 4, 2, 2, 26, 7, 8, 10, 66, 3, 10, 0, 8, 18, 18, 34, 16, 8, 7, 74, 6, 20, 15, 194, 1, 175, 1, 82, 4, 1, 0, 1, 1]

/-- The block. -/
def mixedBlock : PrimitiveBlock :=
  ⟨none, some ⟨[[]]⟩,
    [⟨none, some ⟨[5, 2, 3], [20, 30, 50], [200, 300, 500], []⟩, [], [], [], []⟩,
     ⟨none, none, [⟨11, [], [], [2, 3, 4]⟩, ⟨10, [], [], [5, 5, 9]⟩], [], [], []⟩,
     ⟨none, none, [], [], [⟨7, [], [], [], [10, 2, 99, 11], [1, 0, 1, 1]⟩], []⟩], 100, 1000, 0, 0⟩

/-- As `tinyBlock`, with two versions of node 2 and two of way 10. -/
def versionsPayload : List UInt8 :=
  [10, 2, 10, 0, 18, 20, 18, 18, 10, 3, 4, 0, 2, 66, 3, 40, 20, 40, 74, 6, 144, 3, 200, 1, 144, 3, 18, 18, 26, 7, 8, 10, 66,
   3, 4, 2, 2, 26, 7, 8, 10, 66, 3, 10, 0, 8, 18, 18, 34, 16, 8, 7, 74, 6, 20, 15, 194, 1, 175, 1, 82, 4, 1, 0, 1, 1]

/-- The block. -/
def versionsBlock : PrimitiveBlock :=
  ⟨none, some ⟨[[]]⟩,
    [⟨none, some ⟨[2, 2, 3], [20, 30, 50], [200, 300, 500], []⟩, [], [], [], []⟩,
     ⟨none, none, [⟨10, [], [], [2, 3, 4]⟩, ⟨10, [], [], [5, 5, 9]⟩], [], [], []⟩,
     ⟨none, none, [], [], [⟨7, [], [], [], [10, 2, 99, 11], [1, 0, 1, 1]⟩], []⟩], 100, 1000, 0, 0⟩

theorem mixed_split : split (singleFile mixedPayload) = .ok
    [⟨0, ⟨[1, 2, 3], (singleFile mixedPayload).drop 20⟩, osmHeader⟩, ⟨1, ⟨[10, 66] ++ mixedPayload, []⟩, osmData⟩] := by
  decide +kernel

theorem versions_split : split (singleFile versionsPayload) = .ok
    [⟨0, ⟨[1, 2, 3], (singleFile versionsPayload).drop 20⟩, osmHeader⟩, ⟨1, ⟨[10, 66] ++ versionsPayload, []⟩, osmData⟩] := by
  decide +kernel

theorem mixed_source (inflate : Inflate) : Source inflate (singleFile mixedPayload) [none, some mixedBlock] := by
  refine ⟨_, mixed_split, .cons (.other _ (by decide)) (.cons (.data _ ⟨some ⟨mixedPayload, []⟩, none, none⟩ mixedPayload _ rfl
    (by decide +kernel) (.raw ⟨mixedPayload, []⟩ none none) (by decide +kernel)) .nil)⟩

theorem versions_source (inflate : Inflate) : Source inflate (singleFile versionsPayload) [none, some versionsBlock] := by
  refine ⟨_, versions_split, .cons (.other _ (by decide)) (.cons (.data _ ⟨some ⟨versionsPayload, []⟩, none, none⟩ versionsPayload _ rfl
    (by decide +kernel) (.raw ⟨versionsPayload, []⟩ none none) (by decide +kernel)) .nil)⟩

theorem single_small {payload : List UInt8} {view : PrimitiveBlock} (inflate : Inflate)
    (hsplit : split (singleFile payload) = .ok
      [⟨0, ⟨[1, 2, 3], (singleFile payload).drop 20⟩, osmHeader⟩, ⟨1, ⟨[10, 66] ++ payload, []⟩, osmData⟩])
    (hraw : rawOf inflate ⟨[], fun _ => ⟨1, false⟩⟩ ⟨1, ⟨[10, 66] ++ payload, []⟩, osmData⟩ = .ok ⟨payload, []⟩)
    (hv : (ReadPrimitiveBlock waysDecoded ⟨payload, []⟩ >>= fun pb => .ok (trimBlock pb)) = .ok view)
    (hlen : payload.length = 66) (hsm : SmallFile [.data view])
    (cs : List Content) (h : FileHas inflate waysDecoded (singleFile payload) cs) : SmallFile cs := by
  obtain ⟨bs, h1, h2⟩ := h
  rw [hsplit] at h1
  cases h1
  cases h2 with
  | @cons _ c1 _ _ m1 h2 =>
    cases h2 with
    | @cons _ c2 _ _ m2 h2 =>
      cases h2
      cases c1 with
      | data b => exact absurd m1.1 (show ¬ osmHeader = osmData by decide)
      | other _ _ =>
        cases c2 with
        | other _ _ => exact absurd rfl m2.2.2
        | data b =>
          obtain ⟨raw, pb, r1, r2, r3⟩ := m2.2 1 [] ⟨[], fun _ => ⟨1, false⟩⟩ (by unfold Slice.Fits; simp [hlen]) (by decide)
          have r1 := Res.ok.inj (hraw.symm.trans r1)
          subst r1
          rw [r2, Res.ok_bind, r3] at hv
          cases hv
          refine ⟨?_, by simp⟩
          intro b hb
          simp only [List.mem_cons, List.not_mem_nil, or_false, reduceCtorEq, false_or, Content.data.injEq] at hb
          subst hb
          exact hsm.1 _ (by simp)

theorem mixed_small (inflate : Inflate) (cs : List Content)
    (h : FileHas inflate waysDecoded (singleFile mixedPayload) cs) : SmallFile cs :=
  single_small (view := ⟨some ⟨[10, 0], []⟩, none,
    [⟨some ⟨[10, 3, 10, 5, 2, 66, 3, 40, 20, 40, 74, 6, 144, 3, 200, 1, 144, 3], []⟩, none, [], [], [], []⟩,
     ⟨none, none, [⟨11, [], [], [2, 3, 4]⟩, ⟨10, [], [], [5, 5, 9]⟩], [], [], []⟩,
     ⟨none, none, [], [], [], [⟨[8, 7, 74, 6, 20, 15, 194, 1, 175, 1, 82, 4, 1, 0, 1, 1], []⟩]⟩], 100, 1000, 0, 0⟩)
    inflate mixed_split (by rfl) (by decide +kernel) (by decide) ⟨by simp only [List.mem_singleton, Content.data.injEq]; rintro b rfl; exact ⟨by decide +kernel, by decide +kernel⟩, by simp⟩ cs h

theorem versions_small (inflate : Inflate) (cs : List Content)
    (h : FileHas inflate waysDecoded (singleFile versionsPayload) cs) : SmallFile cs :=
  single_small (view := ⟨some ⟨[10, 0], []⟩, none,
    [⟨some ⟨[10, 3, 4, 0, 2, 66, 3, 40, 20, 40, 74, 6, 144, 3, 200, 1, 144, 3], []⟩, none, [], [], [], []⟩,
     ⟨none, none, [⟨10, [], [], [2, 3, 4]⟩, ⟨10, [], [], [5, 5, 9]⟩], [], [], []⟩,
     ⟨none, none, [], [], [], [⟨[8, 7, 74, 6, 20, 15, 194, 1, 175, 1, 82, 4, 1, 0, 1, 1], []⟩]⟩], 100, 1000, 0, 0⟩)
    inflate versions_split (by rfl) (by decide +kernel) (by decide) ⟨by simp only [List.mem_singleton, Content.data.injEq]; rintro b rfl; exact ⟨by decide +kernel, by decide +kernel⟩, by simp⟩ cs h

theorem mixed_any : AnyOrder [none, some mixedBlock] := by
  constructor
  · intro pb hpb
    simp only [List.mem_cons, Option.some.injEq, reduceCtorEq, List.not_mem_nil, or_false, false_or] at hpb
    subst hpb
    intro pg hpg dn hdn
    simp only [mixedBlock, List.mem_cons, List.not_mem_nil, or_false] at hpg
    rcases hpg with rfl | rfl | rfl <;> cases hdn
    exact ⟨rfl, rfl⟩
  · decide +kernel
  · intro pb hpb
    simp only [List.mem_cons, Option.some.injEq, reduceCtorEq, List.not_mem_nil, or_false, false_or] at hpb
    subst hpb
    decide +kernel
  · decide +kernel

theorem versions_any : AnyOrder [none, some versionsBlock] := by
  constructor
  · intro pb hpb
    simp only [List.mem_cons, Option.some.injEq, reduceCtorEq, List.not_mem_nil, or_false, false_or] at hpb
    subst hpb
    intro pg hpg dn hdn
    simp only [versionsBlock, List.mem_cons, List.not_mem_nil, or_false] at hpg
    rcases hpg with rfl | rfl | rfl <;> cases hdn
    exact ⟨rfl, rfl⟩
  · decide +kernel
  · intro pb hpb
    simp only [List.mem_cons, Option.some.injEq, reduceCtorEq, List.not_mem_nil, or_false, false_or] at hpb
    subst hpb
    decide +kernel
  · decide +kernel

/-- The hypotheses of `C104_sound` hold for a file with nodes 5, 2, 3 and ways 11, 10, with two passes over the way index. -/
example (inflate : Inflate) (sched1 sched3 sched4 : Block → Sched) (scheds2 : Nat → Block → Sched)
    (hs2 : ∀ i b, (scheds2 i b).pooled.length < 2 ^ 63) (hs3 : ∀ b, (sched3 b).pooled.length < 2 ^ 63)
    (chunks1 chunks3 : Nat → Nat) (fs : FS) (hin : Holds fs "src" (singleFile mixedPayload)) :
    ∃ fs1 fs2 fs3 fs4 out l10 l99 l11,
      (nodeindex inflate sched1 chunks1 "src" "nix").exec fs = .ok ((), fs1) ∧
      (Rewrite.rewritenodes inflate scheds2 none "src" "nix" "rew").exec fs1 = .ok ((), fs2) ∧
      (wayindex inflate sched3 chunks3 3 "rew" "wix").exec fs2 = .ok ((), fs3) ∧
      (relindex inflate sched4 2 "src" "wix" "rix").exec fs3 = .ok ((), fs4) ∧
      Holds fs4 "rix" out ∧ IsRelIndex out [⟨7, [(10, l10), (99, l99), (11, l11)]⟩] := by
  obtain ⟨fs1, fs2, fs3, fs4, out, locs, a, b, c, d, e, f, -⟩ := C104_sound inflate (mixed_source inflate) (by decide +kernel)
    mixed_any (mixed_small inflate) (shift := 3)
    ⟨by decide, by decide +kernel, by decide +kernel, by decide +kernel⟩ (by decide +kernel)
    ⟨by decide +kernel, by decide +kernel, by decide +kernel⟩ (by decide +kernel) (n := 2) (by decide) (by decide)
    (src := "src") (nix := "nix") (rew := "rew") (wix := "wix") (rix := "rix")
    ⟨by decide +kernel, by decide +kernel⟩ (fun p m _ _ => pass_not_src p m) sched1 sched3 sched4 scheds2 hs2 hs3 chunks1
    chunks3 fs hin none (fun fs1 ixFile ix h1 h2 h3 => (C104_no_target inflate (mixed_source inflate) mixed_any
      (by decide +kernel) sched1 chunks1 "src" "nix" fs hin fs1 ixFile ix h1 h2 h3).2)
  exact ⟨fs1, fs2, fs3, fs4, out, _, _, _, a, b, c, d, e, f⟩

/-- The hypotheses of `C104_history` hold for a file with two versions of node 2 and two of way 10. -/
example (inflate : Inflate) (sched1 sched3 sched4 : Block → Sched) (scheds2 : Nat → Block → Sched)
    (hs2 : ∀ i b, (scheds2 i b).pooled.length < 2 ^ 63) (hs3 : ∀ b, (sched3 b).pooled.length < 2 ^ 63)
    (chunks1 chunks3 : Nat → Nat) (fs : FS) (hin : Holds fs "src" (singleFile versionsPayload)) :
    ∃ fs1 fs2 fs3 fs4 out l10,
      (nodeindex inflate sched1 chunks1 "src" "nix").exec fs = .ok ((), fs1) ∧
      (Rewrite.rewritenodes inflate scheds2 none "src" "nix" "rew").exec fs1 = .ok ((), fs2) ∧
      (wayindex inflate sched3 chunks3 3 "rew" "wix").exec fs2 = .ok ((), fs3) ∧
      (relindex inflate sched4 2 "src" "wix" "rix").exec fs3 = .ok ((), fs4) ∧
      Holds fs4 "rix" out ∧ IsRelIndex out [⟨7, [(10, l10), (99, []), (11, [])]⟩] ∧
      PathFrom (Located [none, some versionsBlock]) [none, some versionsBlock] 10 l10 := by
  obtain ⟨fs1, fs2, fs3, fs4, out, locs, a, b, c, d, e, f, g⟩ := C104_history inflate (versions_source inflate)
    (by decide +kernel) versions_any (by unfold NeverDown; decide +kernel) (versions_small inflate) (shift := 3)
    ⟨by decide, by decide +kernel, by decide +kernel, by decide +kernel⟩ (by unfold WaysNeverDown; decide +kernel)
    (by decide +kernel)
    ⟨by decide +kernel, by decide +kernel, by decide +kernel⟩ (by decide +kernel) (n := 2) (by decide) (by decide)
    (src := "src") (nix := "nix") (rew := "rew") (wix := "wix") (rix := "rix")
    ⟨by decide +kernel, by decide +kernel⟩ (fun p m _ _ => pass_not_src p m) sched1 sched3 sched4 scheds2 hs2 hs3 chunks1
    chunks3 fs hin none (fun fs1 ixFile ix h1 h2 h3 => (C104_no_target inflate (versions_source inflate) versions_any
      (by decide +kernel) sched1 chunks1 "src" "nix" fs hin fs1 ixFile ix h1 h2 h3).1)
  have hways : (allWays [none, some versionsBlock]).map (·.ID) = [10, 10] := by decide +kernel
  have gone : ∀ w : Int64, w ≠ 10 → ∀ x ∈ allWays [none, some versionsBlock], x.ID ≠ w := by
    intro w hw x hx
    have := List.mem_map_of_mem (f := fun x : Way => x.ID) hx
    rw [hways] at this
    simp at this
    rw [this]
    exact fun h => hw h.symm
  have empty : ∀ w ∈ [10, 99, (11 : Int64)], w ≠ 10 → locs w = [] := by
    intro w hw hne
    rcases g _ (List.mem_cons_self ..) w hw with ⟨x, hx, h, -⟩ | ⟨h, -⟩
    · exact absurd h (gone w hne x hx)
    · exact h
  have h99 := empty 99 (by decide) (by decide)
  have h11 := empty 11 (by decide) (by decide)
  refine ⟨fs1, fs2, fs3, fs4, out, locs 10, a, b, c, d, e, ?_, ?_⟩
  · have : (allRelations [none, some versionsBlock]).map (fun r => (⟨r.ID, (wayMembers r).map fun w => (w, locs w)⟩ : RelGeo)) =
        [⟨7, [(10, locs 10), (99, locs 99), (11, locs 11)]⟩] := rfl
    rw [this, h99, h11] at f
    exact f
  · rcases g _ (List.mem_cons_self ..) 10 (by decide +kernel) with h | ⟨-, h⟩
    · exact h
    · obtain ⟨x, hx, hx2⟩ := List.mem_map.1 (show (10 : Int64) ∈ (allWays [none, some versionsBlock]).map (·.ID) by
        rw [hways]; simp)
      exact absurd hx2 (h x hx)

end Osm.Props
