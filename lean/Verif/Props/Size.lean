import Verif.Props.NodeIndexer
import Verif.Props.WayIndex
import Verif.Lemmas.PipelineOrder
import Verif.Props.Cost

/-!
# C90: the sizes of the index files
-/

namespace Osm.Props
open Osm Osm.T Osm.Spec

/-! ## Node index -/

section
open NodeIndexer

/-- The number of nodes in a block: the ids in its dense sections. -/
def blockNodes (pb : PrimitiveBlock) : Nat :=
  (pb.PrimitiveGroup.map fun g => match g.Dense with | none => 0 | some dn => dn.Id.length).sum

/-- The number of nodes in a block, or header. -/
def nodesOf : Option PrimitiveBlock → Nat
  | none => 0
  | some pb => blockNodes pb

/-- The number of nodes in the blocks of a file (`none`: the header). -/
def nodesIn (blocks : List (Option PrimitiveBlock)) : Nat := (blocks.map nodesOf).sum

/-- The ranges sent for a block. -/
def rangesIn : Option ElementBatch → List IndexRange
  | none => []
  | some b => b.ranges

/-- The locations sent for a block. -/
def locsIn : Option ElementBatch → List Int64
  | none => []
  | some b => b.locations

/-- After `n` nodes there are at most `n` ranges, and at most `2 * n` ranges and locations. -/
def Small (st : State) (n : Nat) : Prop := st.flush.length ≤ n ∧ st.flush.length + st.locs.length ≤ 2 * n

theorem small_add {pb : PrimitiveBlock} {dn : DenseNodes} {st st' : State} {idx n : Nat} {id : Int64}
    (h : Small st n) (e : addNode pb dn st idx id = .ok st') : Small st' (n + 1) := by
  obtain ⟨h1, h2⟩ := h
  unfold addNode at e
  dsimp only at e
  obtain ⟨lat, -, e⟩ := Res.bind_eq_ok.1 e
  obtain ⟨lon, -, e⟩ := Res.bind_eq_ok.1 e
  obtain ⟨l, -, e⟩ := Res.bind_eq_ok.1 e
  obtain rfl := Res.ok.inj e
  have key : (st.addId id.toUInt64).flush.length ≤ n + 1 ∧
      (st.addId id.toUInt64).flush.length + (st.addId id.toUInt64).locs.length ≤ 2 * n + 1 := by
    unfold State.addId
    split
    · have : (State.flush { st with lastId := id.toUInt64 }).length = st.flush.length := by
        unfold State.flush; dsimp only; split <;> simp
      rw [this]; dsimp only; omega
    · split
      · have : (State.flush { st with locs := st.locs ++ [0], lastId := id.toUInt64 }).length = st.flush.length := by
          unfold State.flush; dsimp only; split <;> simp
        rw [this]; simp only [List.length_append, List.length_cons, List.length_nil]; omega
      · have : (State.flush { st with ranges := st.flush, firstId := id.toUInt64, lastId := id.toUInt64 }).length ≤
            st.flush.length + 1 := by
          rw [show ∀ s : State, s.flush = if s.firstId ≠ notAssigned then s.ranges ++ [⟨s.firstId, s.lastId⟩] else s.ranges
            from fun _ => rfl]
          dsimp only
          split
          · simp
          · omega
        dsimp only at this ⊢; omega
  have hf : (State.flush { st.addId id.toUInt64 with locs := (st.addId id.toUInt64).locs ++ [l] }) =
      (st.addId id.toUInt64).flush := rfl
  refine ⟨?_, ?_⟩
  · rw [hf]; exact key.1
  · rw [hf]; simp only [List.length_append, List.length_cons, List.length_nil]; omega

theorem small_nodes {pb : PrimitiveBlock} {dn : DenseNodes} : ∀ (ids : List Int64) (st st' : State) (idx n : Nat),
    Small st n → addNodes pb dn st idx ids = .ok st' → Small st' (n + ids.length) := by
  intro ids
  induction ids with
  | nil => intro st st' idx n h e; obtain rfl := Res.ok.inj e; exact h
  | cons id ids ih =>
    intro st st' idx n h e
    unfold addNodes at e
    obtain ⟨s, e1, e2⟩ := Res.bind_eq_ok.1 e
    have := ih s st' _ _ (small_add h e1) e2
    rw [show n + (id :: ids).length = n + 1 + ids.length by simp only [List.length_cons]; omega]
    exact this

theorem small_groups {pb : PrimitiveBlock} : ∀ (gs : List T.PrimitiveGroup) (st st' : State) (n : Nat),
    Small st n → foldRes (addGroup pb) st gs = .ok st' →
    Small st' (n + (gs.map fun g => match g.Dense with | none => 0 | some dn => dn.Id.length).sum) := by
  intro gs
  induction gs with
  | nil => intro st st' n h e; obtain rfl := Res.ok.inj e; exact h
  | cons g gs ih =>
    intro st st' n h e
    unfold foldRes at e
    obtain ⟨s, e1, e2⟩ := Res.bind_eq_ok.1 e
    rw [List.map_cons, List.sum_cons, ← Nat.add_assoc]
    refine ih s st' _ ?_ e2
    unfold addGroup at e1
    cases hd : g.Dense with
    | none => rw [hd] at e1; obtain rfl := Res.ok.inj e1; exact h
    | some dn => rw [hd] at e1; exact small_nodes _ _ _ _ _ h e1

/-- What is written for the blocks. -/
theorem small_all : ∀ (blocks : List (Option PrimitiveBlock)) (bs : List (Option ElementBatch)),
    mapRes work blocks = .ok bs →
    (bs.flatMap rangesIn).length ≤ nodesIn blocks ∧
    (bs.flatMap rangesIn).length +
      (bs.flatMap locsIn).length ≤ 2 * nodesIn blocks := by
  intro blocks
  induction blocks with
  | nil => intro bs e; obtain rfl := Res.ok.inj e; simp
  | cons b blocks ih =>
    intro bs e
    unfold mapRes at e
    obtain ⟨x, e1, e⟩ := Res.bind_eq_ok.1 e
    obtain ⟨xs, e2, e⟩ := Res.bind_eq_ok.1 e
    obtain rfl := Res.ok.inj e
    obtain ⟨i1, i2⟩ := ih xs e2
    have hn : nodesIn (b :: blocks) = nodesOf b + nodesIn blocks := rfl
    rw [hn]
    simp only [List.flatMap_cons, List.length_append]
    cases b with
    | none =>
      obtain rfl := Res.ok.inj e1
      simp only [rangesIn, locsIn, nodesOf, List.length_nil, Nat.zero_add]
      exact ⟨i1, i2⟩
    | some pb =>
      unfold work indexBlock at e1
      dsimp only at e1
      obtain ⟨st, e3, e4⟩ := Res.bind_eq_ok.1 e1
      obtain rfl := Res.ok.inj e4
      obtain ⟨s1, s2⟩ := small_groups _ _ _ 0 (by unfold Small; decide) e3
      rw [Nat.zero_add] at s1 s2
      have hb : (pb.PrimitiveGroup.map fun g => match g.Dense with | none => 0 | some dn => dn.Id.length).sum =
        blockNodes pb := rfl
      rw [hb] at s1 s2
      by_cases hf : st.flush = []
      · rw [if_pos hf]
        simp only [List.length_nil, rangesIn, locsIn, nodesOf]
        omega
      · rw [if_neg hf]
        simp only [rangesIn, locsIn, nodesOf]
        omega

/-- C90: the index of a file with `n` nodes, whatever they are, has at most `16 + 24 * n` bytes. -/
theorem C90_node_index (blocks : List (Option PrimitiveBlock)) (bs : List (Option ElementBatch)) (out : String)
    (sched : Nat → Nat) (fs fs' : FS) (hw : mapRes work blocks = .ok bs)
    (h : (Output out sched never bs).exec fs = .ok ((), fs')) :
    ∃ file, Holds fs' out file ∧ 16 ≤ file.length ∧ file.length ≤ 16 + 24 * nodesIn blocks := by
  obtain ⟨es, h1, h2, -⟩ := C34_file_layout out sched bs fs fs' h
  refine ⟨_, h2, ?_⟩
  obtain ⟨s1, s2⟩ := small_all blocks bs hw
  have l1 : es.length = (bs.flatMap rangesIn).length := by
    have hm : es.map (·.baseId) = (bs.flatMap rangesIn).map (·.first) := by
      rw [List.map_flatMap, h1]
      congr 1; funext b
      cases b <;> rfl
    have := congrArg List.length hm
    rw [List.length_map, List.length_map] at this
    exact this
  have l2 : ∀ es : List NodeIndex.IndexElement,
      (es.flatMap fun e => le64 e.baseId ++ le64 e.countOffset).length = 16 * es.length := by
    intro es
    induction es with
    | nil => rfl
    | cons e es ih => rw [List.flatMap_cons, List.length_append, ih, List.length_append, List.length_cons]
                      simp only [le64, List.length_cons, List.length_nil]; omega
  have l3 : ∀ ls : List Int64, (ls.flatMap fun l => le64 l.toUInt64).length = 8 * ls.length := by
    intro ls
    induction ls with
    | nil => rfl
    | cons e es ih => rw [List.flatMap_cons, List.length_append, ih, List.length_cons]
                      simp only [le64, List.length_cons, List.length_nil]; omega
  have l4 : ∀ f : Option ElementBatch → List UInt8, (∀ b, f b = (locsIn b).flatMap fun l => le64 l.toUInt64) →
      (bs.flatMap f).length = 8 * (bs.flatMap locsIn).length := by
    intro f hf
    rw [← l3, List.flatMap_assoc]
    congr 2; funext b
    exact hf b
  have l5 : ∀ w, (le64 w).length = 8 := fun w => rfl
  rw [List.length_append, List.length_append, List.length_append, l2, l4 _ (fun b => by cases b <;> rfl), l1, l5, l5]
  omega

/-- The size of the index written for the blocks, starting from no files. -/
def sizeFor (blocks : List (Option PrimitiveBlock)) : Option Nat :=
  match mapRes work blocks with
  | .ok bs => match (Output "x" (fun _ => 3) never bs).exec (fun _ => none) with
    | .ok r => (r.2 "x").map (·.data.length)
    | _ => none
  | _ => none

/-- The bound is met by nodes far from each other: two nodes, 64 bytes; neighbours take less: 48 bytes; and a gap of one
costs as much as a location: 56 bytes. -/
example : sizeFor [some (exampleBlock [10, 20])] = some 64 ∧ sizeFor [some (exampleBlock [10, 11])] = some 48 ∧
    sizeFor [none, some (exampleBlock [10, 12])] = some 56 ∧ nodesIn [none, some (exampleBlock [10, 20])] = 2 := by
  decide +kernel

/-- C89: in any part of the index of a file with fewer than `2 ^ k` nodes, a lookup reads at most `k + 2` ranges. -/
theorem C89_node_index (blocks : List (Option PrimitiveBlock)) (bs : List (Option ElementBatch)) (out : String)
    (sched : Nat → Nat) (fs fs' : FS) (hw : mapRes work blocks = .ok bs)
    (h : (Output out sched never bs).exec fs = .ok ((), fs')) (k : Nat) (hk : nodesIn blocks < 2 ^ k) (h62 : k ≤ 62)
    (file : List UInt8) (hf : Holds fs' out file) (p n : UInt64) (si : NodeIndex.SubIdx)
    (hsi : (NodeIndex.NewNodeIndex file >>= fun ix => ix.SubIndex p n) = .ok si) (id : UInt64) (hint : Int) :
    (Cost.Node.findNode si id hint).1 = si.findNode id hint ∧ (Cost.Node.findNode si id hint).2.length ≤ k + 2 := by
  refine ⟨C89_node_same si id hint, C89_node_reads si id hint k ?_⟩
  obtain ⟨es, h1, -, -, -, h5⟩ := C34_file_layout out sched bs fs fs' h
  obtain ⟨s1, -⟩ := small_all blocks bs hw
  have hm : es.map (·.baseId) = (bs.flatMap rangesIn).map (·.first) := by
    rw [List.map_flatMap, h1]
    congr 1; funext b
    cases b <;> rfl
  have l1 := congrArg List.length hm
  rw [List.length_map, List.length_map] at l1
  have h62' : 2 ^ k ≤ 2 ^ 62 := Nat.pow_le_pow_right (by decide) h62
  rw [h5 (by omega) file hf, Res.ok_bind] at hsi
  unfold NodeIndex.NodeIdx.SubIndex at hsi
  split at hsi
  · cases hsi
  · dsimp only at hsi
    split at hsi
    · cases hsi
    · obtain ⟨l, -, hsi⟩ := Res.bind_eq_ok.1 hsi
      obtain rfl := Res.ok.inj hsi
      dsimp only
      rw [List.length_drop, List.length_take]
      omega

end

/-! ## Way index -/

section
open WayIndexer

/-- The number of refs of the ways. -/
def refsIn (ws : List Way) : Nat := (ws.map fun w => w.Refs.length).sum

theorem encodeDeltas_length (vs : List Int64) : ∀ (buf : List UInt8) (last : Int64),
    (Pb.encodeDeltas buf last vs).length ≤ buf.length + 10 * vs.length := by
  induction vs with
  | nil => intro buf last; exact Nat.le_refl _
  | cons v vs ih =>
    intro buf last
    unfold Pb.encodeDeltas
    have := ih (Pb.EncodeVarInt buf (Pb.EncodeZigZag (v - last))) v
    rw [Pb.encodeVarInt_eq, List.length_append] at this
    have h10 := Pb.leb128_length_le10 (n := (Pb.EncodeZigZag (v - last)).toNat) (UInt64.toNat_lt _)
    rw [Pb.encodeVarInt_eq]
    simp only [List.length_cons]
    omega

/-- What the worker does for one way. -/
theorem addWay_size {shift amt : Int64} (ha : 1 ≤ amt.toInt) {st st' : IndexElement} {w : Way}
    (e : addWay shift amt st w = .ok st') :
    st'.blocks.length = st.blocks.length + 1 ∧ st.locations.length + 2 ≤ st'.locations.length ∧
    st'.locations.length ≤ st.locations.length + 10 * w.Refs.length + 1 + amt.toInt.toNat := by
  unfold addWay at e
  obtain ⟨o, -, e⟩ := Res.bind_eq_ok.1 e
  obtain ⟨d, -, e⟩ := Res.bind_eq_ok.1 e
  obtain ⟨ls, e1, e⟩ := Res.bind_eq_ok.1 e
  obtain rfl := Res.ok.inj e
  have hlt : amt.toInt < 2 ^ 63 := Int64.toInt_lt amt
  obtain ⟨k, p1, p2, p3, -⟩ := C39_padding (st.locations ++ Pb.EncodeS64PackedDeltaZero [] (filterRefs 0 w.Refs))
    amt.toInt.toNat (by omega) (by omega)
  rw [show ((amt.toInt.toNat : Nat) : Int) = amt.toInt by omega, e1] at p1
  obtain rfl := Res.ok.inj p1
  have h1 := encodeDeltas_length (filterRefs 0 w.Refs) [] 0
  have h2 : (filterRefs 0 w.Refs).length ≤ w.Refs.length := by
    have := (C40_refs_spec w).2.1.length_le
    rw [← filterRefs_eq] at this
    exact this
  unfold Pb.EncodeS64PackedDeltaZero
  simp only [List.length_append, List.length_cons, List.length_nil, List.length_replicate, Nat.zero_add] at h1 ⊢
  refine ⟨trivial, ?_, ?_⟩ <;> omega

theorem addWays_size {shift amt : Int64} (ha : 1 ≤ amt.toInt) : ∀ (ws : List Way) (st st' : IndexElement),
    foldRes (addWay shift amt) st ws = .ok st' →
    st'.blocks.length = st.blocks.length + ws.length ∧ st.locations.length + 2 * ws.length ≤ st'.locations.length ∧
    st'.locations.length ≤ st.locations.length + 10 * refsIn ws + (1 + amt.toInt.toNat) * ws.length := by
  intro ws
  induction ws with
  | nil => intro st st' e; obtain rfl := Res.ok.inj e; simp [refsIn]
  | cons w ws ih =>
    intro st st' e
    unfold foldRes at e
    obtain ⟨s, e1, e2⟩ := Res.bind_eq_ok.1 e
    obtain ⟨a1, a2, a3⟩ := addWay_size ha e1
    obtain ⟨b1, b2, b3⟩ := ih s st' e2
    have hr : refsIn (w :: ws) = w.Refs.length + refsIn ws := rfl
    rw [hr, List.length_cons, Nat.mul_add, Nat.mul_add, Nat.mul_add]
    omega

/-- The entries sent for a block. -/
def entriesIn : Option IndexElement → List UInt64
  | none => []
  | some b => b.blocks

/-- The packed refs sent for a block. -/
def packedIn : Option IndexElement → List UInt8
  | none => []
  | some b => b.locations

theorem ways_size {shift amt : Int64} (ha : 1 ≤ amt.toInt) : ∀ (blocks : List (Option PrimitiveBlock))
    (bs : List (Option IndexElement)), mapRes (work shift amt) blocks = .ok bs →
    (bs.flatMap entriesIn).length = (allWays blocks).length ∧ 2 * (allWays blocks).length ≤ (bs.flatMap packedIn).length ∧
    (bs.flatMap packedIn).length ≤ 10 * refsIn (allWays blocks) + (1 + amt.toInt.toNat) * (allWays blocks).length := by
  intro blocks
  induction blocks with
  | nil => intro bs e; obtain rfl := Res.ok.inj e; simp [allWays, refsIn]
  | cons b blocks ih =>
    intro bs e
    unfold mapRes at e
    obtain ⟨x, e1, e⟩ := Res.bind_eq_ok.1 e
    obtain ⟨xs, e2, e⟩ := Res.bind_eq_ok.1 e
    obtain rfl := Res.ok.inj e
    obtain ⟨i1, i2, i3⟩ := ih xs e2
    cases b with
    | none =>
      obtain rfl := Res.ok.inj e1
      exact ⟨i1, i2, i3⟩
    | some pb =>
      unfold work indexBlock at e1
      dsimp only at e1
      obtain ⟨st, e3, e4⟩ := Res.bind_eq_ok.1 e1
      obtain rfl := Res.ok.inj e4
      rw [foldRes_flatMap (addWay shift amt) (fun pg : T.PrimitiveGroup => pg.Ways)] at e3
      obtain ⟨s1, s2, s3⟩ := addWays_size ha _ _ _ e3
      have hall : allWays (some pb :: blocks) = pb.PrimitiveGroup.flatMap (fun pg => pg.Ways) ++ allWays blocks := rfl
      have hr : ∀ a b, refsIn (a ++ b) = refsIn a + refsIn b := by
        intro a b; unfold refsIn; rw [List.map_append, List.sum_append]
      rw [hall, List.length_append, hr, Nat.mul_add, Nat.mul_add, Nat.mul_add]
      simp only [List.flatMap_cons, List.length_append]
      simp only [List.length_nil, Nat.zero_add] at s1 s2 s3
      by_cases hf : st.blocks = []
      · rw [if_pos hf]
        rw [hf] at s1
        simp only [List.length_nil, entriesIn, packedIn] at s1 ⊢
        omega
      · rw [if_neg hf]
        simp only [entriesIn, packedIn]
        omega

theorem batches_size (shift : Int64) : ∀ (bs : List (Option IndexElement)) (count len : Int64) (r : Int64 × List UInt64 × List UInt8),
    batches shift count len bs = .ok r → r.2.1.length = (bs.flatMap entriesIn).length ∧ r.2.2 = bs.flatMap packedIn := by
  intro bs
  induction bs with
  | nil => intro count len r e; obtain rfl := Res.ok.inj e; exact ⟨rfl, rfl⟩
  | cons b bs ih =>
    intro count len r e
    cases b with
    | none => unfold batches at e; exact ih _ _ _ e
    | some b =>
      unfold batches at e
      obtain ⟨ws, e1, e⟩ := Res.bind_eq_ok.1 e
      obtain ⟨n, e2, e⟩ := Res.bind_eq_ok.1 e
      obtain ⟨r', e3, e⟩ := Res.bind_eq_ok.1 e
      obtain rfl := Res.ok.inj e
      obtain ⟨i1, i2⟩ := ih _ _ _ e3
      have hl : ws.length = b.blocks.length := by
        unfold batchWords at e1
        exact Pbf.mapRes_length e1
      refine ⟨?_, ?_⟩
      · simp only [List.flatMap_cons, List.length_append, entriesIn, i1, hl]
      · simp only [List.flatMap_cons, packedIn, i2]

/-- C90: the index of a file with `n` ways which have `r` refs in all, whatever they are, has at least `16 + 10 * n` and at
most `16 + (9 + 2 ^ shift) * n + 10 * r` bytes. -/
theorem C90_way_index (shift : Int64) (hs : 0 ≤ shift.toInt ∧ shift.toInt < 62) (blocks : List (Option PrimitiveBlock))
    (bs : List (Option IndexElement)) (out : String) (sched : Nat → Nat) (fs fs' : FS)
    (hw : workAll shift blocks = .ok bs) (h : (Output out shift sched never bs).exec fs = .ok ((), fs')) :
    ∃ file, Holds fs' out file ∧ 16 + 10 * (allWays blocks).length ≤ file.length ∧
      file.length ≤ 16 + (9 + 2 ^ shift.toInt.toNat) * (allWays blocks).length + 10 * refsIn (allWays blocks) := by
  unfold workAll at hw
  obtain ⟨amt, ha, hw⟩ := Res.bind_eq_ok.1 hw
  obtain ⟨amt', e1, e2⟩ := amt_ok shift hs
  rw [ha] at e1
  obtain rfl := Res.ok.inj e1
  obtain ⟨s1, s2, s3⟩ := ways_size (by rw [e2]; have := Nat.two_pow_pos shift.toInt.toNat; omega) blocks bs hw
  have hspec := loopSpec out (out ++ ".loc.tmp") (tmp_ne out) shift bs 0 0
  obtain ⟨r1, r2, r3⟩ := withHeader_exec out sched never _ _ hspec (header shift) (header_length shift) fs
  rw [output_shape] at h
  cases hb : batches shift 0 0 bs with
  | panic => rw [r2 (by unfold batchBytes; rw [hb]; rfl)] at h; cases h
  | hang => rw [r3 (by unfold batchBytes; rw [hb]; rfl)] at h; cases h
  | ok r =>
    obtain ⟨c, ws, ls⟩ := r
    obtain ⟨b1, b2⟩ := batches_size shift bs _ _ _ hb
    obtain ⟨fs2, m, e1, ⟨pos, e3⟩, -, -, e5⟩ := r1 c _ _ (by unfold batchBytes; rw [hb]; rfl)
    rw [List.take_of_length_le (e5.1 fun _ => rfl)] at e3
    rw [e1] at h
    simp only [Res.ok.injEq, Prod.mk.injEq, true_and] at h
    subst h
    refine ⟨_, ⟨pos, e3⟩, ?_⟩
    dsimp only at b1 b2
    rw [List.length_append, List.length_append, header_length, bytesOf_length]
    dsimp only
    rw [b2, b1, s1]
    rw [e2, Int.toNat_natCast] at s3
    rw [Nat.add_mul] at s3 ⊢
    omega

/-- The size of the way index written for the blocks, starting from no files. -/
def waySizeFor (shift : Int64) (blocks : List (Option PrimitiveBlock)) : Option Nat :=
  match workAll shift blocks with
  | .ok bs => match (Output "x" shift (fun _ => 3) never bs).exec (fun _ => none) with
    | .ok r => (r.2 "x").map (·.data.length)
    | _ => none
  | _ => none

/-- A block with two ways. -/
def twoWays : PrimitiveBlock :=
  { PrimitiveBlock.fresh with PrimitiveGroup := [{ T.PrimitiveGroup.zero with
      Ways := [⟨5, [], [], [2, 3]⟩, ⟨9, [], [], [0x4000000000000000, -0x4000000000000000, 7]⟩] }] }

/-- With blocks of 8 bytes the refs of the first way take one block, those of the second four. -/
example : waySizeFor 3 [none, some twoWays] = some (16 + 16 + 8 + 32) ∧
    16 + (9 + 2 ^ 3) * (allWays [none, some twoWays]).length + 10 * refsIn (allWays [none, some twoWays]) = 100 := by
  decide +kernel

end

end Osm.Props
