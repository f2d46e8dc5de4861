import Verif.Lemmas.NodeIndexer

/-! # The node indexer's output file -/

namespace Osm.NodeIndexer
open Osm Osm.T Osm.NodeIndex Osm.Spec

/-- What the writer's loop writes: element count, index words, locations. -/
def batches : UInt64 → UInt64 → List (Option ElementBatch) → Res (UInt64 × List UInt64 × List Int64)
  | count, _, [] => .ok (count, [], [])
  | count, last, none :: bs => batches count last bs
  | count, last, some b :: bs => do
    let ws ← batchWords last b.ranges
    let r ← batches (count + UInt64.ofNat b.ranges.length) ws.2 bs
    .ok (r.1, ws.1 ++ r.2.1, b.locations ++ r.2.2)

/-- The same as bytes. -/
def batchBytes (count last : UInt64) (bs : List (Option ElementBatch)) :
    Res (UInt64 × List UInt8 × List UInt8) :=
  batches count last bs >>= fun r => .ok (r.1, bytesOf r.2.1, Int64SliceAsByteSlice r.2.2)

theorem i64_append (a b : List Int64) :
    Int64SliceAsByteSlice (a ++ b) = Int64SliceAsByteSlice a ++ Int64SliceAsByteSlice b := by
  simp [Int64SliceAsByteSlice, bytesOf_append]

theorem loopSpec (out tmp : String) (hne : out ≠ tmp) (bs : List (Option ElementBatch)) :
    ∀ count last, LoopSpec out tmp (writeBatches out tmp count last bs) (batchBytes count last bs) := by
  induction bs with
  | nil =>
    intro count last
    refine ⟨?_, ?_⟩
    · intro fs d t hd ht
      refine ⟨?_, fun h => by simp [batchBytes, batches] at h, fun h => by simp [batchBytes, batches] at h⟩
      intro a A B h
      simp only [batchBytes, batches, Res.ok_bind, Res.ok.injEq, Prod.mk.injEq] at h
      obtain ⟨rfl, rfl, rfl⟩ := h
      exact ⟨fs, rfl, by simpa [bytesOf] using hd, by simpa [bytesOf, Int64SliceAsByteSlice] using ht,
        fun _ _ _ => rfl⟩
    · intro fs d t z hd _ hz
      exact Prog.always_pure _ ⟨_, hd, hz⟩
  | cons b bs ih =>
    intro count last
    cases b with
    | none => exact ih count last
    | some b =>
      -- one batch
      have step : ∀ (ws : List UInt64) (fs : FS) (d t : List UInt8), fs out = some ⟨d, d.length⟩ →
          fs tmp = some ⟨t, t.length⟩ →
          let fs2 := (FsOp.write tmp (Int64SliceAsByteSlice b.locations)).run ((FsOp.write out (bytesOf ws)).run fs)
          fs2 out = some ⟨d ++ bytesOf ws, (d ++ bytesOf ws).length⟩ ∧
          fs2 tmp = some ⟨t ++ Int64SliceAsByteSlice b.locations, (t ++ Int64SliceAsByteSlice b.locations).length⟩ ∧
          ∀ g, g ≠ out → g ≠ tmp → fs2 g = fs g := by
        intro ws fs d t hd ht
        refine ⟨?_, ?_, ?_⟩
        · simp only [FsOp.run]
          rw [set_other _ _ hne, set_same, hd]
          simp only [Option.map_some, write_end]
        · simp only [FsOp.run, set_same]
          rw [set_other _ _ (Ne.symm hne), ht]
          simp only [Option.map_some, write_end]
        · intro g h1 h2
          simp only [FsOp.run]
          rw [set_other _ _ h2, set_other _ _ h1]
      refine ⟨?_, ?_⟩
      · intro fs d t hd ht
        unfold batchBytes batches writeBatches
        simp only [Prog.exec_bind, Prog.exec_lift]
        cases hw : batchWords last b.ranges with
        | panic => simp
        | hang => simp
        | ok ws =>
          simp only [Res.ok_bind]
          unfold FWriteSliceU64 FWriteSliceI64
          simp only [Prog.exec_emit, Res.ok_bind]
          obtain ⟨e1, e2, e3⟩ := step ws.1 fs d t hd ht
          obtain ⟨r1, r2, r3⟩ := (ih (count + UInt64.ofNat b.ranges.length) ws.2).runs _ _ _ e1 e2
          unfold batchBytes at r1 r2 r3
          cases hb : batches (count + UInt64.ofNat b.ranges.length) ws.2 bs with
          | panic => rw [hb] at r2; simpa using r2
          | hang => rw [hb] at r3; simpa using r3
          | ok r =>
            refine ⟨?_, by simp, by simp⟩
            intro a A B h
            simp only [Res.ok_bind, Res.ok.injEq, Prod.mk.injEq] at h
            obtain ⟨rfl, rfl, rfl⟩ := h
            obtain ⟨fs', g1, g2, g3, g4⟩ := r1 r.1 _ _ (by rw [hb]; rfl)
            refine ⟨fs', g1, ?_, ?_, ?_⟩
            · rw [g2, bytesOf_append, List.append_assoc]
            · rw [g3, i64_append, List.append_assoc]
            · intro g h1 h2
              rw [g4 g h1 h2, e3 g h1 h2]
      · intro fs d t z hd ht hz
        unfold writeBatches
        refine Prog.always_bind (Prog.always_lift _ ⟨_, hd, hz⟩) ?_
        intro ws fs1 h1
        have : fs1 = fs := by
          rw [Prog.exec_lift] at h1
          obtain ⟨_, _, h1⟩ := Res.bind_eq_ok.1 h1
          simp only [Res.ok.injEq, Prod.mk.injEq] at h1
          exact h1.2.symm
        subst this
        obtain ⟨e1, e2, e3⟩ := step ws.1 fs1 d t hd ht
        have hw1 : (FsOp.write out (bytesOf ws.1)).run fs1 out =
            some ⟨d ++ bytesOf ws.1, (d ++ bytesOf ws.1).length⟩ := by
          simp only [FsOp.run, set_same]
          rw [hd]
          simp only [Option.map_some, write_end]
        have hz1 := List.IsPrefix.trans hz (List.prefix_append d (bytesOf ws.1))
        unfold FWriteSliceU64 FWriteSliceI64
        refine Prog.always_bind (Prog.always_emit _ ⟨_, hd, hz⟩ (startsWith_append hd hz _ _)
          (fun f bs k _ => startsWith_append hd hz _ _)) ?_
        intro _ fs2 h2
        simp only [Prog.exec_emit, Res.ok.injEq, Prod.mk.injEq, true_and] at h2
        subst h2
        refine Prog.always_bind (Prog.always_emit _ ⟨_, hw1, hz1⟩ (startsWith_append hw1 hz1 _ _)
          (fun f bs k _ => startsWith_append hw1 hz1 _ _)) ?_
        intro _ fs3 h3
        simp only [Prog.exec_emit, Res.ok.injEq, Prod.mk.injEq, true_and] at h3
        subst h3
        exact (ih _ _).crash _ _ _ z e1 e2 hz1

/-- The header. -/
def header (count : UInt64) : List UInt8 := bytesOf [1, count]

theorem output_shape (out : String) (sched : Nat → Nat) (cancelled : Nat → Bool)
    (bs : List (Option ElementBatch)) :
    Output out sched cancelled bs =
      withHeader out (twoFile out sched cancelled (writeBatches out (out ++ ".loc.tmp") 0 0 bs)) header := rfl

theorem header_length (c : UInt64) : (header c).length = 16 := by
  unfold header; rw [bytesOf_length]; rfl

/-! ## Loading the file -/

theorem i64_back (xs : List Int64) : (xs.map (·.toUInt64)).map (·.toInt64) = xs := by
  rw [List.map_map]
  conv => rhs; rw [← List.map_id xs]
  exact List.map_congr_left fun x _ => by simp

/-- An unsigned word read as a signed one. -/
theorem toInt64_toInt (x : UInt64) : x.toInt64.toInt = (x.toNat : Int).bmod (2 ^ 64) := by
  rw [Int64.toInt, BitVec.toInt_eq_toNat_bmod]
  rfl

theorem load_file (es : List IndexElement) (locs : List Int64) (h : es.length < 2 ^ 62) :
    NewNodeIndex (header (UInt64.ofNat es.length) ++ bytesOf (elemWords es) ++ Int64SliceAsByteSlice locs) =
      .ok ⟨es, locs⟩ := by
  unfold NewNodeIndex header Int64SliceAsByteSlice
  rw [← bytesOf_append, ← bytesOf_append]
  have := wordsOf_bytesOf ([1, UInt64.ofNat es.length] ++ elemWords es ++ locs.map (·.toUInt64)) [] (by simp)
  rw [List.append_nil] at this
  rw [this]
  dsimp only
  simp only [List.cons_append, List.nil_append, List.getElem?_cons_zero, Res.ofOption_some, Res.ok_bind]
  rw [if_neg (by decide)]
  unfold NewNodeIndex.newNodeIndexBody
  simp only [List.getElem?_cons_succ, List.getElem?_cons_zero, Res.ofOption_some, Res.ok_bind,
    List.drop_succ_cons, List.drop_zero]
  have hn : ((UInt64.ofNat es.length).toInt64 * 2).toInt = 2 * (es.length : Int) := by
    rw [Int64.toInt_mul]
    have h1 : (UInt64.ofNat es.length).toInt64.toInt = es.length := by
      rw [toInt64_toInt, UInt64.toNat_ofNat', Int.bmod_def]
      omega
    rw [h1, show (2 : Int64).toInt = 2 from rfl, Int.bmod_def]
    omega
  rw [hn]
  rw [if_pos ⟨by omega, by simp only [List.length_append, elemWords_length]; omega⟩]
  have ht : (2 * (es.length : Int)).toNat = (elemWords es).length := by rw [elemWords_length]; omega
  rw [ht, List.take_append_of_le_length (Nat.le_refl _), List.take_length,
    List.drop_append_of_le_length (Nat.le_refl _), List.drop_length, List.nil_append, i64_back,
    pairsOf_elemWords]

theorem load_noHeader {d : List UInt8} (h : d <+: zeros16 ∨ zeros16 <+: d) : NewNodeIndex d = .panic := by
  have key : (wordsOf d)[0]? = none ∨ (wordsOf d)[0]? = some 0 := by
    rcases h with h | ⟨t, rfl⟩
    · have hle := h.length_le
      have hz : zeros16.length = 16 := rfl
      have ht := List.prefix_iff_eq_take.1 h
      generalize hk : d.length = k at *
      have hk16 : k ≤ 16 := by omega
      rw [ht]
      clear ht hk h hle
      have : ∀ k : Fin 17, (wordsOf (zeros16.take k))[0]? = none ∨ (wordsOf (zeros16.take k))[0]? = some 0 := by
        decide
      exact this ⟨k, by omega⟩
    · right
      rfl
  unfold NewNodeIndex
  dsimp only
  rcases key with h | h
  · rw [h]; rfl
  · rw [h]
    simp only [Res.ofOption_some, Res.ok_bind]
    rw [if_pos (by decide)]

/-! ## Blocks to batches -/

/-- The ranges of all batches. -/
def allRanges (bs : List (Option ElementBatch)) : List IndexRange :=
  bs.flatMap fun b => match b with
    | none => []
    | some b => b.ranges

/-- The locations of all batches. -/
def allLocs (bs : List (Option ElementBatch)) : List Int64 :=
  bs.flatMap fun b => match b with
    | none => []
    | some b => b.locations

theorem slotTotal_append (a b : List IndexRange) : slotTotal (a ++ b) = slotTotal a + slotTotal b := by
  simp [slotTotal]

theorem batches_ok (bs : List (Option ElementBatch)) : ∀ (off n : Nat),
    (∀ r ∈ allRanges bs, r.first.toNat ≤ r.last.toNat ∧ cnt r < 2 ^ 24) →
    off + slotTotal (allRanges bs) ≤ 2 ^ 40 →
    ∃ es, batches (UInt64.ofNat n) (UInt64.ofNat off) bs =
        .ok (UInt64.ofNat (n + es.length), elemWords es, allLocs bs) ∧ Elems off (allRanges bs) es := by
  induction bs with
  | nil => intro off n _ _; exact ⟨[], rfl, rfl⟩
  | cons b bs ih =>
    intro off n hr ht
    cases b with
    | none => exact ih off n hr ht
    | some b =>
      have hsplit : allRanges (some b :: bs) = b.ranges ++ allRanges bs := rfl
      rw [hsplit, slotTotal_append] at ht
      rw [hsplit] at hr
      obtain ⟨es1, h1, h2⟩ := batchWords_ok b.ranges off (fun r h => hr r (List.mem_append_left _ h)) (by omega)
      obtain ⟨es2, h3, h4⟩ := ih (off + slotTotal b.ranges) (n + b.ranges.length)
        (fun r h => hr r (List.mem_append_right _ h)) (by omega)
      refine ⟨es1 ++ es2, ?_, ?_⟩
      · unfold batches
        rw [h1]
        simp only [Res.ok_bind]
        rw [← UInt64.ofNat_add, h3]
        simp only [Res.ok_bind, Res.ok.injEq, Prod.mk.injEq]
        refine ⟨?_, ?_, rfl⟩
        · rw [List.length_append, elems_length h2, Nat.add_assoc]
        · simp [elemWords]
      · rw [hsplit]
        exact elems_append h2 h4

theorem le_sum_of_mem {x : Nat} {xs : List Nat} (h : x ∈ xs) : x ≤ xs.sum := by
  induction xs with
  | nil => simp at h
  | cons y ys ih =>
    rw [List.sum_cons]
    rcases List.mem_cons.1 h with rfl | h
    · omega
    · have := ih h; omega

/-- The slots of a block's nodes. -/
def nodeSlots (blocks : List (Option PrimitiveBlock)) : List (Nat × Int64) :=
  (allNodes blocks).map fun x => num (slotOf x.1 x.2)

theorem nodeSlots_cons (b : PrimitiveBlock) (bs : List (Option PrimitiveBlock)) :
    nodeSlots (some b :: bs) = ((sourceNodes b).map (slotOf b)).map num ++ nodeSlots bs := by
  unfold nodeSlots allNodes
  simp [List.map_append, Function.comp_def]

theorem i64_nat {x : Int64} (h : 0 ≤ x.toInt) : (x.toUInt64.toNat : Int) = x.toInt := by
  have hx : (x.toUInt64.toInt64) = x := by simp
  have : x.toInt = (x.toUInt64.toNat : Int).bmod (2 ^ 64) := by
    conv => lhs; rw [← hx]
    exact toInt64_toInt _
  have hb := x.toUInt64.toNat_lt
  rw [Int.bmod_def] at this
  split at this <;> omega

theorem indexable_tail {b : Option PrimitiveBlock} {bs : List (Option PrimitiveBlock)}
    (h : Indexable (b :: bs)) : Indexable bs := by
  have hs : ∃ xs, allNodes (b :: bs) = xs ++ allNodes bs := ⟨_, by unfold allNodes; rw [List.flatMap_cons]⟩
  obtain ⟨xs, hs⟩ := hs
  refine ⟨fun pb hpb => h.complete pb (List.mem_cons_of_mem _ hpb), ?_, ?_,
    fun pb hpb => h.blockSize pb (List.mem_cons_of_mem _ hpb), ?_⟩
  · have := h.ascending
    rw [hs, List.pairwise_append] at this
    exact this.2.1
  · intro x hx
    exact h.ids x (by rw [hs]; exact List.mem_append_right _ hx)
  · have := h.total
    rw [hs, List.length_append] at this
    omega

/-- All batches together lay out all nodes. -/
theorem work_layout (blocks : List (Option PrimitiveBlock)) (h : Indexable blocks) :
    ∃ bs, mapRes work blocks = .ok bs ∧ Layout (allRanges bs) (allLocs bs) (nodeSlots blocks) ∧
      ∀ r ∈ allRanges bs, cnt r < 2 ^ 24 := by
  induction blocks with
  | nil =>
    refine ⟨[], rfl, ⟨⟨[], rfl, rfl, rfl⟩, .nil, ?_, ?_, ?_, ?_⟩, ?_⟩ <;> simp [allRanges, allLocs]
  | cons b bs ih =>
    obtain ⟨rest, i1, i2, i3⟩ := ih (indexable_tail h)
    cases b with
    | none =>
      refine ⟨none :: rest, ?_, i2, i3⟩
      unfold mapRes
      rw [i1]
      rfl
    | some pb =>
      have hall : allNodes (some pb :: bs) = (sourceNodes pb).map (fun n => (pb, n)) ++ allNodes bs := rfl
      have hasc := h.ascending
      rw [hall, List.pairwise_append] at hasc
      obtain ⟨a1, a2, a3⟩ := hasc
      rw [List.pairwise_map] at a1
      have hid : ∀ n ∈ sourceNodes pb, 2 ≤ n.id.toInt := by
        intro n hn
        exact h.ids (pb, n) (by rw [hall]; exact List.mem_append_left _ (List.mem_map_of_mem hn))
      have hlt : ∀ x : Int64, 2 ≤ x.toInt → x.toUInt64.toNat < 2 ^ 63 ∧ 2 ≤ x.toUInt64.toNat := by
        intro x hx
        have := i64_nat (x := x) (by omega)
        have := x.toInt_lt
        omega
      have hlay := layout_fold ((sourceNodes pb).map (slotOf pb))
        (by
          intro x hx
          obtain ⟨n, hn, rfl⟩ := List.mem_map.1 hx
          have := hlt n.id (hid n hn)
          exact ⟨this.2, this.1, (nodeLocation_eq pb n).2⟩)
        (by
          rw [List.pairwise_map]
          refine List.Pairwise.imp_of_mem ?_ a1
          intro a b ha hb hab
          dsimp only at hab
          have h1 := i64_nat (x := a.id) (by have := hid a ha; omega)
          have h2 := i64_nat (x := b.id) (by have := hid b hb; omega)
          show a.id.toUInt64.toNat < b.id.toUInt64.toNat
          omega)
      dsimp only at hlay
      obtain ⟨l1, l2⟩ := hlay
      generalize hst : ((sourceNodes pb).map (slotOf pb)).foldl addSlot State.init = st at l1 l2
      have hwork : work (some pb) = .ok (if st.flush = [] then none else some ⟨st.flush, st.locs⟩) := by
        rw [show work (some pb) = indexBlock pb from rfl, indexBlock_eq pb (h.complete pb (by simp))]
        dsimp only
        rw [hst]
      have hranges : allRanges ((if st.flush = [] then none else some ⟨st.flush, st.locs⟩) :: rest) =
          st.flush ++ allRanges rest := by
        by_cases hf : st.flush = []
        · rw [if_pos hf, hf]; rfl
        · rw [if_neg hf]; rfl
      have hlocs : allLocs ((if st.flush = [] then none else some ⟨st.flush, st.locs⟩) :: rest) =
          st.locs ++ allLocs rest := by
        by_cases hf : st.flush = []
        · rw [if_pos hf]
          have hnil := l2.1 hf
          have hl0 : st.locs = [] := by
            rw [← hst, hnil]; rfl
          rw [hl0]; rfl
        · rw [if_neg hf]; rfl
      refine ⟨(if st.flush = [] then none else some ⟨st.flush, st.locs⟩) :: rest, ?_, ?_, ?_⟩
      · unfold mapRes
        rw [hwork]
        simp only [Res.ok_bind]
        rw [i1]
        rfl
      · rw [hranges, hlocs, nodeSlots_cons]
        refine layout_append l1 i2 ?_
        intro a ha b hb
        simp only [List.map_map, List.mem_map, Function.comp_apply] at ha
        obtain ⟨n, hn, rfl⟩ := ha
        obtain ⟨y, hy, rfl⟩ := List.mem_map.1 hb
        have hy' := h.ids y (by rw [hall]; exact List.mem_append_right _ hy)
        have := a3 (pb, n) (List.mem_map_of_mem hn) y hy
        have h1 := i64_nat (x := n.id) (by have := hid n hn; omega)
        have h2 := i64_nat (x := y.2.id) (by omega)
        show n.id.toUInt64.toNat < y.2.id.toUInt64.toNat
        dsimp only at this
        omega
      · rw [hranges]
        intro r hr
        rcases List.mem_append.1 hr with hr | hr
        · have hsz := l1.size
          obtain ⟨S, s1, s2, _⟩ := l1.slots
          have hb := h.blockSize pb (by simp)
          have : cnt r ≤ st.locs.length := by
            have e1 : st.locs.length = slotTotal st.flush := by
              rw [← s2, List.length_map, ← flatMap_idsOf_length, ← s1, List.length_map]
            rw [e1]
            unfold slotTotal
            exact le_sum_of_mem (List.mem_map_of_mem hr)
          simp only [List.length_map] at hsz
          omega
        · exact i3 r hr

/-- The whole run. -/
theorem run_index (blocks : List (Option PrimitiveBlock)) (h : Indexable blocks) :
    ∃ bs es, mapRes work blocks = .ok bs ∧
      batches 0 0 bs = .ok (UInt64.ofNat es.length, elemWords es, allLocs bs) ∧
      WellFormed es (allLocs bs) ∧ Complete ⟨es, allLocs bs⟩ ∧ es.length < 2 ^ 62 ∧
      ∀ id l, HasLoc es (allLocs bs) id l ↔ (id, l) ∈ nodeSlots blocks := by
  obtain ⟨bs, h1, h2, h3⟩ := work_layout blocks h
  have hlen : (allLocs bs).length = slotTotal (allRanges bs) := by
    obtain ⟨S, s1, s2, _⟩ := h2.slots
    rw [← s2, List.length_map, ← flatMap_idsOf_length, ← s1, List.length_map]
  have hsz := h2.size
  have htot := h.total
  have hns : (nodeSlots blocks).length = (allNodes blocks).length := by simp [nodeSlots]
  obtain ⟨es, h4, h5⟩ := batches_ok bs 0 0 (fun r hr => ⟨h2.nonempty r hr, h3 r hr⟩) (by omega)
  obtain ⟨w1, w2, w3⟩ := layout_index h2 h5
  refine ⟨bs, es, h1, ?_, w1, w2, ?_, w3⟩
  · rw [Nat.zero_add] at h4
    exact h4
  · have : es.length ≤ slotCount es := by
      have hne := w1.nonempty
      clear h4 h5 w1 w2 w3
      induction es with
      | nil => simp
      | cons e es ih =>
        have := ih (fun e' he' => hne e' (by simp [he']))
        have := hne e (by simp)
        simp only [slotCount, List.map_cons, List.sum_cons, List.length_cons] at *
        omega
    rw [elems_slotCount h5] at this
    omega

/-! ## What a completed run wrote -/

theorem batchWords_elems (rs : List IndexRange) : ∀ last ws last', batchWords last rs = .ok (ws, last') →
    ∃ es, ws = elemWords es ∧ es.map (·.baseId) = rs.map (·.first) := by
  induction rs with
  | nil =>
    intro last ws last' h
    simp only [batchWords, Res.ok.injEq, Prod.mk.injEq] at h
    exact ⟨[], h.1.symm, rfl⟩
  | cons r rs ih =>
    intro last ws last' h
    unfold batchWords at h
    dsimp only at h
    obtain ⟨co, _, h⟩ := Res.bind_eq_ok.1 h
    obtain ⟨⟨ws', l'⟩, h1, h⟩ := Res.bind_eq_ok.1 h
    simp only [Res.ok.injEq, Prod.mk.injEq] at h
    obtain ⟨es, e1, e2⟩ := ih _ _ _ h1
    refine ⟨⟨r.first, co⟩ :: es, ?_, by simp [e2]⟩
    rw [← h.1, e1]
    rfl

theorem batches_elems (bs : List (Option ElementBatch)) : ∀ n last c ws ls, batches n last bs = .ok (c, ws, ls) →
    ∃ es, ws = elemWords es ∧ es.map (·.baseId) = (allRanges bs).map (·.first) ∧
      c = n + UInt64.ofNat es.length ∧ ls = allLocs bs := by
  induction bs with
  | nil =>
    intro n last c ws ls h
    simp only [batches, Res.ok.injEq, Prod.mk.injEq] at h
    obtain ⟨rfl, rfl, rfl⟩ := h
    exact ⟨[], rfl, rfl, by simp, rfl⟩
  | cons b bs ih =>
    intro n last c ws ls h
    cases b with
    | none => exact ih n last c ws ls h
    | some b =>
      unfold batches at h
      obtain ⟨⟨w1, l1⟩, h1, h⟩ := Res.bind_eq_ok.1 h
      obtain ⟨⟨c2, w2, l2⟩, h2, h⟩ := Res.bind_eq_ok.1 h
      simp only [Res.ok.injEq, Prod.mk.injEq] at h
      obtain ⟨rfl, rfl, rfl⟩ := h
      obtain ⟨es1, a1, a2⟩ := batchWords_elems _ _ _ _ h1
      obtain ⟨es2, b1, b2, b3, b4⟩ := ih _ _ _ _ _ h2
      have hlen : es1.length = b.ranges.length := by
        have := congrArg List.length a2
        simpa using this
      refine ⟨es1 ++ es2, ?_, ?_, ?_, ?_⟩
      · simp only [a1, b1]; simp [elemWords]
      · rw [show allRanges (some b :: bs) = b.ranges ++ allRanges bs from rfl, List.map_append,
          List.map_append, a2, b2]
      · rw [b3, List.length_append, hlen, UInt64.ofNat_add]
        grind
      · rw [b4]; rfl

/-- A truncated location file only makes lookups panic. -/
theorem truncated_lookup (es : List IndexElement) (locs : List Int64) (top : UInt64) (k : Nat) (id : UInt64)
    (hint : Int) :
    SubIdx.findNode ⟨es, locs.take k, top⟩ id hint = .panic ∨
    SubIdx.findNode ⟨es, locs.take k, top⟩ id hint = SubIdx.findNode ⟨es, locs, top⟩ id hint := by
  have hloc : ∀ o, locAt (locs.take k) o = .panic ∨ locAt (locs.take k) o = locAt locs o := by
    intro o
    unfold locAt
    rcases Nat.lt_or_ge o.toNat k with h | h
    · right; rw [List.getElem?_take_of_lt h]
    · left; rw [List.getElem?_eq_none (by rw [List.length_take]; omega)]; rfl
  have hbet : ∀ lo hi, SubIdx.findBetween ⟨es, locs.take k, top⟩ id hint lo hi = .panic ∨
      SubIdx.findBetween ⟨es, locs.take k, top⟩ id hint lo hi = SubIdx.findBetween ⟨es, locs, top⟩ id hint lo hi := by
    intro lo hi
    unfold SubIdx.findBetween
    dsimp only
    cases search es id (es.length + 1) lo hi with
    | panic => left; rfl
    | hang => right; rfl
    | ok p =>
      simp only [Res.ok_bind]
      split
      · right; rfl
      · split
        · right; rfl
        · rename_i e _ _
          cases e.OffsetForID id with
          | panic => left; rfl
          | hang => right; rfl
          | ok o =>
            simp only [Res.ok_bind]
            rcases hloc o with h | h
            · left; rw [h]; rfl
            · right; rw [h]
  unfold SubIdx.findNode
  dsimp only
  split
  · right; rfl
  · split
    · split
      · left; rfl
      · cases Res.ofOption es[hint.toNat]? with
        | panic => left; rfl
        | hang => right; rfl
        | ok e =>
          simp only [Res.ok_bind]
          split
          · exact hbet _ _
          · split
            · cases e.OffsetForID id with
              | panic => left; rfl
              | hang => right; rfl
              | ok o =>
                simp only [Res.ok_bind]
                rcases hloc o with h | h
                · left; rw [h]; rfl
                · right; rw [h]
            · exact hbet _ _
    · exact hbet _ _

/-- Loading a file whose locations were cut short. -/
theorem load_truncated (es : List IndexElement) (locs : List Int64) (h : es.length < 2 ^ 62) (m : Nat) :
    NewNodeIndex (header (UInt64.ofNat es.length) ++ bytesOf (elemWords es) ++
      (Int64SliceAsByteSlice locs).take m) = .ok ⟨es, locs.take (m / 8)⟩ := by
  have htake : (Int64SliceAsByteSlice locs).take m =
      Int64SliceAsByteSlice (locs.take (m / 8)) ++ ((Int64SliceAsByteSlice locs).take m).drop (m / 8 * 8) := by
    have h1 : (Int64SliceAsByteSlice locs).take (m / 8 * 8) = Int64SliceAsByteSlice (locs.take (m / 8)) := by
      unfold Int64SliceAsByteSlice
      rw [List.map_take]
      generalize locs.map (·.toUInt64) = ws
      generalize m / 8 = q
      induction ws generalizing q with
      | nil => simp [bytesOf]
      | cons w ws ih =>
        cases q with
        | zero => simp [bytesOf]
        | succ q =>
          rw [List.take_succ_cons, show bytesOf (w :: ws) = le64 w ++ bytesOf ws from rfl,
            show bytesOf (w :: ws.take q) = le64 w ++ bytesOf (ws.take q) from rfl, ← ih q,
            List.take_append, List.take_of_length_le (by simp [le64]; omega)]
          congr 2
          simp [le64]
          omega
    conv => lhs; rw [← List.take_append_drop (m / 8 * 8) ((Int64SliceAsByteSlice locs).take m)]
    rw [List.take_take, Nat.min_eq_left (by omega), h1]
  have hshort : (((Int64SliceAsByteSlice locs).take m).drop (m / 8 * 8)).length < 8 := by
    rw [List.length_drop, List.length_take]; omega
  rw [htake, ← List.append_assoc]
  generalize ((Int64SliceAsByteSlice locs).take m).drop (m / 8 * 8) = t at hshort
  have hload := load_file es (locs.take (m / 8)) h
  unfold NewNodeIndex at hload ⊢
  have hw : wordsOf (header (UInt64.ofNat es.length) ++ bytesOf (elemWords es) ++
      Int64SliceAsByteSlice (locs.take (m / 8)) ++ t) =
      wordsOf (header (UInt64.ofNat es.length) ++ bytesOf (elemWords es) ++
      Int64SliceAsByteSlice (locs.take (m / 8))) := by
    unfold header Int64SliceAsByteSlice
    rw [← bytesOf_append, ← bytesOf_append, wordsOf_bytesOf _ t hshort]
    have := wordsOf_bytesOf ([1, UInt64.ofNat es.length] ++ elemWords es ++
      (locs.take (m / 8)).map (·.toUInt64)) [] (by simp)
    rw [List.append_nil] at this
    rw [this]
  rw [hw]
  exact hload

end Osm.NodeIndexer
