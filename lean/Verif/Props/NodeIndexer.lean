import Verif.Lemmas.NodeOutput
import Verif.Props.NodeIndex
import Verif.Props.Morton

/-!
# C33–C36: building the node index
-/

namespace Osm.Props
open Osm Osm.T Osm.Spec Osm.NodeIndex Osm.NodeIndexer

/-! ## C33 -/

theorem mem_nodeSlots (blocks : List (Option PrimitiveBlock)) (h : ∀ x ∈ allNodes blocks, 2 ≤ x.2.id.toInt)
    (id : UInt64) (l : Int64) :
    (id.toNat, l) ∈ nodeSlots blocks ↔
      ∃ x ∈ allNodes blocks, x.2.id.toInt = id.toNat ∧ nodeLocation x.1 x.2.lat x.2.lon = .ok l := by
  unfold nodeSlots
  rw [List.mem_map]
  constructor
  · rintro ⟨x, hx, he⟩
    simp only [num, slotOf, Prod.mk.injEq] at he
    refine ⟨x, hx, ?_, ?_⟩
    · have := i64_nat (x := x.2.id) (by have := h x hx; omega)
      omega
    · rw [← he.2]; exact (nodeLocation_eq x.1 x.2).1
  · rintro ⟨x, hx, h1, h2⟩
    refine ⟨x, hx, ?_⟩
    simp only [num, slotOf, Prod.mk.injEq]
    refine ⟨?_, ?_⟩
    · have := i64_nat (x := x.2.id) (by have := h x hx; omega)
      omega
    · rw [(nodeLocation_eq x.1 x.2).1] at h2
      simpa using h2

/-- C33: the indexer completes, and the file it leaves loads as a well-formed index in which an id has a
location exactly if the input has a node with that id, and it is that node's. Missing: inputs with ids 0
or 1 (see `C33_false`). -/
theorem C33_index_partial (blocks : List (Option PrimitiveBlock)) (h : Indexable blocks) (out : String)
    (sched : Nat → Nat) (fs : FS) :
    ∃ batches fs' file ix, mapRes work blocks = .ok batches ∧
      (Output out sched never batches).exec fs = .ok ((), fs') ∧ Holds fs' out file ∧
      NewNodeIndex file = .ok ix ∧ WellFormed ix.elements ix.locations ∧ Complete ix ∧
      ix.locations.length < 2 ^ 63 ∧
      ∀ (id : UInt64) l, HasLoc ix.elements ix.locations id.toNat l ↔
        ∃ x ∈ allNodes blocks, x.2.id.toInt = id.toNat ∧ nodeLocation x.1 x.2.lat x.2.lon = .ok l := by
  obtain ⟨bs, es, h1, h2, h3, h4, h5, h6⟩ := run_index blocks h
  have hspec := loopSpec out (out ++ ".loc.tmp") (tmp_ne out) bs 0 0
  obtain ⟨r1, -, -⟩ := withHeader_exec out sched never _ _ hspec header header_length fs
  obtain ⟨fs', m, e1, ⟨pos, e2⟩, e3, e4, e5⟩ := r1 (UInt64.ofNat es.length) _ _ (by
    unfold batchBytes; rw [h2]; rfl)
  have hm := e5.1 (fun _ => rfl)
  rw [List.take_of_length_le hm] at e2
  refine ⟨bs, fs', _, ⟨es, allLocs bs⟩, h1, ?_, ⟨pos, e2⟩, load_file es _ h5, h3, h4, ?_, ?_⟩
  · rw [output_shape]; exact e1
  · have hc : slotCount es = (allLocs bs).length := h4
    show (allLocs bs).length < 2 ^ 63
    obtain ⟨bs', g1, g2, g3⟩ := work_layout blocks h
    rw [h1] at g1
    cases g1
    have hsz := g2.size
    have htot := h.total
    have hns : (nodeSlots blocks).length = (allNodes blocks).length := by simp [nodeSlots]
    omega
  · intro id l
    rw [h6, mem_nodeSlots blocks h.ids]

/-- C33: looking up any id, with any hint, in the loaded index finds it exactly if the input has a node with
that id, and returns that node's encoded location. -/
theorem C33_lookup_partial (blocks : List (Option PrimitiveBlock)) (h : Indexable blocks)
    (hne : allNodes blocks ≠ []) (out : String) (sched : Nat → Nat) (fs : FS) :
    ∃ batches fs' file ix si, mapRes work blocks = .ok batches ∧
      (Output out sched never batches).exec fs = .ok ((), fs') ∧ Holds fs' out file ∧
      NewNodeIndex file = .ok ix ∧ ix.SubIndex 0 1 = .ok si ∧
      ∀ (id : UInt64) (hint : Int), 0 ≤ hint → ∃ r, si.findNode id hint = .ok r ∧
        (∀ l, (r.ok = true ∧ r.loc = l) ↔
          ∃ x ∈ allNodes blocks, x.2.id.toInt = id.toNat ∧ nodeLocation x.1 x.2.lat x.2.lon = .ok l) ∧
        (r.ok = false ↔ ∀ x ∈ allNodes blocks, x.2.id.toInt ≠ id.toNat) := by
  obtain ⟨bs, fs', file, ix, h1, h2, h3, h4, h5, h6, h7, h8⟩ := C33_index_partial blocks h out sched fs
  have hel : ix.elements ≠ [] := by
    intro h0
    obtain ⟨x, xs, hx⟩ := List.exists_cons_of_ne_nil hne
    have hmem : x ∈ allNodes blocks := by rw [hx]; simp
    have hid := h.ids x hmem
    have := i64_nat (x := x.2.id) (by omega)
    obtain ⟨e, he, _⟩ := (h8 x.2.id.toUInt64 (locVal x.1 x.2)).2
      ⟨x, hmem, by omega, (nodeLocation_eq x.1 x.2).1⟩
    rw [h0] at he
    simp at he
  obtain ⟨subs, hs1, hs2⟩ := C31_single_pass ix h5 h6 h7 hel
  have hone : mapRes (fun p => ix.SubIndex (UInt64.ofNat p) (UInt64.ofNat 1)) (List.range 1) =
      (ix.SubIndex 0 1 >>= fun s => .ok [s]) := by
    rw [show List.range 1 = [0] from rfl]
    unfold mapRes mapRes
    rfl
  rw [hone] at hs1
  obtain ⟨si, hsi, hs1⟩ := Res.bind_eq_ok.1 hs1
  simp only [Res.ok.injEq] at hs1
  subst hs1
  simp only [List.flatMap_cons, List.flatMap_nil, List.append_nil] at hs2
  have hw := C28_passes_well_formed ix h5 0 1 si hsi
  have hloc : si.locations = ix.locations := by
    unfold NodeIdx.SubIndex at hsi
    rw [if_neg (by decide)] at hsi
    dsimp only at hsi
    split at hsi
    · cases hsi
    · obtain ⟨_, _, hsi⟩ := Res.bind_eq_ok.1 hsi
      cases hsi; rfl
  refine ⟨bs, fs', file, ix, si, h1, h2, h3, h4, hsi, ?_⟩
  intro id hint hh
  obtain ⟨r, hr, hr1, hr2⟩ := C28_lookup_exact hw id hint hh
  rw [hs2, hloc] at hr1
  have key := fun l => (hr1 l).trans (h8 id l)
  refine ⟨r, hr, key, ?_, ?_⟩
  · intro hf x hx hid
    have := (key (locVal x.1 x.2)).2 ⟨x, hx, hid, (nodeLocation_eq x.1 x.2).1⟩
    rw [hf] at this
    simp at this
  · intro hno
    cases hr' : r.ok
    · rfl
    · obtain ⟨x, hx, hid, _⟩ := (key r.loc).1 ⟨hr', rfl⟩
      exact absurd hid (hno x hx)

/-- C33: the encoded location is that of the node's position: decoding it gives back longitude and
latitude, in ten-millionths of a degree, exactly. Blocks whose positions are on Earth and whose arithmetic
fits in 64 bits qualify. -/
theorem C33_position (pb : PrimitiveBlock) (lat lon l : Int64)
    (o1 : -(2 ^ 63) ≤ pb.LatOffset.toInt + pb.Granularity.toInt * lat.toInt)
    (o2 : pb.LatOffset.toInt + pb.Granularity.toInt * lat.toInt < 2 ^ 63)
    (o3 : -(2 ^ 63) ≤ pb.LonOffset.toInt + pb.Granularity.toInt * lon.toInt)
    (o4 : pb.LonOffset.toInt + pb.Granularity.toInt * lon.toInt < 2 ^ 63)
    (r1 : -900000000 ≤ position pb.LatOffset pb.Granularity lat)
    (r2 : position pb.LatOffset pb.Granularity lat ≤ 900000000)
    (r3 : -1800000000 ≤ position pb.LonOffset pb.Granularity lon)
    (r4 : position pb.LonOffset pb.Granularity lon ≤ 1800000000)
    (h : nodeLocation pb lat lon = .ok l) :
    ∃ x y, Morton.DecodeLocation l.toUInt64 = (x, y) ∧
      x.toInt = position pb.LonOffset pb.Granularity lon ∧
      y.toInt = position pb.LatOffset pb.Granularity lat := by
  have key : ∀ (off : Int64) (g : Int32) (v : Int64), -(2 ^ 63) ≤ off.toInt + g.toInt * v.toInt →
      off.toInt + g.toInt * v.toInt < 2 ^ 63 → -1800000000 ≤ position off g v → position off g v ≤ 1800000000 →
      (coordinate off g v).toInt = position off g v := by
    intro off g v a1 a2 a3 a4
    unfold coordinate
    have hsum : (off + g.toInt64 * v).toInt = off.toInt + g.toInt * v.toInt := by
      rw [Int64.toInt_add, Int64.toInt_mul, Int32.toInt_toInt64, Int.add_bmod_bmod]
      exact Int.bmod_eq_of_le (by omega) (by omega)
    have hdiv : ((off + g.toInt64 * v) / 100).toInt = position off g v := by
      rw [Int64.toInt_div, hsum, show (100 : Int64).toInt = 100 from rfl]
      unfold position at a3 a4 ⊢
      rw [Int.bmod_def]
      omega
    rw [Int64.toInt_toInt32, hdiv, Int.bmod_def]
    omega
  unfold nodeLocation at h
  refine ⟨_, _, C26_location_recoverable _ _ ?_ ?_ l h, key _ _ _ o3 o4 r3 r4,
    key _ _ _ o1 o2 (by omega) (by omega)⟩
  · rw [key _ _ _ o1 o2 (by omega) (by omega)]; omega
  · rw [key _ _ _ o1 o2 (by omega) (by omega)]; omega

/-- A block of nodes with the given ids at different places. -/
def exampleBlock (ids : List Int64) : PrimitiveBlock :=
  ⟨none, none, [⟨none, some ⟨ids, ids.map (· * 1000), ids.map (· * 2000), []⟩, [], [], [], []⟩], 100, 1000, 0, 0⟩

/-- Two blocks of nodes with another between; ids 2, 3, 5 (a gap of one), 10. -/
def exampleInput : List (Option PrimitiveBlock) :=
  [some (exampleBlock [2, 3]), none, some (exampleBlock [5, 10])]

theorem exampleInput_indexable : Indexable exampleInput where
  complete := by
    intro pb hpb
    simp only [exampleInput, List.mem_cons, Option.some.injEq, reduceCtorEq, List.not_mem_nil, or_false,
      false_or] at hpb
    rcases hpb with rfl | rfl <;>
    · intro pg hpg dn hdn
      simp only [exampleBlock, List.mem_cons, List.not_mem_nil, or_false] at hpg
      subst hpg
      simp only [Option.some.injEq] at hdn
      subst hdn
      simp
  ascending := by decide +kernel
  ids := by decide +kernel
  blockSize := by
    intro pb hpb
    simp only [exampleInput, List.mem_cons, Option.some.injEq, reduceCtorEq, List.not_mem_nil, or_false,
      false_or] at hpb
    rcases hpb with rfl | rfl <;> decide +kernel
  total := by decide +kernel

example : Indexable exampleInput ∧ allNodes exampleInput ≠ [] ∧
    (∃ x ∈ allNodes exampleInput, x.2.id.toInt = (5 : UInt64).toNat) :=
  ⟨exampleInput_indexable, by decide +kernel, by decide +kernel⟩

/-- The hypotheses of `C33_position` hold for a node at 45.6789012 N, 170.1234567 W. -/
example : ∃ l x y, nodeLocation (exampleBlock []) 456789012 (-1701234567) = .ok l ∧
    Morton.DecodeLocation l.toUInt64 = (x, y) ∧ x.toInt = -1701234567 ∧ y.toInt = 456789012 := by
  obtain ⟨l, h, _⟩ := nodeLocation_total (exampleBlock []) 456789012 (-1701234567)
  obtain ⟨x, y, a, b, c⟩ := C33_position (exampleBlock []) 456789012 (-1701234567) l (by decide) (by decide)
    (by decide) (by decide) (by decide) (by decide) (by decide) (by decide) h
  exact ⟨l, x, y, h, a, b, c⟩

/-- C33 fails for an input with node id 1 (`lastId` starts at 2^64-1, whose second successor is 1, so the
first range is never opened): nodes 1, 2, 10, 11 give an index in which 1, 2 and 10 are not found, and 11 is
found with the location of node 1. -/
theorem C33_false :
    ∃ (batch : ElementBatch) (es : List IndexElement), work (some (exampleBlock [1, 2, 10, 11])) = .ok (some batch) ∧
      batchWords 0 batch.ranges = .ok (elemWords es, 2) ∧
      NewNodeIndex (header 1 ++ bytesOf (elemWords es) ++ Int64SliceAsByteSlice batch.locations) =
        .ok ⟨es, batch.locations⟩ ∧
      ∃ si, NodeIdx.SubIndex ⟨es, batch.locations⟩ 0 1 = .ok si ∧
        (∀ id : UInt64, id = 1 ∨ id = 2 ∨ id = 10 → ∃ r, si.findNode id 0 = .ok r ∧ r.ok = false) ∧
        (∃ r, si.findNode 11 0 = .ok r ∧ r.ok = true ∧ nodeLocation (exampleBlock []) 1000 2000 = .ok r.loc ∧
          nodeLocation (exampleBlock []) 11000 22000 ≠ .ok r.loc) := by
  have h : work (some (exampleBlock [1, 2, 10, 11])) =
      .ok (some ⟨[⟨10, 11⟩], [0, locVal (exampleBlock []) ⟨1, 1000, 2000⟩, locVal (exampleBlock []) ⟨2, 2000, 4000⟩,
        locVal (exampleBlock []) ⟨10, 10000, 20000⟩, locVal (exampleBlock []) ⟨11, 11000, 22000⟩]⟩) := by
    decide +kernel
  refine ⟨_, [⟨10, 2⟩], h, by decide +kernel, by decide +kernel, ?_⟩
  refine ⟨⟨[⟨10, 2⟩], [0, locVal (exampleBlock []) ⟨1, 1000, 2000⟩, locVal (exampleBlock []) ⟨2, 2000, 4000⟩,
        locVal (exampleBlock []) ⟨10, 10000, 20000⟩, locVal (exampleBlock []) ⟨11, 11000, 22000⟩], 11⟩,
    by decide +kernel, ?_, ?_⟩
  · rintro id (rfl | rfl | rfl)
    · exact ⟨⟨0, 0, false, [.missDefault]⟩, by decide +kernel, rfl⟩
    · exact ⟨⟨0, 0, false, [.missDefault]⟩, by decide +kernel, rfl⟩
    · exact ⟨⟨0, 0, false, [.hitHint]⟩, by decide +kernel, rfl⟩
  · exact ⟨⟨locVal (exampleBlock []) ⟨1, 1000, 2000⟩, 0, true, [.hitHint]⟩, by decide +kernel, rfl,
      by decide +kernel, by decide +kernel⟩

/-- C33: a block with only node 1 is dropped altogether. -/
theorem C33_false_dropped : work (some (exampleBlock [1])) = .ok none := by decide +kernel

/-! ## C34 -/

/-- C34: a completed run, whatever the batches and however the copy is chunked, leaves exactly version,
element count, the elements and the locations; the elements start at the ranges' first ids; the temporary
file is gone, other files are unchanged, and loading the file yields those elements and locations. -/
theorem C34_file_layout (out : String) (sched : Nat → Nat) (bs : List (Option ElementBatch)) (fs fs' : FS)
    (h : (Output out sched never bs).exec fs = .ok ((), fs')) :
    ∃ es : List IndexElement,
      es.map (·.baseId) = (bs.flatMap fun b => match b with | none => [] | some b => b.ranges.map (·.first)) ∧
      Holds fs' out (le64 1 ++ le64 (UInt64.ofNat es.length) ++
        (es.flatMap fun e => le64 e.baseId ++ le64 e.countOffset) ++
        (bs.flatMap fun b => match b with
          | none => [] | some b => b.locations.flatMap fun l => le64 l.toUInt64)) ∧
      fs' (out ++ ".loc.tmp") = none ∧ (∀ f, f ≠ out → f ≠ out ++ ".loc.tmp" → fs' f = fs f) ∧
      (es.length < 2 ^ 62 → ∀ file, Holds fs' out file → NewNodeIndex file =
        .ok ⟨es, bs.flatMap fun b => match b with | none => [] | some b => b.locations⟩) := by
  have hspec := loopSpec out (out ++ ".loc.tmp") (tmp_ne out) bs 0 0
  obtain ⟨r1, r2, r3⟩ := withHeader_exec out sched never _ _ hspec header header_length fs
  rw [output_shape] at h
  cases hb : batches 0 0 bs with
  | panic => rw [r2 (by unfold batchBytes; rw [hb]; rfl)] at h; cases h
  | hang => rw [r3 (by unfold batchBytes; rw [hb]; rfl)] at h; cases h
  | ok r =>
    obtain ⟨c, ws, ls⟩ := r
    obtain ⟨es, b1, b2, b3, b4⟩ := batches_elems bs _ _ _ _ _ hb
    obtain ⟨fs2, m, e1, ⟨pos, e2⟩, e3, e4, e5⟩ := r1 c _ _ (by unfold batchBytes; rw [hb]; rfl)
    have hm := e5.1 (fun _ => rfl)
    rw [List.take_of_length_le hm] at e2
    rw [e1] at h
    simp only [Res.ok.injEq, Prod.mk.injEq, true_and] at h
    subst h
    subst b1 b4
    have hc : c = UInt64.ofNat es.length := by rw [b3]; simp
    subst hc
    have f1 : ∀ es : List IndexElement, (es.flatMap fun e => le64 e.baseId ++ le64 e.countOffset) =
        bytesOf (elemWords es) := by
      intro es
      induction es with
      | nil => rfl
      | cons e es ih => simp only [List.flatMap_cons, ih]; simp [elemWords, bytesOf]
    have f2 : (bs.flatMap fun b => match b with
        | none => [] | some b => b.locations.flatMap fun l => le64 l.toUInt64) =
        Int64SliceAsByteSlice (allLocs bs) := by
      unfold allLocs Int64SliceAsByteSlice bytesOf
      rw [List.map_flatMap, List.flatMap_assoc]
      congr 1; funext b
      cases b with
      | none => rfl
      | some b => dsimp only; rw [List.flatMap_map]
    refine ⟨es, ?_, ⟨pos, ?_⟩, e3, e4, ?_⟩
    · rw [b2]
      unfold allRanges
      rw [List.map_flatMap]
      congr 1; funext b
      cases b <;> rfl
    · rw [f1, f2, e2]
      rfl
    · rintro hlen file ⟨p, hp⟩
      rw [e2] at hp
      simp only [Option.some.injEq, File.mk.injEq] at hp
      rw [← hp.1]
      exact load_file es _ hlen

/-- Runs that complete exist: those of `C33_index_partial`. -/
example (fs : FS) : ∃ bs fs', (Output "x" (fun _ => 3) never bs).exec fs = .ok ((), fs') ∧
    ∃ b ∈ bs, b ≠ none := by
  obtain ⟨bs, fs', _, _, h1, h2, _⟩ := C33_index_partial exampleInput exampleInput_indexable "x" (fun _ => 3) fs
  refine ⟨bs, fs', h2, ?_⟩
  have : mapRes work exampleInput = .ok [some ⟨[⟨2, 3⟩], [locVal (exampleBlock []) ⟨2, 2000, 4000⟩,
    locVal (exampleBlock []) ⟨3, 3000, 6000⟩]⟩, none, some ⟨[⟨5, 5⟩, ⟨10, 10⟩],
    [locVal (exampleBlock []) ⟨5, 5000, 10000⟩, locVal (exampleBlock []) ⟨10, 10000, 20000⟩]⟩] := by
    decide +kernel
  rw [this] at h1
  cases h1
  exact ⟨_, List.mem_cons_self, by simp⟩

/-! ## C35 -/

/-- C35: whatever the input, chunking and cancellation, a crash at any point of the run leaves the output
file as it was before the run (nothing done yet), or a file which opening as a node index rejects, or else
the header write (the last operation) has begun. -/
theorem C35_crash (out : String) (sched : Nat → Nat) (cancelled : Nat → Bool) (bs : List (Option ElementBatch))
    (fs fs' : FS) (hc : CrashState (Output out sched cancelled bs fs).1 fs fs') :
    fs' out = fs out ∨ (∃ file, Holds fs' out file ∧ NewNodeIndex file = .panic) ∨
    ∃ done hd k, Output out sched cancelled bs fs = (done ++ [.write out hd], .ok ()) ∧ 1 ≤ k ∧
      fs' = (FsOp.write out (hd.take k)).run (runOps done fs) := by
  have hspec := loopSpec out (out ++ ".loc.tmp") (tmp_ne out) bs 0 0
  rw [output_shape] at hc ⊢
  rcases withHeader_crash_ops out sched cancelled _ _ hspec header fs fs' hc with h | ⟨x, h1, h2⟩ | h
  · exact Or.inl h
  · exact Or.inr (Or.inl ⟨x.data, ⟨x.pos, h1⟩, load_noHeader h2⟩)
  · exact Or.inr (Or.inr h)

/-- C35: with a new output file, a crash before the header write leaves no file or one that is rejected. -/
theorem C35_crash_new_file (out : String) (sched : Nat → Nat) (cancelled : Nat → Bool)
    (bs : List (Option ElementBatch)) (fs fs' : FS) (hnew : fs out = none)
    (hc : CrashState (outputBody out sched cancelled bs fs).1 fs fs') :
    fs' out = none ∨ ∃ file, Holds fs' out file ∧ NewNodeIndex file = .panic := by
  have hspec := loopSpec out (out ++ ".loc.tmp") (tmp_ne out) bs 0 0
  have := twoFile_crash out sched cancelled _ _ hspec fs
  rcases this fs' hc with h | ⟨x, h1, h2⟩
  · left; rw [h, hnew]
  · exact Or.inr ⟨x.data, ⟨x.pos, h1⟩, load_noHeader h2⟩

/-- Only sixteen bytes are written last, so all of the index is there when that write begins. -/
theorem C35_header_size (out : String) (sched : Nat → Nat) (cancelled : Nat → Bool)
    (bs : List (Option ElementBatch)) (fs : FS) (done : List FsOp) (hd : List UInt8)
    (h : Output out sched cancelled bs fs = (done ++ [.write out hd], .ok ())) : hd.length = 16 := by
  unfold Output at h
  rw [Prog.bind_eq] at h
  unfold Prog.bind at h
  rcases hp : outputBody out sched cancelled bs fs with ⟨ops, r⟩
  rw [hp] at h
  cases r with
  | panic => simp at h
  | hang => simp at h
  | ok a =>
    simp only [FWriteSliceU64, Prog.emit, Prod.mk.injEq] at h
    have := List.append_inj_right' h.1 rfl
    simp only [List.cons.injEq, FsOp.write.injEq] at this
    rw [← this.1.2, bytesOf_length]
    rfl

/-- A crash after the first write of the run: the file is there and is rejected. -/
example : ∃ fs', CrashState (Output "x" greedy never [] (fun _ => none)).1 (fun _ => none) fs' ∧
    fs' "x" = some ⟨zeros16, 16⟩ ∧ NewNodeIndex zeros16 = .panic := by
  refine ⟨runOps [.create "x", .create ("x" ++ ".loc.tmp"), .write "x" zeros16] (fun _ => none),
    ⟨[.create "x", .create ("x" ++ ".loc.tmp"), .write "x" zeros16], _, rfl, Or.inl rfl⟩, ?_, by decide +kernel⟩
  exact (start_exec "x" (fun _ => none)).1

/-! ## C36 -/

/-- C36 fails: cancelled before the first chunk is copied, the run still completes and writes a header that
counts all elements. The file is accepted, with all the elements and no locations. -/
theorem C36_false (out : String) (sched : Nat → Nat) (fs : FS) :
    ∃ batches fs' file ix, mapRes work exampleInput = .ok batches ∧
      (Output out sched (fun _ => true) batches).exec fs = .ok ((), fs') ∧ Holds fs' out file ∧
      NewNodeIndex file = .ok ix ∧ ix.elements.length = 3 ∧ ix.locations = [] := by
  have h1 : mapRes work exampleInput = .ok [some ⟨[⟨2, 3⟩], [locVal (exampleBlock []) ⟨2, 2000, 4000⟩,
    locVal (exampleBlock []) ⟨3, 3000, 6000⟩]⟩, none, some ⟨[⟨5, 5⟩, ⟨10, 10⟩],
    [locVal (exampleBlock []) ⟨5, 5000, 10000⟩, locVal (exampleBlock []) ⟨10, 10000, 20000⟩]⟩] := by
    decide +kernel
  generalize hbs : [some (ElementBatch.mk [⟨2, 3⟩] [locVal (exampleBlock []) ⟨2, 2000, 4000⟩,
    locVal (exampleBlock []) ⟨3, 3000, 6000⟩]), none, some ⟨[⟨5, 5⟩, ⟨10, 10⟩],
    [locVal (exampleBlock []) ⟨5, 5000, 10000⟩, locVal (exampleBlock []) ⟨10, 10000, 20000⟩]⟩] = bs at h1
  have hb : ∃ ls, batches 0 0 bs = .ok (3, elemWords [⟨2, 2⟩, ⟨5, 0x2000001⟩, ⟨10, 0x3000001⟩], ls) := by
    subst hbs
    exact ⟨_, rfl⟩
  obtain ⟨ls, hb⟩ := hb
  have hspec := loopSpec out (out ++ ".loc.tmp") (tmp_ne out) bs 0 0
  obtain ⟨r1, -, -⟩ := withHeader_exec out sched (fun _ => true) _ _ hspec header header_length fs
  obtain ⟨fs', m, e1, ⟨pos, e2⟩, -, -, -, e5⟩ := r1 3 _ _ (by unfold batchBytes; rw [hb]; rfl)
  rw [e5 rfl, List.take_zero, List.append_nil] at e2
  refine ⟨bs, fs', _, ⟨[⟨2, 2⟩, ⟨5, 0x2000001⟩, ⟨10, 0x3000001⟩], []⟩, h1, e1, ⟨pos, e2⟩, ?_, rfl, rfl⟩
  have := load_file [⟨2, 2⟩, ⟨5, 0x2000001⟩, ⟨10, 0x3000001⟩] [] (by decide)
  rw [show Int64SliceAsByteSlice [] = [] from rfl, List.append_nil] at this
  exact this

/-- C36: what does hold of a cancelled run: the file is the full file with its locations cut short at some
point, and any lookup in any pass' sub-index either panics or gives the answer of the full index.
Missing: the file is nevertheless accepted (`C36_false`). -/
theorem C36_cancelled_partial (out : String) (sched : Nat → Nat) (cancelled : Nat → Bool)
    (bs : List (Option ElementBatch)) (fs fs' : FS)
    (h : (Output out sched cancelled bs).exec fs = .ok ((), fs')) :
    ∃ (es : List IndexElement) (locs : List Int64) (k : Nat) (full : FS),
      (Output out sched never bs).exec fs = .ok ((), full) ∧
      (es.length < 2 ^ 62 →
        (∀ file, Holds full out file → NewNodeIndex file = .ok ⟨es, locs⟩) ∧
        (∀ file, Holds fs' out file → NewNodeIndex file = .ok ⟨es, locs.take k⟩)) ∧
      ∀ (sub : List IndexElement) (top id : UInt64) (hint : Int),
        SubIdx.findNode ⟨sub, locs.take k, top⟩ id hint = .panic ∨
        SubIdx.findNode ⟨sub, locs.take k, top⟩ id hint = SubIdx.findNode ⟨sub, locs, top⟩ id hint := by
  have hspec := loopSpec out (out ++ ".loc.tmp") (tmp_ne out) bs 0 0
  obtain ⟨r1, r2, r3⟩ := withHeader_exec out sched cancelled _ _ hspec header header_length fs
  obtain ⟨q1, -, -⟩ := withHeader_exec out sched never _ _ hspec header header_length fs
  rw [output_shape] at h
  cases hb : batches 0 0 bs with
  | panic => rw [r2 (by unfold batchBytes; rw [hb]; rfl)] at h; cases h
  | hang => rw [r3 (by unfold batchBytes; rw [hb]; rfl)] at h; cases h
  | ok r =>
    obtain ⟨c, ws, ls⟩ := r
    obtain ⟨es, b1, b2, b3, b4⟩ := batches_elems bs _ _ _ _ _ hb
    obtain ⟨fs2, m, e1, ⟨pos, e2⟩, e3, e4, e5⟩ := r1 c _ _ (by unfold batchBytes; rw [hb]; rfl)
    obtain ⟨fs3, m3, g1, ⟨pos3, g2⟩, g3, g4, g5⟩ := q1 c _ _ (by unfold batchBytes; rw [hb]; rfl)
    rw [List.take_of_length_le (g5.1 fun _ => rfl)] at g2
    rw [e1] at h
    simp only [Res.ok.injEq, Prod.mk.injEq, true_and] at h
    subst h
    subst b1
    have hc : c = UInt64.ofNat es.length := by rw [b3]; simp
    subst hc
    refine ⟨es, ls, m / 8, fs3, g1, ?_, fun sub top id hint => truncated_lookup sub ls top _ id hint⟩
    intro hlen
    refine ⟨?_, ?_⟩
    · rintro file ⟨p, hp⟩
      rw [g2] at hp
      simp only [Option.some.injEq, File.mk.injEq] at hp
      rw [← hp.1]
      exact load_file es _ hlen
    · rintro file ⟨p, hp⟩
      rw [e2] at hp
      simp only [Option.some.injEq, File.mk.injEq] at hp
      rw [← hp.1]
      exact load_truncated es _ hlen m

end Osm.Props
