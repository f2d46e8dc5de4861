import Verif.Lemmas.Interrupt
import Verif.Props.Raw
import Verif.Props.TagFilter
import Verif.Props.Rewrite
import Verif.Props.NodeIndexer
import Verif.Props.WayIndex

/-!
# C72, C73: what a run leaves behind if it is interrupted at any moment
-/

namespace Osm.Props
open Osm Osm.T Osm.Pbf Osm.Spec Osm.Interrupt

/-! ## C72: files of blocks -/

theorem prefix_blocks : ∀ (xs : List (GoStr × List UInt8)) (n : Nat), ∃ j ≤ xs.length,
    (fileOf xs).take n = fileOf (xs.take j) ∨
    ∃ x cut missing, xs[j]? = some x ∧ cut ++ missing = frame x.1 x.2 ∧ cut ≠ [] ∧ missing ≠ [] ∧
      (fileOf xs).take n = fileOf (xs.take j) ++ cut
  | [], n => ⟨0, Nat.le_refl _, Or.inl (by simp [fileOf])⟩
  | x :: xs, n => by
    have h2 : fileOf (x :: xs) = frame x.1 x.2 ++ fileOf xs := by simp [fileOf]
    rcases Nat.lt_or_ge n (frame x.1 x.2).length with hn | hn
    · refine ⟨0, Nat.zero_le _, ?_⟩
      have ht : (fileOf (x :: xs)).take n = (frame x.1 x.2).take n := by
        rw [h2, List.take_append_of_le_length (by omega)]
      rcases Nat.eq_zero_or_pos n with rfl | hp
      · left; simp [fileOf]
      · right
        refine ⟨x, (frame x.1 x.2).take n, (frame x.1 x.2).drop n, rfl, List.take_append_drop _ _, ?_, ?_, ?_⟩
        · intro h
          have := congrArg List.length h
          rw [List.length_take, List.length_nil] at this
          omega
        · intro h
          have := congrArg List.length h
          rw [List.length_drop, List.length_nil] at this
          omega
        · rw [ht]; simp [fileOf]
    · obtain ⟨j, hj, h⟩ := prefix_blocks xs (n - (frame x.1 x.2).length)
      have ht : (fileOf (x :: xs)).take n = frame x.1 x.2 ++ (fileOf xs).take (n - (frame x.1 x.2).length) := by
        rw [h2, List.take_append, List.take_of_length_le hn]
      have hc : fileOf ((x :: xs).take (j + 1)) = frame x.1 x.2 ++ fileOf (xs.take j) := by simp [fileOf]
      refine ⟨j + 1, by simp; omega, ?_⟩
      rcases h with h | ⟨y, cut, missing, h1, h3, h4, h5, h6⟩
      · left; rw [ht, hc, h]
      · right
        exact ⟨y, cut, missing, by simpa using h1, h3, h4, h5, by rw [ht, hc, h6, List.append_assoc]⟩

/-- C72: reading an initial part of a file of blocks: it panics, unless the file was cut exactly between two blocks (and
behind at least one); then exactly the blocks before the cut are read. -/
theorem C72_prefix_reads (xs : List (GoStr × List UInt8)) (hw : ∀ x ∈ xs, Writable x) (n : Nat)
    (hl : ((fileOf xs).take n).length < 2 ^ 62) :
    split ((fileOf xs).take n) = .panic ∨
    ∃ j, 1 ≤ j ∧ j ≤ xs.length ∧ (fileOf xs).take n = fileOf (xs.take j) ∧
      ∃ bs, split ((fileOf xs).take n) = .ok bs ∧ bs.map Seen = xs.take j := by
  obtain ⟨j, hj, h | ⟨x, cut, missing, h1, h2, h3, h4, h5⟩⟩ := prefix_blocks xs n
  · rw [h] at hl ⊢
    rcases Nat.eq_zero_or_pos j with rfl | hp
    · left; rfl
    · right
      refine ⟨j, hp, hj, rfl, ?_⟩
      obtain ⟨bs, b1, b2, _⟩ := C53_round_trip (xs.take j) (by
        intro h0
        have := congrArg List.length h0
        rw [List.length_take, List.length_nil] at this
        omega) (fun y hy => hw y (List.mem_of_mem_take hy)) (by omega)
      exact ⟨bs, b1, b2⟩
  · left
    rw [h5] at hl ⊢
    exact C53_truncated _ (fun y hy => hw y (List.mem_of_mem_take hy)) x.1 x.2 cut missing (hw x (List.mem_of_getElem? h1))
      h2 h3 h4 hl

/-- `C72_prefix_reads` on two blocks: cut behind the first one, and inside the first one. -/
example : (∃ b, split ((fileOf mixedBlocks).take 21) = .ok [b] ∧ Seen b = (osmHeader, [10, 2, 5, 6])) ∧
    split ((fileOf mixedBlocks).take 20) = .panic ∧ split ((fileOf mixedBlocks).take 22) = .panic := by
  refine ⟨⟨⟨0, ⟨[10, 2, 5, 6], []⟩, osmHeader⟩, by decide +kernel, rfl⟩, by decide +kernel, by decide +kernel⟩

/-- C72: a pass of rewritenodes, with any number of workers, interrupted at any moment of any schedule, cancelled or not,
even by a panic: nothing has been done yet, or the output is an initial part of what the workers make of the first blocks
of the input. -/
theorem C72_rewritenodes (inflate : Inflate) (sched : Block → Sched) (si : NodeIndex.SubIdx) (file : List UInt8)
    (hl : file.length < 2 ^ 63) (W : Nat) (s : St Rewrite.Out) (hr : Reachable (Rewrite.rewriteCfg inflate sched si file) W s)
    (bs : List Block) (hs : split file = .ok bs) (out : String) (fs fs' : FS)
    (hd : DiesIn (Rewrite.output out) (Rewrite.output out) s fs fs') :
    fs' = fs ∨ ∃ k xs n, k ≤ bs.length ∧ mapRes (Rewrite.rewriteWork inflate sched si) (bs.take k) = .ok xs ∧
      Holds fs' out ((fileOf xs).take n) := by
  obtain ⟨k, hk, hx⟩ := C57_prefix _ hl rfl W s hr bs hs
  unfold DiesIn at hd
  rw [ite_self, rewrite_output_ops] at hd
  rcases crash_created _ _ _ _ hd with h | ⟨n, h⟩
  · exact Or.inl h
  · rw [blockPieces_flatten] at h
    exact Or.inr ⟨k, s.got, n, hk, hx, h⟩

/-- C72: the same for tagfilter. -/
theorem C72_tagfilter (inflate : Inflate) (sched : Block → Sched) (file : List UInt8)
    (hl : file.length < 2 ^ 63) (W : Nat) (s : St Rewrite.Out) (hr : Reachable (TagFilter.filterCfg inflate sched file) W s)
    (bs : List Block) (hs : split file = .ok bs) (out : String) (fs fs' : FS)
    (hd : DiesIn (TagFilter.output out) (TagFilter.output out) s fs fs') :
    fs' = fs ∨ ∃ k xs n, k ≤ bs.length ∧ mapRes (TagFilter.filterWork inflate sched) (bs.take k) = .ok xs ∧
      Holds fs' out ((fileOf (xs.filter fun x => x.1 ≠ TagFilter.filler)).take n) := by
  obtain ⟨k, hk, hx⟩ := C57_prefix _ hl rfl W s hr bs hs
  unfold DiesIn at hd
  rw [ite_self, tagfilter_output_ops] at hd
  rcases crash_created _ _ _ _ hd with h | ⟨n, h⟩
  · exact Or.inl h
  · rw [blockPieces_flatten] at h
    exact Or.inr ⟨k, s.got, n, hk, hx, h⟩

/-- C72: the same for decompress (whose workers send complete blocks). -/
theorem C72_decompress (inflate : Inflate) (sched : Block → Sched) (file : List UInt8)
    (hl : file.length < 2 ^ 63) (W : Nat) (s : St (List UInt8)) (hr : Reachable (decompressCfg inflate sched file) W s)
    (bs : List Block) (hs : split file = .ok bs) (out : String) (fs fs' : FS)
    (hd : DiesIn (decompressOutput out) (decompressOutput out) s fs fs') :
    fs' = fs ∨ ∃ k xs n, k ≤ bs.length ∧ mapRes (decompressWork inflate sched) (bs.take k) = .ok xs ∧
      Holds fs' out (xs.flatten.take n) := by
  obtain ⟨k, hk, hx⟩ := C57_prefix _ hl rfl W s hr bs hs
  unfold DiesIn at hd
  rw [ite_self, decompress_output_ops] at hd
  rcases crash_created _ _ _ _ hd with h | ⟨n, h⟩
  · exact Or.inl h
  · exact Or.inr ⟨k, s.got, n, hk, hx, h⟩

theorem matches_take {α β : Type} {R : α → β → Prop} {as : List α} {bs : List β} (h : Matches R as bs) :
    ∀ n, Matches R (as.take n) (bs.take n) := by
  induction h with
  | nil => intro n; simp only [List.take_nil]; exact .nil
  | cons h1 _ ih =>
    intro n
    cases n with
    | zero => exact .nil
    | succ n => exact .cons h1 (ih n)

/-- C72: what can be read of the interrupted output of a rewrite pass: nothing (reading it panics), or some of the first
blocks of the input, completely rewritten. -/
theorem C72_rewritenodes_content (inflate : Inflate) (sched : Block → Sched)
    (hsched : ∀ b, (sched b).pooled.length < 2 ^ 63) {si : NodeIndex.SubIdx} (hw : WellFormedSub si) (file : List UInt8)
    (hl : file.length < 2 ^ 63) (cs : List Content) (hc : FileHas inflate waysDecoded file cs) (W : Nat)
    (s : St Rewrite.Out) (hr : Reachable (Rewrite.rewriteCfg inflate sched si file) W s) (out : String) (fs fs' : FS)
    (hnew : fs out = none) (hd : DiesIn (Rewrite.output out) (Rewrite.output out) s fs fs') :
    fs' out = none ∨ ∃ file', Holds fs' out file' ∧ (file'.length < 2 ^ 62 → split file' = .panic ∨
      ∃ j, 1 ≤ j ∧ j ≤ cs.length ∧
        FileHas inflate waysDecoded file' ((cs.take j).map (·.mapRefs (locate si.element si.locations)))) := by
  obtain ⟨bs, h1, h2⟩ := hc
  rcases C72_rewritenodes inflate sched si file hl W s hr bs h1 out fs fs' hd with h | ⟨k, xs, n, hk, hx, h⟩
  · left; rw [h, hnew]
  right
  refine ⟨_, h, fun hlen => ?_⟩
  obtain ⟨_, hb⟩ := Rewrite.split_blocks hl h1
  obtain ⟨m1, m2⟩ := Rewrite.works_content inflate sched hsched hw (bs.take k) (cs.take k) xs
    (fun b hb' => hb b (List.mem_of_mem_take hb')) (matches_take h2 k) hx
  have e1 := Rewrite.each_length m2
  have e2 := Rewrite.each_length h2
  rw [List.length_map, List.length_take] at e1
  rcases C72_prefix_reads xs m1 n hlen with h | ⟨j, j1, j2, j3, _⟩
  · exact Or.inl h
  right
  refine ⟨j, j1, by omega, ?_⟩
  rw [j3] at hlen ⊢
  have e3 : (cs.take j).map (·.mapRefs (locate si.element si.locations)) =
      ((cs.take k).map (·.mapRefs (locate si.element si.locations))).take j := by
    rw [← List.map_take, List.take_take, Nat.min_eq_left (by omega)]
  rw [e3]
  refine Rewrite.fileOf_has inflate _ ?_ (fun x hx => m1 x (List.mem_of_mem_take hx)) (by omega) (matches_take m2 j)
  intro h0
  have := congrArg List.length h0
  rw [List.length_take, List.length_nil] at this
  omega

/-- C72: what can be read of the interrupted output of decompress: nothing (reading it panics), or some of the first
blocks of the input, with their kinds and payloads. -/
theorem C72_decompress_content (inflate : Inflate) (sched : Block → Sched) (file : List UInt8)
    (hl : file.length < 2 ^ 63) (bs : List Block) (hs : split file = .ok bs) (hp : ∀ b ∈ bs, Decompressible inflate b)
    (W : Nat) (s : St (List UInt8)) (hr : Reachable (decompressCfg inflate sched file) W s) (out : String) (fs fs' : FS)
    (hnew : fs out = none) (hd : DiesIn (decompressOutput out) (decompressOutput out) s fs fs') :
    fs' out = none ∨ ∃ file', Holds fs' out file' ∧ (file'.length < 2 ^ 62 → split file' = .panic ∨
      ∃ bs', split file' = .ok bs' ∧ 1 ≤ bs'.length ∧ bs'.length ≤ bs.length ∧
        ∀ (i : Nat) b', bs'[i]? = some b' → ∃ b p, bs[i]? = some b ∧ b'.Kind = b.Kind ∧
          BlockPayload inflate b p ∧ BlockPayload inflate b' p) := by
  rcases C72_decompress inflate sched file hl W s hr bs hs out fs fs' hd with h | ⟨k, xs, n, hk, hx, h⟩
  · left; rw [h, hnew]
  right
  refine ⟨_, h, fun hlen => ?_⟩
  obtain ⟨_, hb⟩ := Rewrite.split_blocks hl hs
  obtain ⟨ps, q1, q2, q3⟩ := decompressed_blocks inflate sched (bs.take k) xs
    (fun b hb' => hp b (List.mem_of_mem_take hb')) (fun b hb' => (hb b (List.mem_of_mem_take hb')).2.2) hx
  rw [q2] at hlen ⊢
  have hw : ∀ x ∈ ((bs.take k).zip ps).map (fun x => (x.1.Kind, rawBlob x.2)), Writable x := by
    intro x hx
    obtain ⟨y, hy, rfl⟩ := List.mem_map.1 hx
    exact (q3 y hy).2.2
  rcases C72_prefix_reads _ hw n hlen with h | ⟨j, j1, j2, j3, bs', r1, r2⟩
  · exact Or.inl h
  right
  have hlb : bs'.length = j := by
    have := congrArg List.length r2
    rw [List.length_map, List.length_take] at this
    omega
  have hk2 : j ≤ bs.length := by
    simp only [List.length_map, List.length_zip, List.length_take, q1] at j2
    omega
  have hfits := blockFile_fits ((split_iff _ (by omega) bs').1 r1).2 (by omega)
  refine ⟨bs', r1, by omega, by omega, fun i b' hb' => ?_⟩
  have hi : i < j := by
    have := (List.getElem?_eq_some_iff.1 hb').1
    omega
  have hx := congrArg (fun l => l[i]?) r2
  simp only [List.getElem?_map, hb', Option.map_some, List.getElem?_take, if_pos hi] at hx
  cases hz : ((bs.take k).zip ps)[i]? with
  | none => rw [hz] at hx; cases hx
  | some y =>
    rw [hz] at hx
    simp only [Option.map_some, Option.some.injEq, Seen, Prod.mk.injEq] at hx
    obtain ⟨z1, z2⟩ := List.getElem?_zip_eq_some.1 hz
    obtain ⟨j4, j5, _⟩ := q3 _ (List.mem_of_getElem? hz)
    have z1 : bs[i]? = some y.1 := by
      rw [List.getElem?_take] at z1
      split at z1
      · exact z1
      · cases z1
    refine ⟨y.1, y.2, z1, hx.1, j4, ?_⟩
    have hf := hfits b' (List.mem_of_getElem? hb')
    obtain ⟨ix, ⟨db, dsp⟩, kd⟩ := b'
    dsimp only at hx hf
    rw [hx.2] at hf ⊢
    exact rawBlob_read inflate _ _ j5 hf ix kd

/-- A run which has delivered both blocks of a file, and which is interrupted in the middle of writing the first one. -/
example (sched : Block → Sched) : ∃ s fs', 
    Reachable (decompressCfg (fun z => if z = [120, 1] then some [1, 2, 3] else none) sched (fileOf mixedBlocks)) 2 s ∧
    s.got.length = 2 ∧ DiesIn (decompressOutput "out") (decompressOutput "out") s (fun _ => none) fs' ∧
    ∃ file', Holds fs' "out" file' ∧ file'.length = 5 := by
  obtain ⟨bs, h1, h2⟩ := mixed_decompressible
  obtain ⟨got, s, hr, hd, hc, rfl⟩ := (C51_completes _ sched _ (by decide +kernel) bs h1 h2 2).2 (by decide)
  obtain ⟨bs', e1, e2, _⟩ := C55_in_order _ (by show (fileOf mixedBlocks).length < _; decide +kernel) rfl 2 s hr hd hc
  have e1 : split (fileOf mixedBlocks) = .ok bs' := e1
  rw [h1] at e1
  cases e1
  have hb : bs = [⟨0, ⟨[10, 2, 5, 6], (frame osmData [16, 3, 26, 2, 120, 1])⟩, osmHeader⟩,
      ⟨1, ⟨[16, 3, 26, 2, 120, 1], []⟩, osmData⟩] := by
    have h3 : split (fileOf mixedBlocks) = .ok [⟨0, ⟨[10, 2, 5, 6], (frame osmData [16, 3, 26, 2, 120, 1])⟩, osmHeader⟩,
      ⟨1, ⟨[16, 3, 26, 2, 120, 1], []⟩, osmData⟩] := by decide +kernel
    rw [h1] at h3
    exact Res.ok.inj h3
  have hg : s.got = [frame osmHeader (rawBlob [5, 6]), frame osmData (rawBlob [1, 2, 3])] := by
    subst hb
    have w1 := decompressWork_eq (fun z => if z = [120, 1] then some [1, 2, 3] else none) sched
      ⟨0, ⟨[10, 2, 5, 6], (frame osmData [16, 3, 26, 2, 120, 1])⟩, osmHeader⟩ [5, 6]
      ⟨⟨some ⟨[5, 6], frame osmData [16, 3, 26, 2, 120, 1]⟩, none, none⟩, by decide +kernel, .raw _ _ _⟩ (by decide)
    have w2 := decompressWork_eq (fun z => if z = [120, 1] then some [1, 2, 3] else none) sched
      ⟨1, ⟨[16, 3, 26, 2, 120, 1], []⟩, osmData⟩ [1, 2, 3]
      ⟨⟨none, some 3, some ⟨[120, 1], []⟩⟩, by decide +kernel, .zlib _ _ _ rfl rfl⟩ (by decide)
    have e2 : mapRes (decompressWork (fun z => if z = [120, 1] then some [1, 2, 3] else none) sched) _ = .ok s.got := e2
    simp only [mapRes, w1, w2, Res.ok_bind] at e2
    exact (Res.ok.inj e2).symm
  refine ⟨s, (FsOp.write "out" ((frame osmHeader (rawBlob [5, 6])).take 5)).run
    (runOps [.create "out"] fun _ => none), hr, by rw [hg]; rfl, ?_, ?_⟩
  · unfold DiesIn
    rw [ite_self, decompress_output_ops, hg]
    exact ⟨[.create "out"], _, rfl, Or.inr ⟨"out", _, _, 5, rfl, rfl⟩⟩
  · refine ⟨(frame osmHeader (rawBlob [5, 6])).take 5, ⟨5, ?_⟩, by decide +kernel⟩
    rw [runOps_cons, runOps_nil]
    simp only [FsOp.run, set_same, Option.map_some]
    decide +kernel

/-! ## C72: index files -/

theorem loop_crash {α : Type} (out : String) (L : Prog α) (res : Res (α × List UInt8 × List UInt8))
    (hL : LoopSpec out (out ++ ".loc.tmp") L res) (fs : FS) :
    Prog.Always (fun fs' => fs' out = fs out ∨ NoHeader out fs')
      (do OsCreate out; OsCreate (out ++ ".loc.tmp"); FWriteSliceI64 out [0, 0]; L) fs := by
  have hne := tmp_ne out
  unfold OsCreate FWriteSliceI64
  rw [zeros16_eq]
  obtain ⟨e1, e2, e3⟩ := start_exec out fs
  have hc1 : (FsOp.create out).run fs out = some ⟨[], 0⟩ := by simp only [FsOp.run, set_same]
  have hc2 : (FsOp.create (out ++ ".loc.tmp")).run ((FsOp.create out).run fs) out = some ⟨[], 0⟩ := by
    simp only [FsOp.run, set_same, set_other _ _ hne]
  have hempty : ∀ fs' : FS, fs' out = some ⟨[], 0⟩ → fs' out = fs out ∨ NoHeader out fs' :=
    fun fs' h => Or.inr ⟨_, h, Or.inl (List.nil_prefix)⟩
  refine Prog.always_bind (Prog.always_emit _ (Or.inl rfl) (hempty _ hc1) (by intros; contradiction)) ?_
  intro _ fs1 h1
  simp only [Prog.exec_emit, Res.ok.injEq, Prod.mk.injEq, true_and] at h1
  subst h1
  refine Prog.always_bind (Prog.always_emit _ (hempty _ hc1) (hempty _ hc2) (by intros; contradiction)) ?_
  intro _ fs2 h2
  simp only [Prog.exec_emit, Res.ok.injEq, Prod.mk.injEq, true_and] at h2
  subst h2
  have hall : ∀ fs' : FS, StartsWith out zeros16 fs' → fs' out = fs out ∨ NoHeader out fs' :=
    fun fs' h => Or.inr (noHeader_of_starts h)
  refine Prog.always_bind (Prog.always_emit _ (hempty _ hc2) ?_ ?_) ?_
  · exact Or.inr ⟨_, e1, Or.inr (List.prefix_refl _)⟩
  · intro f bs k heq
    injection heq with q1 q2
    subst q1 q2
    refine Or.inr ⟨⟨zeros16.take k, (zeros16.take k).length⟩, ?_, Or.inl (List.take_prefix _ _)⟩
    simp only [FsOp.run, set_same, set_other _ _ hne, Option.map_some]
    exact congrArg some (write_end [] _)
  intro _ fs3 h3
  simp only [Prog.exec_emit, Res.ok.injEq, Prod.mk.injEq, true_and] at h3
  subst h3
  exact always_mono (hL.crash _ zeros16 [] zeros16 e1 e2 (List.prefix_refl _)) hall

/-- C72: nodeindex, with any number of workers, interrupted at any moment of any schedule of a run that is not cancelled,
even by a panic: the output file is as it was before the run, or is rejected as a node index, or else the writer has
received all batches of all the blocks of the input and the header (its last write) has begun to be written. -/
theorem C72_nodeindex (work : Block → Res (Option NodeIndexer.ElementBatch)) (file : List UInt8)
    (hl : file.length < 2 ^ 63) (W : Nat) (s : St (Option NodeIndexer.ElementBatch))
    (hr : Reachable (Programs.cfg work file) W s) (hc : s.cancelled = false) (chunks : Nat → Nat) (out : String) (fs fs' : FS)
    (hd : DiesIn (nodeLoop out) (NodeIndexer.Output out chunks never) s fs fs') :
    fs' out = fs out ∨ (∃ file', Holds fs' out file' ∧ NodeIndex.NewNodeIndex file' = .panic) ∨
    (∃ bs, split file = .ok bs ∧ mapRes work bs = .ok s.got) ∧
      ∃ done hd k, NodeIndexer.Output out chunks never s.got fs = (done ++ [.write out hd], .ok ()) ∧ 1 ≤ k ∧
        fs' = (FsOp.write out (hd.take k)).run (runOps done fs) := by
  unfold DiesIn at hd
  by_cases ho : s.outClosed = true
  · rw [if_pos ho] at hd
    rcases C35_crash out chunks never s.got fs fs' hd with h | h | h
    · exact Or.inl h
    · exact Or.inr (Or.inl h)
    · exact Or.inr (Or.inr ⟨closed_all _ hl rfl W s hr ho hc, h⟩)
  · rw [if_neg ho] at hd
    have hspec := NodeIndexer.loopSpec out (out ++ ".loc.tmp") (tmp_ne out) s.got 0 0
    rcases loop_crash out _ _ hspec fs fs' hd with h | ⟨x, h1, h2⟩
    · exact Or.inl h
    · exact Or.inr (Or.inl ⟨x.data, ⟨x.pos, h1⟩, NodeIndexer.load_noHeader h2⟩)

/-- C72: the same for wayindex (an unfinished index is one for which opening and taking any pass panics). -/
theorem C72_wayindex (work : Block → Res (Option WayIndexer.IndexElement)) (file : List UInt8)
    (hl : file.length < 2 ^ 63) (W : Nat) (s : St (Option WayIndexer.IndexElement))
    (hr : Reachable (Programs.cfg work file) W s) (hc : s.cancelled = false) (shift : Int64) (chunks : Nat → Nat)
    (out : String) (fs fs' : FS)
    (hd : DiesIn (wayLoop out shift) (WayIndexer.Output out shift chunks never) s fs fs') :
    fs' out = fs out ∨
    (∃ file', Holds fs' out file' ∧ ∀ p n, (WayIndex.NewWayIndex file' >>= fun ix => ix.SubIndexWithScaledPass p n) = .panic) ∨
    (∃ bs, split file = .ok bs ∧ mapRes work bs = .ok s.got) ∧
      ∃ done hd k, WayIndexer.Output out shift chunks never s.got fs = (done ++ [.write out hd], .ok ()) ∧ 1 ≤ k ∧
        fs' = (FsOp.write out (hd.take k)).run (runOps done fs) := by
  unfold DiesIn at hd
  by_cases ho : s.outClosed = true
  · rw [if_pos ho] at hd
    rcases C42_crash out shift chunks never s.got fs fs' hd with h | h | h
    · exact Or.inl h
    · exact Or.inr (Or.inl h)
    · exact Or.inr (Or.inr ⟨closed_all _ hl rfl W s hr ho hc, h⟩)
  · rw [if_neg ho] at hd
    have hspec := WayIndexer.loopSpec out (out ++ ".loc.tmp") (tmp_ne out) shift s.got 0 0
    rcases loop_crash out _ _ hspec fs fs' hd with h | ⟨x, h1, h2⟩
    · exact Or.inl h
    · exact Or.inr (Or.inl ⟨x.data, ⟨x.pos, h1⟩, WayIndexer.load_noHeader h2⟩)

/-! ## C72: whole commands -/

/-- C72: relindex interrupted at any moment (`sent`: what its first part hands to its writer), compared with the run that
is not: the output file is as it was, or an initial part of the complete output. -/
theorem C72_relindex (out wayIndex : String) (n : Nat) (sent : List (Option (List Int64))) (fs fs1 fs' : FS) (whole : List UInt8)
    (h1 : (RelIndex.relindex out wayIndex n sent).exec fs = .ok ((), fs1)) (hw : Holds fs1 out whole)
    (hc : CrashState (RelIndex.relindex out wayIndex n sent fs).1 fs fs') :
    fs' out = fs out ∨ ∃ k, Holds fs' out (whole.take k) := by
  refine crash_appended (relindex_appends out wayIndex n sent fs) h1 hw hc

/-- C72: rewritenodes, with any number of passes, interrupted at any moment. -/
theorem C72_rewritenodes_passes (inflate : Inflate) (scheds : Nat → Block → Sched) (cuts : Nat → Option Nat)
    (memory : Option UInt64) (inp index out : String) (fs fs1 fs' : FS) (whole : List UInt8)
    (h1 : (rewritenodes inflate scheds cuts memory inp index out).exec fs = .ok ((), fs1)) (hw : Holds fs1 out whole)
    (hc : CrashState (rewritenodes inflate scheds cuts memory inp index out fs).1 fs fs') :
    fs' out = fs out ∨ ∃ k, Holds fs' out (whole.take k) := by
  refine crash_appended (rewritenodes_appends inflate scheds cuts memory inp index out fs) h1 hw hc

/-! ## C73 -/

/-- C73: nodeindex, cancelled or not, changes no files but its output and the temporary file for the locations, at any
moment. -/
theorem C73_nodeindex (inflate : Inflate) (sched : Block → Sched) (cut : Option Nat) (chunks : Nat → Nat)
    (copyCancelled : Nat → Bool) (inp out : String) (fs fs' : FS)
    (hc : CrashState (nodeindex inflate sched cut chunks copyCancelled inp out fs).1 fs fs') (g : String)
    (h1 : g ≠ out) (h2 : g ≠ out ++ ".loc.tmp") : fs' g = fs g :=
  (touches_process (S := fun f => f = out ∨ f = out ++ ".loc.tmp") _ _ _ fun xs =>
    touches_nodeOutput (Or.inl rfl) (Or.inr rfl) _ _ xs).crash fs fs' hc g (fun h => h.elim h1 h2)

/-- C73: nor does wayindex. -/
theorem C73_wayindex (inflate : Inflate) (sched : Block → Sched) (cut : Option Nat) (chunks : Nat → Nat)
    (copyCancelled : Nat → Bool) (shift : Int64) (inp out : String) (fs fs' : FS)
    (hc : CrashState (wayindex inflate sched cut chunks copyCancelled shift inp out fs).1 fs fs') (g : String)
    (h1 : g ≠ out) (h2 : g ≠ out ++ ".loc.tmp") : fs' g = fs g :=
  (touches_process (S := fun f => f = out ∨ f = out ++ ".loc.tmp") _ _ _ fun xs =>
    touches_wayOutput (Or.inl rfl) (Or.inr rfl) _ _ _ xs).crash fs fs' hc g (fun h => h.elim h1 h2)

/-- C73: relindex changes only its output and pass files. -/
theorem C73_relindex (inflate : Inflate) (sched : Block → Sched) (cut : Option Nat) (passes : Nat)
    (inp wayIndex out : String) (fs fs' : FS)
    (hc : CrashState (relindex inflate sched cut passes inp wayIndex out fs).1 fs fs') (g : String)
    (h1 : g ≠ out) (h2 : ∀ p, g ≠ RelIndex.makePassFilename out p passes) : fs' g = fs g :=
  (touches_process (S := fun f => f = out ∨ ∃ p, f = RelIndex.makePassFilename out p passes) _ _ _ fun xs =>
    touches_relindex (Or.inl rfl) (fun p => Or.inr ⟨p, rfl⟩) _ xs).crash fs fs' hc g
      (fun h => h.elim h1 fun ⟨p, h⟩ => h2 p h)

/-- C73: rewritenodes changes only its output and pass files. -/
theorem C73_rewritenodes (inflate : Inflate) (scheds : Nat → Block → Sched) (cuts : Nat → Option Nat)
    (memory : Option UInt64) (inp index out : String) (fs fs' : FS)
    (hc : CrashState (rewritenodes inflate scheds cuts memory inp index out fs).1 fs fs') (g : String)
    (h1 : g ≠ out) (h2 : ∀ p n, g ≠ RelIndex.makePassFilename out p n) : fs' g = fs g :=
  (touches_rewritenodes (S := fun f => f = out ∨ ∃ p n, f = RelIndex.makePassFilename out p n) (Or.inl rfl)
    (fun p n => Or.inr ⟨p, n, rfl⟩) _ _ _ _ _ _).crash fs fs' hc g (fun h => h.elim h1 fun ⟨p, n, h⟩ => h2 p n h)

/-- C73: tagfilter and decompress change only their output. -/
theorem C73_tagfilter (inflate : Inflate) (sched : Block → Sched) (cut : Option Nat) (inp out : String) (fs fs' : FS)
    (hc : CrashState (tagfilter inflate sched cut inp out fs).1 fs fs') (g : String) (h1 : g ≠ out) : fs' g = fs g :=
  (touches_process (S := fun f => f = out) _ _ _ fun xs => touches_filterOutput (by rfl) xs).crash fs fs' hc g h1

/-- See `C73_tagfilter`. -/
theorem C73_decompress (inflate : Inflate) (sched : Block → Sched) (cut : Option Nat) (inp out : String) (fs fs' : FS)
    (hc : CrashState (decompress inflate sched cut inp out fs).1 fs fs') (g : String) (h1 : g ≠ out) : fs' g = fs g :=
  (touches_process (S := fun f => f = out) _ _ _ fun xs => touches_decompressOutput (by rfl) xs).crash fs fs' hc g h1

/-- C73: also at any moment of the concurrent run, even one in which a worker panics: the writer of the blocks (for
instance; the others are alike) changes only its output. -/
theorem C73_concurrent (out : String) (s : St Rewrite.Out) (fs fs' : FS)
    (hd : DiesIn (Rewrite.output out) (Rewrite.output out) s fs fs') (g : String) (h1 : g ≠ out) : fs' g = fs g := by
  unfold DiesIn at hd
  rw [ite_self] at hd
  exact (touches_output (S := fun f => f = out) rfl _).crash fs fs' hd g h1

/-- C73: the reason why the output has to be another file than the input: the file is emptied before it is read (the input
of this run is still mapped, but has no bytes any more). -/
theorem C73_same_file (inflate : Inflate) (sched : Block → Sched) (f : String) (file : List UInt8) (fs : FS)
    (hin : Holds fs f file) (bs : List Block) (hs : split file = .ok bs) (outs : List (List UInt8))
    (ho : mapRes (decompressWork inflate sched) bs = .ok outs) :
    ∃ fs', CrashState (decompress inflate sched none f f fs).1 fs fs' ∧ Holds fs' f [] := by
  refine ⟨runOps [.create f] fs, ?_, 0, set_same _ _ _⟩
  unfold decompress
  rw [process_run none _ f _ hs ho fs hin, decompress_output_ops]
  exact ⟨[.create f], _, rfl, Or.inl rfl⟩

end Osm.Props
