import Verif.Lemmas.WayOutput
import Verif.Spec.NodeIndexer

/-!
# C37–C42: the way index
-/

namespace Osm.Props
open Osm Osm.T Osm.Spec Osm.WayIndex Osm.WayIndexer

/-! ## C37 -/

/-- C37: for an id below 2^31 and an offset below 2^33 packing succeeds and unpacking gives both back.
Missing: the limits themselves are accepted and corrupt (`C37_false`). -/
theorem C37_round_trip_partial (id off : Int64) (h0 : 0 ≤ id.toInt) (h1 : id.toInt < 2 ^ 31) (h2 : 0 ≤ off.toInt)
    (h3 : off.toInt < 2 ^ 33) : ∃ d, MakeIndexData id off = .ok d ∧ WayID d = id ∧ Offset d = off := by
  refine ⟨_, make_ok id off off.toInt.toNat h0 h1 (by omega) (by omega), ?_, ?_⟩
  · apply Int64.toInt_inj.1
    rw [wayID_eq, entry_id _ _ h1 (by omega)]; omega
  · apply Int64.toInt_inj.1
    rw [offset_eq, entry_off _ _ h1 (by omega)]; omega

/-- C37: above the limits packing panics. -/
theorem C37_too_large (id off : Int64) (h : 2 ^ 31 < id.toInt ∨ 2 ^ 33 < off.toInt) :
    MakeIndexData id off = .panic := by
  unfold MakeIndexData
  split
  · rfl
  · rename_i h1
    rw [gt_iff_lt, Int64.lt_iff_toInt_lt, show (0x80000000 : Int64).toInt = 0x80000000 from rfl] at h1
    rw [if_pos]
    rw [gt_iff_lt, Int64.lt_iff_toInt_lt, show (0x200000000 : Int64).toInt = 0x200000000 from rfl]
    omega

/-- C37 is false of the code at the limits: way 2^31 becomes way 0, and offset 2^33 becomes offset 0 of another
way. -/
theorem C37_false :
    (∃ d, MakeIndexData 0x80000000 5 = .ok d ∧ WayID d = 0 ∧ Offset d = 5) ∧
    (∃ d, MakeIndexData 6 0x200000000 = .ok d ∧ WayID d = 7 ∧ Offset d = 0) :=
  ⟨⟨5, by decide, by decide, by decide⟩, ⟨0xe00000000, by decide, by decide, by decide⟩⟩

/-- C37: so packing non-negative values corrupts exactly at the limits. -/
theorem C37_corrupts_only_at_limits (id off : Int64) (h0 : 0 ≤ id.toInt) (h2 : 0 ≤ off.toInt) (d : UInt64)
    (h : MakeIndexData id off = .ok d) (hl : id.toInt ≠ 2 ^ 31) (hl' : off.toInt ≠ 2 ^ 33) :
    WayID d = id ∧ Offset d = off := by
  by_cases hbig : 2 ^ 31 < id.toInt ∨ 2 ^ 33 < off.toInt
  · rw [C37_too_large id off hbig] at h; cases h
  · obtain ⟨d', e1, e2⟩ := C37_round_trip_partial id off h0 (by omega) h2 (by omega)
    rw [h] at e1; cases e1; exact e2

example : ∃ d, MakeIndexData 123 456 = .ok d ∧ WayID d = 123 ∧ Offset d = 456 :=
  C37_round_trip_partial 123 456 (by decide) (by decide) (by decide) (by decide)

/-! ## C38 -/

/-- C38: a present way is found and its stored locations are returned, whatever the hint. -/
theorem C38_present {si : SubIdx} (hw : WayOrderedSub si) (id : Int64) (hint : Int) (hh : 0 ≤ hint) (d : UInt64)
    (hd : d ∈ si.Ids) (hid : (wId d : Int) = id.toInt) (ls : List Int64)
    (hs : Stored si.Loc si.AlignmentShift d = .ok ls) :
    ∃ r, si.FindLocations id hint = .ok r ∧ r.ok = true ∧ r.locs = ls ∧ 0 ≤ r.hint := by
  obtain ⟨p, c, hp, _, h⟩ := (find_ok hw id hint hh).1 d hd hid
  rw [hs] at h
  exact ⟨_, h, rfl, rfl, hp⟩

/-- C38: if the stored data do not decode, neither does the lookup return. -/
theorem C38_present_fails {si : SubIdx} (hw : WayOrderedSub si) (id : Int64) (hint : Int) (hh : 0 ≤ hint) (d : UInt64)
    (hd : d ∈ si.Ids) (hid : (wId d : Int) = id.toInt) (hs : Stored si.Loc si.AlignmentShift d = .panic) :
    si.FindLocations id hint = .panic := by
  obtain ⟨p, c, hp, _, h⟩ := (find_ok hw id hint hh).1 d hd hid
  rw [hs] at h
  exact h

/-- C38: an absent way is not found, whatever the hint. -/
theorem C38_absent {si : SubIdx} (hw : WayOrderedSub si) (id : Int64) (hint : Int) (hh : 0 ≤ hint)
    (hno : ∀ d ∈ si.Ids, (wId d : Int) ≠ id.toInt) :
    ∃ r, si.FindLocations id hint = .ok r ∧ r.ok = false ∧ r.locs = [] ∧ r.hint = hint := by
  obtain ⟨c, h⟩ := (find_ok hw id hint hh).2 hno
  exact ⟨_, h, rfl, rfl, rfl⟩

/-- C38: found if and only if present. -/
theorem C38_found_iff {si : SubIdx} (hw : WayOrderedSub si) (id : Int64) (hint : Int) (hh : 0 ≤ hint) (r : Found)
    (h : si.FindLocations id hint = .ok r) : r.ok = true ↔ ∃ d ∈ si.Ids, (wId d : Int) = id.toInt := by
  constructor
  · intro hr
    by_cases hex : ∃ d ∈ si.Ids, (wId d : Int) = id.toInt
    · exact hex
    · obtain ⟨r', h', hf, _⟩ := C38_absent hw id hint hh (fun d hd hid => hex ⟨d, hd, hid⟩)
      rw [h] at h'; cases h'
      rw [hr] at hf; cases hf
  · rintro ⟨d, hd, hid⟩
    obtain ⟨p, c, hp, _, h'⟩ := (find_ok hw id hint hh).1 d hd hid
    rw [h] at h'
    obtain ⟨ls, _, h'⟩ := Res.bind_eq_ok.1 h'.symm
    cases h'; rfl

/-- C38: hence the answer does not depend on the hint. -/
theorem C38_hint_independent {si : SubIdx} (hw : WayOrderedSub si) (id : Int64) (h1 h2 : Int) (p1 : 0 ≤ h1)
    (p2 : 0 ≤ h2) :
    (si.FindLocations id h1 >>= fun r => Res.ok (r.locs, r.ok)) =
      (si.FindLocations id h2 >>= fun r => Res.ok (r.locs, r.ok)) := by
  by_cases hex : ∃ d ∈ si.Ids, (wId d : Int) = id.toInt
  · obtain ⟨d, hd, hid⟩ := hex
    obtain ⟨_, _, _, _, e1⟩ := (find_ok hw id h1 p1).1 d hd hid
    obtain ⟨_, _, _, _, e2⟩ := (find_ok hw id h2 p2).1 d hd hid
    rw [e1, e2]
    cases Stored si.Loc si.AlignmentShift d <;> rfl
  · have hno : ∀ d ∈ si.Ids, (wId d : Int) ≠ id.toInt := fun d hd hid => hex ⟨d, hd, hid⟩
    obtain ⟨_, e1⟩ := (find_ok hw id h1 p1).2 hno
    obtain ⟨_, e2⟩ := (find_ok hw id h2 p2).2 hno
    rw [e1, e2]
    rfl

/-- C38: passing each lookup the hint the previous one returned gives the same answers as fresh lookups. -/
theorem C38_chaining {si : SubIdx} (hw : WayOrderedSub si) (ids : List Int64) :
    ∀ h : Int, 0 ≤ h → wayChain si h ids = wayFresh si ids := by
  induction ids with
  | nil => intro h _; rfl
  | cons id ids ih =>
    intro h hh
    have hi := C38_hint_independent hw id h 0 hh (by omega)
    unfold wayChain wayFresh mapRes
    rw [← hi]
    cases hr : si.FindLocations id h with
    | panic => rfl
    | hang => rfl
    | ok r =>
      have hn : 0 ≤ r.hint := by
        by_cases hex : ∃ d ∈ si.Ids, (wId d : Int) = id.toInt
        · obtain ⟨d, hd, hid⟩ := hex
          obtain ⟨p, c, hp, _, h'⟩ := (find_ok hw id h hh).1 d hd hid
          rw [hr] at h'
          obtain ⟨ls, _, h'⟩ := Res.bind_eq_ok.1 h'.symm
          cases h'; exact hp
        · obtain ⟨c, h'⟩ := (find_ok hw id h hh).2 (fun d hd hid => hex ⟨d, hd, hid⟩)
          rw [hr] at h'
          cases h'; exact hh
      simp only [Res.ok_bind]
      rw [ih _ hn]
      rfl

/-- Ways 5 and 9, with two and one location; alignment 2^2. -/
def exampleWays : SubIdx := ⟨[0xa00000000, 0x1200000001], [4, 2, 0, 0, 6, 0, 0, 0], 2, 9⟩

theorem exampleWays_ordered : WayOrderedSub exampleWays :=
  ⟨⟨by decide, by decide, by decide, by decide⟩, by decide⟩

example : Stored exampleWays.Loc exampleWays.AlignmentShift 0xa00000000 = .ok [2, 3] ∧
    wId 0xa00000000 = 5 ∧ 0xa00000000 ∈ exampleWays.Ids ∧
    exampleWays.FindLocations 9 0 = .ok ⟨[3], 1, true, [.hitDefault]⟩ ∧
    exampleWays.FindLocations 7 1 = .ok ⟨[], 1, false, [.missDefault]⟩ := by decide +kernel

/-! ## C39 -/

/-- C39: padding keeps the data, adds between 1 and `amt` zero bytes, and ends on a multiple of `amt`. -/
theorem C39_padding (b : List UInt8) (amt : Nat) (h1 : 1 ≤ amt) (h2 : amt < 2 ^ 63) :
    ∃ k, padToAlignment b amt = .ok (b ++ List.replicate k 0) ∧ 1 ≤ k ∧ k ≤ amt ∧ (b.length + k) % amt = 0 := by
  refine ⟨amt - b.length % amt, pad_ok b amt h1 h2, ?_, ?_, ?_⟩
  · have := Nat.mod_lt b.length (show 0 < amt by omega); omega
  · omega
  · have hm := Nat.mod_lt b.length (show 0 < amt by omega)
    have hd := Nat.div_add_mod b.length amt
    have : b.length + (amt - b.length % amt) = amt * (b.length / amt + 1) := by
      rw [Nat.mul_add, Nat.mul_one]; omega
    rw [this, Nat.mul_mod_right]

/-- C39: each way's data start on a block boundary of its own, at the offset its entry records, and what is
already there is kept. -/
theorem C39_own_boundary (shift amt : Int64) (h : 0 ≤ shift.toInt ∧ shift.toInt < 62) (ha : goShl 1 shift = .ok amt)
    (st : IndexElement) (hst : st.locations.length % 2 ^ shift.toInt.toNat = 0)
    (hsp : st.locations.length / 2 ^ shift.toInt.toNat < 2 ^ 33) (w : Way) (h0 : 0 ≤ w.ID.toInt)
    (h1 : w.ID.toInt < 2 ^ 31) :
    ∃ d data, addWay shift amt st w = .ok ⟨st.blocks ++ [d], st.locations ++ data⟩ ∧
      WayID d = w.ID ∧ wStart shift d = st.locations.length ∧ 1 ≤ data.length ∧
      data.length % 2 ^ shift.toInt.toNat = 0 ∧
      ∀ rest, Pb.DecodeS64PackedDeltaZero ⟨data ++ rest, []⟩ = .ok (indexedRefs w) := by
  obtain ⟨amt', e1, e2⟩ := amt_ok shift h
  rw [ha] at e1; cases e1
  obtain ⟨ds, l⟩ := st
  dsimp only at hst hsp ⊢
  have hl : l.length = l.length / 2 ^ shift.toInt.toNat * 2 ^ shift.toInt.toNat := by
    have := Nat.div_add_mod l.length (2 ^ shift.toInt.toNat)
    rw [hst, Nat.add_zero, Nat.mul_comm] at this
    exact this.symm
  refine ⟨_, _, addWay_ok shift amt h e2 ds l _ hl hsp w h0 h1, ?_, ?_, ?_, ?_, wayData_decode shift w⟩
  · apply Int64.toInt_inj.1
    rw [wayID_eq, entry_id _ _ h1 hsp]; omega
  · unfold wStart
    rw [entry_off _ _ h1 hsp]; exact hl.symm
  · rw [wayData_length]
    exact Nat.mul_pos (wayBlocks_pos shift w) (Nat.two_pow_pos _)
  · rw [wayData_length, Nat.mul_mod_left]

example : padToAlignment [1, 2, 3] (8 : Nat) = .ok [1, 2, 3, 0, 0, 0, 0, 0] ∧
    padToAlignment [1, 2, 3, 4] (4 : Nat) = .ok [1, 2, 3, 4, 0, 0, 0, 0] := by decide

/-! ## C40 -/

/-- C40: the run completes, and in the file it leaves, loaded, every way of the input is found with its
references (leading zeros and consecutive repeats removed), and no other way is, whatever the hint. -/
theorem C40_lookup (shift : Int64) (blocks : List (Option PrimitiveBlock))
    (h : WaysIndexable shift (allWays blocks)) (hne : allWays blocks ≠ []) (out : String) (sched : Nat → Nat) (fs : FS) :
    ∃ batches fs' file ix si, workAll shift blocks = .ok batches ∧
      (Output out shift sched never batches).exec fs = .ok ((), fs') ∧ Holds fs' out file ∧
      NewWayIndex file = .ok ix ∧ ix.SubIndexWithScaledPass 0 1 = .ok si ∧
      ∀ (id : Int64) (hint : Int), 0 ≤ hint →
        (∀ w ∈ allWays blocks, w.ID = id →
          ∃ r, si.FindLocations id hint = .ok r ∧ r.ok = true ∧ r.locs = indexedRefs w) ∧
        ((∀ w ∈ allWays blocks, w.ID ≠ id) → ∃ r, si.FindLocations id hint = .ok r ∧ r.ok = false) := by
  have hsp := h.space
  have hwork := workAll_ok shift blocks h
  have hb := batches_ok shift h.range.1 (blocks.map waysOf) 0 0 (by rw [← allWays_eq]; omega)
    (by rw [← allWays_eq]; exact h.ids)
  rw [← allWays_eq, Nat.zero_add] at hb
  have hspec := loopSpec out (out ++ ".loc.tmp") (tmp_ne out) shift ((blocks.map waysOf).map (elementOf shift)) 0 0
  obtain ⟨r1, -, -⟩ := withHeader_exec out sched never _ _ hspec (header shift) (header_length shift) fs
  obtain ⟨fs', m, e1, ⟨pos, e2⟩, e3, e4, e5⟩ := r1 (Int64.ofNat (allWays blocks).length)
    (bytesOf (entries shift 0 (allWays blocks))) (locData shift (allWays blocks)) (by
      unfold batchBytes
      rw [show (0 : Int64) = Int64.ofNat 0 from rfl, hb]; rfl)
  rw [List.take_of_length_le (e5.1 fun _ => rfl)] at e2
  have hlen := entries_length shift (allWays blocks) 0
  have hload := load_file (entries shift 0 (allWays blocks)) (locData shift (allWays blocks)) shift (by
    have := length_le_blocks shift (allWays blocks)
    omega)
  rw [hlen] at hload
  obtain ⟨si, s1, s2, s3, s4, s5⟩ := single_pass shift (allWays blocks) h hne
  obtain ⟨m1, m2⟩ := entries_mem shift (allWays blocks) h.ids 0 [] (by simp) (by omega)
  rw [List.nil_append] at m1
  refine ⟨_, fs', _, _, si, hwork, by rw [output_shape]; exact e1, ⟨pos, e2⟩, hload, s1, ?_⟩
  intro id hint hh
  refine ⟨?_, ?_⟩
  · rintro w hw rfl
    obtain ⟨d, hd, hid⟩ := m2 w hw
    obtain ⟨w', hw', q1, _, _, q4⟩ := m1 d hd
    have : w' = w := by
      have hs := h.ascending
      rw [hid] at q1
      obtain ⟨i, hi, rfl⟩ := List.getElem_of_mem hw
      obtain ⟨j, hj, rfl⟩ := List.getElem_of_mem hw'
      rcases Nat.lt_trichotomy i j with hij | hij | hij
      · have := (List.pairwise_iff_getElem.1 hs) i j hi hj hij; omega
      · subst hij; rfl
      · have := (List.pairwise_iff_getElem.1 hs) j i hj hi hij; omega
    subst this
    obtain ⟨r, a, b, c, _⟩ := C38_present s5 w'.ID hint hh d (by rw [s2]; exact hd) hid _ (by rw [s3, s4]; exact q4)
    exact ⟨r, a, b, c⟩
  · intro hno
    obtain ⟨r, a, b, _⟩ := C38_absent s5 id hint hh (by
      intro d hd hid
      rw [s2] at hd
      obtain ⟨w, hw, q1, _⟩ := m1 d hd
      exact hno w hw (Int64.toInt_inj.1 (by omega)))
    exact ⟨r, a, b⟩

/-- C40: what is stored determines the way's path: removing leading zeros and consecutive repeats loses nothing
else. -/
theorem C40_refs_spec (w : Way) : NoRepeat 0 (indexedRefs w) ∧ (indexedRefs w).Sublist w.Refs ∧
    ∀ r ∈ w.Refs, r = 0 ∨ r ∈ indexedRefs w := by
  rw [← filterRefs_eq]
  refine ⟨filterRefs_noRepeat _ _, ?_, ?_⟩
  · have : ∀ (xs : List Int64) x, (filterRefs x xs).Sublist xs := by
      intro xs
      induction xs with
      | nil => intro x; exact .slnil
      | cons y ys ih =>
        intro x
        unfold filterRefs
        split
        · exact (ih y).cons_cons y
        · exact (ih x).cons y
    exact this _ _
  · have : ∀ (xs : List Int64) x, ∀ r ∈ xs, r = x ∨ r ∈ filterRefs x xs := by
      intro xs
      induction xs with
      | nil => intro x r hr; simp at hr
      | cons y ys ih =>
        intro x r hr
        unfold filterRefs
        split
        · rcases List.mem_cons.1 hr with rfl | hr
          · simp
          · rcases ih y r hr with rfl | hr <;> simp [*]
        · rename_i hne
          simp only [ne_eq, Decidable.not_not] at hne
          rcases List.mem_cons.1 hr with rfl | hr
          · exact Or.inl hne
          · exact ih x r hr
    exact this _ _

/-- A block of ways with the given ids, each with four references. -/
def exampleWayBlock (ids : List Int64) : PrimitiveBlock :=
  ⟨none, none, [⟨none, none, ids.map fun i => ⟨i, [], [], [i * 10, i * 10, 7, 7]⟩, [], [], []⟩], 100, 1000, 0, 0⟩

def exampleWayInput : List (Option PrimitiveBlock) := [none, some (exampleWayBlock [3, 5]), some (exampleWayBlock [8])]

example : WaysIndexable 3 (allWays exampleWayInput) ∧ allWays exampleWayInput ≠ [] ∧
    indexedRefs ⟨3, [], [], [0, 30, 30, 7, 7, 30]⟩ = [30, 7, 30] :=
  ⟨⟨by decide, by decide +kernel, by decide +kernel, by decide +kernel, by decide +kernel⟩, by decide, by decide⟩

/-! ## C41 -/

/-- C41, exactly when it holds: for an index in which the first way's data are at the start and the ways' data in
order, the passes cover the index iff the last way's data start before `(L/n)*n`, where `L` is the size of the
location data. Missing: the other cases, in which it fails (`C41_false`). -/
theorem C41_cover_iff_partial (ix : WayIdx) (hw : WayOrdered ix.Ids ix.Loc ix.AlignmentShift)
    (hs : ix.Ids.Pairwise fun a b => wStart ix.AlignmentShift a ≤ wStart ix.AlignmentShift b)
    (h0 : ∀ d, ix.Ids.head? = some d → wStart ix.AlignmentShift d = 0) (n : Nat) (hn : 1 ≤ n) (hn63 : n < 2 ^ 63) :
    WayPassesCover ix n ↔ ∃ d, ix.Ids.getLast? = some d ∧ wStart ix.AlignmentShift d < ix.Loc.length / n * n :=
  passes_iff ix hw hs h0 n hn hn63

/-- C41: it holds whenever the last way's data take at least as many bytes as there are passes (in particular
with up to `2^shift` passes on a file written by the indexer). -/
theorem C41_few_passes (ix : WayIdx) (hw : WayOrdered ix.Ids ix.Loc ix.AlignmentShift)
    (hs : ix.Ids.Pairwise fun a b => wStart ix.AlignmentShift a ≤ wStart ix.AlignmentShift b)
    (h0 : ∀ d, ix.Ids.head? = some d → wStart ix.AlignmentShift d = 0) (n : Nat) (hn : 1 ≤ n) (hn63 : n < 2 ^ 63)
    (d : UInt64) (hd : ix.Ids.getLast? = some d) (hl : wStart ix.AlignmentShift d + n ≤ ix.Loc.length) :
    WayPassesCover ix n := by
  rw [passes_iff ix hw hs h0 n hn hn63]
  refine ⟨d, hd, ?_⟩
  have := Nat.div_add_mod ix.Loc.length n
  have := Nat.mod_lt ix.Loc.length (show 0 < n by omega)
  rw [Nat.mul_comm]
  omega

/-- C41: on an index written by the indexer the passes cover it for any number of passes up to the block size,
and for one pass always. -/
theorem C41_indexed (shift : Int64) (ws : List Way) (h : WaysIndexable shift ws) (hne : ws ≠ []) (n : Nat) (hn : 1 ≤ n)
    (hn2 : n ≤ 2 ^ shift.toInt.toNat) : WayPassesCover ⟨entries shift 0 ws, locData shift ws, shift⟩ n := by
  have hp : 2 ^ shift.toInt.toNat < 2 ^ 63 := Nat.pow_lt_pow_right (by omega) (by have := h.range; omega)
  have hsp := h.space
  have hs2 := (entries_sorted shift ws h.ids h.ascending 0 (by omega)).2
  have hel : entries shift 0 ws ≠ [] := by
    intro h0
    have := entries_length shift ws 0
    rw [h0] at this
    exact hne (List.length_eq_zero_iff.1 this.symm)
  refine C41_few_passes _ (entries_ordered shift ws h)
    (hs2.imp fun hab => Nat.mul_le_mul_right _ (Nat.le_of_lt hab)) ?_ n hn (by omega)
    ((entries shift 0 ws).getLast hel) (List.getLast?_eq_some_getLast hel) ?_
  · intro d hd
    obtain ⟨w, ws', rfl⟩ := List.exists_cons_of_ne_nil hne
    simp only [entries, List.head?_cons, Option.some.injEq] at hd
    subst hd
    unfold wStart
    rw [entry_off _ _ (h.ids w (by simp)).2 (by omega), Nat.zero_mul]
  · obtain ⟨w, _, _, _, q3, _⟩ := (entries_mem shift ws h.ids 0 [] (by simp) (by omega)).1 _
      (List.getLast_mem hel)
    show wStart shift _ + n ≤ (locData shift ws).length
    unfold wStart
    rw [locData_length]
    have hpos := wayBlocks_pos shift w
    have := Nat.mul_le_mul_right (2 ^ shift.toInt.toNat)
      (show wOffset ((entries shift 0 ws).getLast hel) + 1 ≤ waysBlocks shift ws by omega)
    rw [Nat.add_mul, Nat.one_mul] at this
    omega

/-- Five ways of one block each. -/
def fiveWays : WayIdx :=
  ⟨[0x200000000, 0x400000001, 0x600000002, 0x800000003, 0xa00000004],
   [2, 0, 0, 0, 0, 0, 0, 0, 4, 0, 0, 0, 0, 0, 0, 0, 6, 0, 0, 0, 0, 0, 0, 0, 8, 0, 0, 0, 0, 0, 0, 0,
    10, 0, 0, 0, 0, 0, 0, 0], 3⟩

theorem fiveWays_ordered : WayOrdered fiveWays.Ids fiveWays.Loc fiveWays.AlignmentShift ∧
    (fiveWays.Ids.Pairwise fun a b => wStart fiveWays.AlignmentShift a ≤ wStart fiveWays.AlignmentShift b) ∧
    (∀ d, fiveWays.Ids.head? = some d → wStart fiveWays.AlignmentShift d = 0) :=
  ⟨⟨by decide, by decide, by decide, by decide⟩, by decide, by
    intro d hd
    simp only [fiveWays, List.head?_cons, Option.some.injEq] at hd
    subst hd
    decide⟩

/-- C41 is false of the code: with 16 passes over 40 bytes of location data the last of five ways is in none of
the passes; with 41 passes no pass can be created. -/
theorem C41_false :
    (¬ WayPassesCover fiveWays 16) ∧
    (∃ subs, mapRes (fun p => fiveWays.SubIndexWithScaledPass (Int64.ofNat p) 16) (List.range 16) = .ok subs ∧
      ∀ s ∈ subs, 0xa00000004 ∉ s.Ids) ∧
    fiveWays.SubIndexWithScaledPass 0 41 = .panic := by
  obtain ⟨h1, h2, h3⟩ := fiveWays_ordered
  refine ⟨?_, ?_, by decide +kernel⟩
  · rw [passes_iff _ h1 h2 h3 16 (by omega) (by omega)]
    rintro ⟨d, hd, hlt⟩
    simp only [fiveWays, List.getLast?_cons_cons, List.getLast?_singleton, Option.some.injEq] at hd
    subst hd
    revert hlt
    decide
  · have key : ∀ r : Res (List SubIdx),
        (match r with | .ok subs => subs.all (fun s => !s.Ids.contains 0xa00000004) | _ => false) = true →
        ∃ subs, r = .ok subs ∧ ∀ s ∈ subs, 0xa00000004 ∉ s.Ids := by
      intro r h
      cases r with
      | ok subs =>
        refine ⟨subs, rfl, fun s hs hm => ?_⟩
        have := List.all_eq_true.1 h s hs
        rw [List.contains_iff_mem.2 hm] at this
        cases this
      | panic => cases h
      | hang => cases h
    exact key _ (by decide +kernel)

example : WayPassesCover fiveWays 8 := by
  obtain ⟨h1, h2, h3⟩ := fiveWays_ordered
  exact C41_few_passes _ h1 h2 h3 8 (by omega) (by omega) 0xa00000004 rfl (by decide)

/-! ## C42 -/

/-- C42: whatever the input, chunking and cancellation, a crash at any point of the run leaves the output file as
it was before the run, or a file for which opening and taking any pass panics, or else the header write (the last
operation) has begun. -/
theorem C42_crash (out : String) (shift : Int64) (sched : Nat → Nat) (cancelled : Nat → Bool)
    (bs : List (Option IndexElement)) (fs fs' : FS)
    (hc : CrashState (Output out shift sched cancelled bs fs).1 fs fs') :
    fs' out = fs out ∨
    (∃ file, Holds fs' out file ∧ ∀ p n, (NewWayIndex file >>= fun ix => ix.SubIndexWithScaledPass p n) = .panic) ∨
    ∃ done hd k, Output out shift sched cancelled bs fs = (done ++ [.write out hd], .ok ()) ∧ 1 ≤ k ∧
      fs' = (FsOp.write out (hd.take k)).run (runOps done fs) := by
  have hspec := loopSpec out (out ++ ".loc.tmp") (tmp_ne out) shift bs 0 0
  rw [output_shape] at hc ⊢
  rcases withHeader_crash_ops out sched cancelled _ _ hspec (header shift) fs fs' hc with h | ⟨x, h1, h2⟩ | h
  · exact Or.inl h
  · exact Or.inr (Or.inl ⟨x.data, ⟨x.pos, h1⟩, load_noHeader h2⟩)
  · exact Or.inr (Or.inr h)

/-- C42: with a new output file, a crash before the header write leaves no file or one that cannot be used. -/
theorem C42_crash_new_file (out : String) (shift : Int64) (sched : Nat → Nat) (cancelled : Nat → Bool)
    (bs : List (Option IndexElement)) (fs fs' : FS) (hnew : fs out = none)
    (hc : CrashState (outputBody out shift sched cancelled bs fs).1 fs fs') :
    fs' out = none ∨
    ∃ file, Holds fs' out file ∧ ∀ p n, (NewWayIndex file >>= fun ix => ix.SubIndexWithScaledPass p n) = .panic := by
  have hspec := loopSpec out (out ++ ".loc.tmp") (tmp_ne out) shift bs 0 0
  have := twoFile_crash out sched cancelled _ _ hspec fs
  rcases this fs' hc with h | ⟨x, h1, h2⟩
  · left; rw [h, hnew]
  · exact Or.inr ⟨x.data, ⟨x.pos, h1⟩, load_noHeader h2⟩

/-- C36 for ways: a cancelled run of the way indexer also completes and leaves an index that is accepted, with all
ways and no locations (looking one up panics). -/
theorem C36_false_ways (out : String) (sched : Nat → Nat) (fs : FS) :
    ∃ batches fs' file ix si, workAll 3 exampleWayInput = .ok batches ∧
      (Output out 3 sched (fun _ => true) batches).exec fs = .ok ((), fs') ∧ Holds fs' out file ∧
      NewWayIndex file = .ok ix ∧ ix.Ids.length = 3 ∧ ix.Loc = [] ∧ ix.SubIndexWithScaledPass 0 1 = .panic ∧
      si = SubIdx.mk ix.Ids ix.Loc ix.AlignmentShift 8 ∧ si.FindLocations 3 0 = .panic := by
  have h : WaysIndexable 3 (allWays exampleWayInput) :=
    ⟨by decide, by decide +kernel, by decide +kernel, by decide +kernel, by decide +kernel⟩
  have hb := batches_ok 3 h.range.1 (exampleWayInput.map waysOf) 0 0 (by rw [← allWays_eq]; have := h.space; omega)
    (by rw [← allWays_eq]; exact h.ids)
  rw [← allWays_eq, Nat.zero_add] at hb
  have hspec := loopSpec out (out ++ ".loc.tmp") (tmp_ne out) 3 ((exampleWayInput.map waysOf).map (elementOf 3)) 0 0
  obtain ⟨r1, -, -⟩ := withHeader_exec out sched (fun _ => true) _ _ hspec (header 3) (header_length 3) fs
  obtain ⟨fs', m, e1, ⟨pos, e2⟩, e3, e4, e5⟩ := r1 (Int64.ofNat (allWays exampleWayInput).length)
    (bytesOf (entries 3 0 (allWays exampleWayInput))) (locData 3 (allWays exampleWayInput)) (by
      unfold batchBytes
      rw [show (0 : Int64) = Int64.ofNat 0 from rfl, hb]; rfl)
  rw [e5.2 rfl, List.take_zero] at e2
  have hlen := entries_length 3 (allWays exampleWayInput) 0
  have hload := load_file (entries 3 0 (allWays exampleWayInput)) [] 3 (by rw [hlen]; decide)
  rw [hlen] at hload
  refine ⟨_, fs', _, _, _, workAll_ok 3 exampleWayInput h, by rw [output_shape]; exact e1, ⟨pos, e2⟩, hload, ?_, rfl, ?_, rfl, ?_⟩
  · decide +kernel
  · decide +kernel
  · decide +kernel

end Osm.Props
