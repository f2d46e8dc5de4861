import Verif.Lemmas.LowIds
import Verif.Props.NodeIndexer

/-!
# C33 for inputs with node ids 0 and 1
-/

namespace Osm.Props
open Osm Osm.T Osm.Spec Osm.NodeIndex Osm.NodeIndexer

/-- C33, exact result for all ids from 0 on: the indexer completes; the file it leaves loads as a well-formed
index; the ids with a place in it are `rangedIds`, its locations are `storedLocs`, and the k-th of the ids
has the k-th of the locations (none if it is zero). The two lists differ in length when nodes at the start of
a block get into no range: their locations are stored nevertheless, so that all later ids of the file get the
location of an earlier slot. -/
theorem C33_exact (blocks : List (Option PrimitiveBlock)) (h : Indexable0 blocks) (out : String)
    (sched : Nat → Nat) (fs : FS) :
    ∃ batches fs' file ix, mapRes work blocks = .ok batches ∧
      (Output out sched never batches).exec fs = .ok ((), fs') ∧ Holds fs' out file ∧
      NewNodeIndex file = .ok ix ∧ WellFormed ix.elements ix.locations ∧ ix.locations = storedLocs blocks ∧
      ∀ (id : UInt64) l, HasLoc ix.elements ix.locations id.toNat l ↔
        ∃ k : Nat, (rangedIds blocks)[k]? = some (id.toNat : Int) ∧ (storedLocs blocks)[k]? = some l ∧ l ≠ 0 := by
  obtain ⟨bs, es, h1, h2, h3, h4, h5, -, -, -, -, h6⟩ := run_low blocks h
  have hspec := loopSpec out (out ++ ".loc.tmp") (tmp_ne out) bs 0 0
  obtain ⟨r1, -, -⟩ := withHeader_exec out sched never _ _ hspec header header_length fs
  obtain ⟨fs', m, e1, ⟨pos, e2⟩, e3, e4, e5⟩ := r1 (UInt64.ofNat es.length) _ _ (by
    unfold batchBytes; rw [h3]; rfl)
  have hm := e5.1 (fun _ => rfl)
  rw [List.take_of_length_le hm] at e2
  refine ⟨bs, fs', _, ⟨es, storedLocs blocks⟩, h1, ?_, ⟨pos, e2⟩, load_file es _ h5, h4, rfl, ?_⟩
  · rw [output_shape]; exact e1
  · intro id l
    exact h6 id.toNat l

/-- Nothing below 2 has a place in the index. -/
theorem ranged_from_two (blocks : List (Option PrimitiveBlock)) (h : Indexable0 blocks) :
    ∀ i ∈ rangedIds blocks, 2 ≤ i := by
  obtain ⟨_, _, _, _, _, _, _, _, _, h8, _, _⟩ := run_low blocks h
  exact h8

/-- With ids from 2 on the two specifications agree. -/
theorem indexable_of_zero (blocks : List (Option PrimitiveBlock)) (h : Indexable0 blocks)
    (h2 : ∀ x ∈ allNodes blocks, 2 ≤ x.2.id.toInt) : Indexable blocks :=
  ⟨h.complete, h.ascending, h2, h.blockSize, h.total⟩

/-- C33, when it holds: the written index gives every id exactly the location of the node with that id
if and only if no node of the input has id 0 or 1. -/
theorem C33_iff (blocks : List (Option PrimitiveBlock)) (h : Indexable0 blocks) (out : String)
    (sched : Nat → Nat) (fs : FS) :
    ∃ batches fs' file ix, mapRes work blocks = .ok batches ∧
      (Output out sched never batches).exec fs = .ok ((), fs') ∧ Holds fs' out file ∧
      NewNodeIndex file = .ok ix ∧
      ((∀ (id : UInt64) l, HasLoc ix.elements ix.locations id.toNat l ↔
        ∃ x ∈ allNodes blocks, x.2.id.toInt = id.toNat ∧ nodeLocation x.1 x.2.lat x.2.lon = .ok l) ↔
       ∀ x ∈ allNodes blocks, x.2.id.toInt ≠ 0 ∧ x.2.id.toInt ≠ 1) := by
  obtain ⟨bs, fs', file, ix, h1, h2, h3, h4, h5, h6, h7⟩ := C33_exact blocks h out sched fs
  refine ⟨bs, fs', file, ix, h1, h2, h3, h4, ?_, ?_⟩
  · intro hall x hx
    have hi := h.ids x hx
    have hn := i64_nat hi
    obtain ⟨k, hk, _⟩ := (h7 x.2.id.toUInt64 (locVal x.1 x.2)).1 ((hall x.2.id.toUInt64 (locVal x.1 x.2)).2
      ⟨x, hx, hn.symm, (nodeLocation_eq x.1 x.2).1⟩)
    have := ranged_from_two blocks h _ (List.mem_of_getElem? hk)
    omega
  · intro hne
    have hi : Indexable blocks := indexable_of_zero blocks h (fun x hx => by
      have := h.ids x hx
      have := hne x hx
      omega)
    obtain ⟨bs', fs2, file', ix', g1, g2, g3, g4, g5, g6, g7, g8⟩ := C33_index_partial blocks hi out sched fs
    rw [h1] at g1
    cases g1
    rw [h2] at g2
    cases g2
    obtain ⟨p, hp⟩ := h3
    obtain ⟨q, hq⟩ := g3
    rw [hp] at hq
    cases hq
    rw [h4] at g4
    cases g4
    exact g8

theorem fr_none : ∀ (es : List IndexElement) (target total : UInt64) (i : Nat) (last : IndexElement),
    es.getLast? = some last → (∀ e ∈ es, 1 ≤ rCount e) →
    total.toNat + slotCount es ≤ target.toNat →
    (firstReaching target i total es).1 = none := by
  intro es
  induction es with
  | nil => intro _ _ _ _ h; simp at h
  | cons e es ih =>
    intro target total i last hl hp hs
    have he := hp e (by simp)
    have hsc : slotCount (e :: es) = rCount e + slotCount es := by simp [slotCount]
    rw [hsc] at hs
    unfold firstReaching
    rw [if_neg (by simp only [ge_iff_le, UInt64.le_iff_toNat_le]; omega)]
    have hc : e.Count.toNat = rCount e := count_eq e
    cases es with
    | nil => rfl
    | cons e2 es =>
      refine ih target _ _ last (by simpa using hl) (fun q hq => hp q (by simp [hq])) ?_
      rw [UInt64.toNat_add, hc]
      have := target.toNat_lt
      omega

/-- C33, exact result seen through lookups: any id, with any hint, in the loaded index (one pass). -/
theorem C33_exact_lookup (blocks : List (Option PrimitiveBlock)) (h : Indexable0 blocks)
    (hne : rangedIds blocks ≠ []) (out : String) (sched : Nat → Nat) (fs : FS) :
    ∃ batches fs' file ix si, mapRes work blocks = .ok batches ∧
      (Output out sched never batches).exec fs = .ok ((), fs') ∧ Holds fs' out file ∧
      NewNodeIndex file = .ok ix ∧ ix.SubIndex 0 1 = .ok si ∧
      ∀ (id : UInt64) (hint : Int), 0 ≤ hint → ∃ r, si.findNode id hint = .ok r ∧
        ∀ l, (r.ok = true ∧ r.loc = l) ↔
          ∃ k : Nat, (rangedIds blocks)[k]? = some (id.toNat : Int) ∧ (storedLocs blocks)[k]? = some l ∧
            l ≠ 0 := by
  obtain ⟨bs, es, h1, h2, h3, h4, h5, h8, h9, -, h10, h6⟩ := run_low blocks h
  obtain ⟨bs', fs', file, ix, g1, g2, g3, g4, g5, g6, g7⟩ := C33_exact blocks h out sched fs
  have hix : ix = ⟨es, storedLocs blocks⟩ := by
    have hspec := loopSpec out (out ++ ".loc.tmp") (tmp_ne out) bs 0 0
    obtain ⟨r1, -, -⟩ := withHeader_exec out sched never _ _ hspec header header_length fs
    obtain ⟨fs2, m, e1, ⟨pos, e2⟩, e3, e4, e5⟩ := r1 (UInt64.ofNat es.length) _ _ (by
      unfold batchBytes; rw [h3]; rfl)
    have hm := e5.1 (fun _ => rfl)
    rw [List.take_of_length_le hm] at e2
    rw [h1] at g1
    cases g1
    rw [output_shape, e1] at g2
    cases g2
    obtain ⟨p, hp⟩ := g3
    rw [e2] at hp
    cases hp
    have := load_file es (storedLocs blocks) h5
    rw [this] at g4
    cases g4
    rfl
  subst hix
  have hes : es ≠ [] := fun he => hne (h10 he)
  have hlen : es.length ≠ 0 := fun he => hes (List.eq_nil_of_length_eq_zero he)
  have hfr0 : firstReaching 0 0 0 es = (some 0, 0) := by
    cases es with
    | nil => exact absurd rfl hes
    | cons e es => rfl
  have hL : (UInt64.ofNat (storedLocs blocks).length).toNat = (storedLocs blocks).length := by
    rw [UInt64.toNat_ofNat']; omega
  have hsub : NodeIdx.SubIndex ⟨es, storedLocs blocks⟩ 0 1 =
      .ok ⟨es, storedLocs blocks, (es.getLast hes).LastID⟩ := by
    have hz : UInt64.ofNat (storedLocs blocks).length / 1 = UInt64.ofNat (storedLocs blocks).length :=
      UInt64.div_one
    have h0 : UInt64.ofNat (storedLocs blocks).length * 0 = 0 := UInt64.mul_zero
    have h1' : (0 : UInt64) + UInt64.ofNat (storedLocs blocks).length = UInt64.ofNat (storedLocs blocks).length :=
      UInt64.zero_add _
    have hfr : (firstReaching (UInt64.ofNat (storedLocs blocks).length) 0 0 es).1 = none :=
      fr_none es _ 0 0 (es.getLast hes) (List.getLast?_eq_some_getLast hes) h4.nonempty
        (by rw [hL]; show 0 + _ ≤ _; omega)
    unfold NodeIdx.SubIndex
    simp only [hz, h0, h1', hfr0, Option.getD_some, List.drop_zero, hfr, Option.getD_none, hlen, if_false,
      List.take_length, ← List.getLast?_eq_getElem?, List.getLast?_eq_some_getLast hes]
    rfl
  have hw := C28_passes_well_formed _ h4 0 1 _ hsub
  refine ⟨bs', fs', file, _, _, g1, g2, g3, g4, hsub, ?_⟩
  intro id hint hh
  obtain ⟨r, hr, hr1, _⟩ := C28_lookup_exact hw id hint hh
  refine ⟨r, hr, fun l => ?_⟩
  rw [hr1 l]
  exact h6 id.toNat l

/-! ### Example: nodes 1, 2, 10, 11 in one block, 20 in the next -/

/-- The input of `C33_false` and a second block. -/
def lowInput : List (Option PrimitiveBlock) := [some (exampleBlock [1, 2, 10, 11]), some (exampleBlock [20])]

theorem lowInput_indexable : Indexable0 lowInput where
  complete := by
    intro pb hpb
    simp only [lowInput, List.mem_cons, Option.some.injEq, List.not_mem_nil, or_false] at hpb
    rcases hpb with rfl | rfl <;>
    · intro pg hpg dn hdn
      simp only [exampleBlock, List.mem_cons, List.not_mem_nil, or_false] at hpg
      subst hpg
      simp only [Option.some.injEq] at hdn
      subst hdn
      simp
  ascending := by decide +kernel
  ids := by decide +kernel
  blockSize := by
    intro pb hpb
    simp only [lowInput, List.mem_cons, Option.some.injEq, List.not_mem_nil, or_false] at hpb
    rcases hpb with rfl | rfl <;> decide +kernel
  total := by decide +kernel

/-- 10, 11 and 20 have a place; they are given the locations of nothing, node 1 and node 2. -/
example : Indexable0 lowInput ∧ rangedIds lowInput = [10, 11, 20] ∧
    (storedLocs lowInput).take 3 = [0, locVal (exampleBlock []) ⟨1, 1000, 2000⟩, locVal (exampleBlock []) ⟨2, 2000, 4000⟩] ∧
    (storedLocs lowInput).length = 6 :=
  ⟨lowInput_indexable, by decide +kernel, by decide +kernel, by decide +kernel⟩

/-- C33: so a node of a later block is given the location of a node with another id (node 20 that of node 2). -/
theorem C33_false_later_blocks (out : String) (sched : Nat → Nat) (fs : FS) :
    ∃ batches fs' file ix si, mapRes work lowInput = .ok batches ∧
      (Output out sched never batches).exec fs = .ok ((), fs') ∧ Holds fs' out file ∧
      NewNodeIndex file = .ok ix ∧ ix.SubIndex 0 1 = .ok si ∧
      ∃ r, si.findNode 20 0 = .ok r ∧ r.ok = true ∧ nodeLocation (exampleBlock []) 2000 4000 = .ok r.loc ∧
        nodeLocation (exampleBlock []) 20000 40000 ≠ .ok r.loc := by
  obtain ⟨bs, fs', file, ix, si, h1, h2, h3, h4, h5, h6⟩ :=
    C33_exact_lookup lowInput lowInput_indexable (by decide +kernel) out sched fs
  refine ⟨bs, fs', file, ix, si, h1, h2, h3, h4, h5, ?_⟩
  obtain ⟨r, hr, hl⟩ := h6 20 0 (Int.le_refl 0)
  obtain ⟨a, b⟩ := (hl (locVal (exampleBlock []) ⟨2, 2000, 4000⟩)).2 ⟨2, by decide +kernel, by decide +kernel,
    by decide +kernel⟩
  refine ⟨r, hr, a, ?_, ?_⟩ <;> rw [b] <;> decide +kernel

end Osm.Props
