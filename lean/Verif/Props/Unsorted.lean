import Verif.Lemmas.UnsortedNodes
import Verif.Lemmas.UnsortedWays
import Verif.Lemmas.UnsortedRewrite
import Verif.Props.NodeIndexer
import Verif.Props.WayIndex

/-!
# C102: indexes of sources that are not sorted, or in which ids repeat
-/

namespace Osm.Props
open Osm Osm.T Osm.Spec

section Nodes
open Osm.NodeIndex Osm.NodeIndexer

/-- The indexer's run on nodes in any order, with the index it leaves. -/
theorem any_index (blocks : List (Option PrimitiveBlock)) (h : AnyOrder blocks) (out : String)
    (sched : Nat → Nat) (fs : FS) :
    ∃ batches fs' file ix, mapRes work blocks = .ok batches ∧
      (NodeIndexer.Output out sched never batches).exec fs = .ok ((), fs') ∧ Holds fs' out file ∧
      NewNodeIndex file = .ok ix ∧ Usable ix.elements ix.locations ∧ Complete ix ∧ ix.locations.length < 2 ^ 63 ∧
      (∀ (id : UInt64) l, HasLoc ix.elements ix.locations id.toNat l ↔ NodeAt blocks id.toNat l) ∧
      (NeverDown blocks → Climbs ix.elements ∧ ∀ e ∈ ix.elements, ∀ id : UInt64, rHas e id.toNat →
        ix.locations[rOffset e + (id.toNat - rFirst e)]? = some 0 → ∀ l, ¬ NodeAt blocks id.toNat l) := by
  obtain ⟨bs, es, h1, h2, h3, h4, h5, h6, h7, h8, h9⟩ := run_any blocks h
  have hspec := NodeIndexer.loopSpec out (out ++ ".loc.tmp") (tmp_ne out) bs 0 0
  obtain ⟨r1, -, -⟩ := withHeader_exec out sched never _ _ hspec NodeIndexer.header NodeIndexer.header_length fs
  obtain ⟨fs', m, e1, ⟨pos, e2⟩, e3, e4, e5⟩ := r1 (UInt64.ofNat es.length) _ _ (by
    unfold NodeIndexer.batchBytes; rw [h2]; rfl)
  rw [List.take_of_length_le (e5.1 fun _ => rfl)] at e2
  have hmem : ∀ (id : UInt64) l, (id.toNat, l) ∈ nodeSlots blocks ↔ NodeAt blocks id.toNat l :=
    fun id l => mem_nodeSlots blocks h.ids id l
  refine ⟨bs, fs', _, ⟨es, allLocs bs⟩, h1, ?_, ⟨pos, e2⟩, NodeIndexer.load_file es _ h5, h3, h4, h6, ?_, ?_⟩
  · rw [NodeIndexer.output_shape]; exact e1
  · intro id l
    exact (h7 id.toNat l).trans (hmem id l)
  · intro hd
    have hp : (nodeSlots blocks).Pairwise fun a b => a.1 ≤ b.1 := by
      unfold nodeSlots
      rw [List.pairwise_map]
      have hmemb := h.ids
      unfold NeverDown at hd
      refine List.Pairwise.imp_of_mem ?_ hd
      intro a b ha hb hab
      have h1 := i64_nat (x := a.2.id) (by have := hmemb a ha; omega)
      have h2 := i64_nat (x := b.2.id) (by have := hmemb b hb; omega)
      simp only [num, slotOf]
      omega
    refine ⟨h8 hp, ?_⟩
    intro e he id hr hz l hn
    exact skipped_absent hp (h9 e he id.toNat hr hz) l ((hmem id l).2 hn)

/-- C102: whatever the order of the nodes and whichever ids repeat, the indexer completes and its file opens; in any
pass over it, any lookup returns, and what it finds is the location of a node of the source with that id. -/
theorem C102_nodes_sound (blocks : List (Option PrimitiveBlock)) (h : AnyOrder blocks) (out : String)
    (sched : Nat → Nat) (fs : FS) :
    ∃ batches fs' file ix, mapRes work blocks = .ok batches ∧
      (NodeIndexer.Output out sched never batches).exec fs = .ok ((), fs') ∧ Holds fs' out file ∧
      NewNodeIndex file = .ok ix ∧
      ∀ p n si, ix.SubIndex p n = .ok si → ∀ (id : UInt64) (hint : Int), 0 ≤ hint →
        ∃ r, si.findNode id hint = .ok r ∧ 0 ≤ r.hint ∧ (r.ok = true → NodeAt blocks id.toNat r.loc) ∧
          (r.ok = false → r.loc = 0) := by
  obtain ⟨bs, fs', file, ix, h1, h2, h3, h4, h5, h6, h7, h8, h9⟩ := any_index blocks h out sched fs
  refine ⟨bs, fs', file, ix, h1, h2, h3, h4, ?_⟩
  intro p n si hsi id hint hh
  obtain ⟨s1, s2, s3, s4⟩ := subIndex_any ix h5 p n si hsi
  obtain ⟨r, hr, hf, hhint⟩ := findNode_any s1 id hint hh
  refine ⟨r, hr, by rcases hhint with hh' | hh' <;> omega, ?_, ?_⟩
  · intro hok
    rcases hf with ⟨e, he, q1, q2, q3⟩ | ⟨q1, -⟩
    · refine (h8 id r.loc).1 ⟨e, s3.subset he, q1, ?_, ?_⟩
      · rw [s2] at q2; exact q2
      · rw [hok] at q3; simpa using q3
    · rw [hok] at q1; cases q1
  · intro hok
    rcases hf with ⟨e, he, q1, q2, q3⟩ | ⟨-, q1, -⟩
    · rw [hok] at q3; simpa using q3
    · exact q1

theorem one_pass {α : Type} (f : Nat → Res α) : mapRes f (List.range 1) = (f 0 >>= fun s => .ok [s]) := by
  rw [show List.range 1 = [0] from rfl]
  unfold mapRes mapRes
  rfl

/-- C102: if the ids never go down (a history file: every version of a node, one after the other), a lookup in the
whole index finds an id exactly if the source has a node with it, and then the location is that of one of its
versions. -/
theorem C102_nodes_history (blocks : List (Option PrimitiveBlock)) (h : AnyOrder blocks) (hd : NeverDown blocks)
    (hne : allNodes blocks ≠ []) (out : String) (sched : Nat → Nat) (fs : FS) :
    ∃ batches fs' file ix si, mapRes work blocks = .ok batches ∧
      (NodeIndexer.Output out sched never batches).exec fs = .ok ((), fs') ∧ Holds fs' out file ∧
      NewNodeIndex file = .ok ix ∧ ix.SubIndex 0 1 = .ok si ∧
      ∀ (id : UInt64) (hint : Int), 0 ≤ hint → ∃ r, si.findNode id hint = .ok r ∧ 0 ≤ r.hint ∧
        (r.ok = true → NodeAt blocks id.toNat r.loc) ∧
        (r.ok = false → r.loc = 0 ∧ ∀ x ∈ allNodes blocks, x.2.id.toInt ≠ id.toNat) := by
  obtain ⟨bs, fs', file, ix, h1, h2, h3, h4, h5, h6, h7, h8, h9⟩ := any_index blocks h out sched fs
  obtain ⟨hcl, hz⟩ := h9 hd
  have hat : ∀ x ∈ allNodes blocks, NodeAt blocks x.2.id.toInt.toNat (locVal x.1 x.2) := by
    intro x hx
    have := h.ids x hx
    exact ⟨x, hx, by omega, (nodeLocation_eq x.1 x.2).1⟩
  have hel : ix.elements ≠ [] := by
    intro h0
    obtain ⟨x, xs, hx⟩ := List.exists_cons_of_ne_nil hne
    have hmem : x ∈ allNodes blocks := by rw [hx]; simp
    have hid := h.ids x hmem
    have := i64_nat (x := x.2.id) (by omega)
    obtain ⟨e, he, _⟩ := (h8 x.2.id.toUInt64 (locVal x.1 x.2)).2
      ⟨x, hmem, by omega, (nodeLocation_eq x.1 x.2).1⟩
    rw [h0] at he
    simp at he
  have hcover : PassesCover ix 1 := by
    rw [NodeIndex.passes_iff ix h6 h7 1 (by omega) (by omega)]
    refine ⟨ix.elements.getLast hel, List.getLast?_eq_some_getLast hel, ?_, ?_⟩
    · have := h5.nonempty _ (List.getLast_mem hel)
      omega
    · have := h5.slots _ (List.getLast_mem hel)
      omega
  obtain ⟨subs, hs1, hs2⟩ := hcover
  rw [one_pass] at hs1
  obtain ⟨si, hsi, hs1⟩ := Res.bind_eq_ok.1 hs1
  simp only [Res.ok.injEq] at hs1
  subst hs1
  simp only [List.flatMap_cons, List.flatMap_nil, List.append_nil] at hs2
  refine ⟨bs, fs', file, ix, si, h1, h2, h3, h4, hsi, ?_⟩
  intro id hint hh
  obtain ⟨s1, s2, s3, s4⟩ := subIndex_any ix h5 0 1 si hsi
  obtain ⟨c1, c2⟩ := s4 hcl
  obtain ⟨r, hr, hf, hhint⟩ := findNode_any s1 id hint hh
  have habs : (∀ l, ¬ NodeAt blocks id.toNat l) → ∀ x ∈ allNodes blocks, x.2.id.toInt ≠ id.toNat := by
    intro hno x hx hid
    exact hno _ ⟨x, hx, hid, (nodeLocation_eq x.1 x.2).1⟩
  refine ⟨r, hr, by rcases hhint with hh' | hh' <;> omega, ?_, ?_⟩
  · intro hok
    rcases hf with ⟨e, he, q1, q2, q3⟩ | ⟨q1, -⟩
    · refine (h8 id r.loc).1 ⟨e, s3.subset he, q1, ?_, ?_⟩
      · rw [s2] at q2; exact q2
      · rw [hok] at q3; simpa using q3
    · rw [hok] at q1; cases q1
  · intro hok
    rcases hf with ⟨e, he, q1, q2, q3⟩ | ⟨-, q1, q2⟩
    · have hl : r.loc = 0 := by rw [hok] at q3; simpa using q3
      refine ⟨hl, habs fun l => hz e (s3.subset he) id q1 ?_ l⟩
      rw [s2, hl] at q2
      exact q2
    · refine ⟨q1, habs fun l hn => ?_⟩
      obtain ⟨e, he, g1, -⟩ := (h8 id l).2 hn
      rw [← hs2] at he
      exact q2 c1 c2 e he g1

theorem nodeLocation_negative {pb : PrimitiveBlock} {lat lon l : Int64} (h : nodeLocation pb lat lon = .ok l) :
    l.toInt < 0 := by
  unfold nodeLocation at h
  obtain ⟨l', h1, h2, _⟩ := Morton.location_neg (coordinate pb.LonOffset pb.Granularity lon)
    (coordinate pb.LatOffset pb.Granularity lat)
  change Morton.location _ _ = _ at h
  rw [h1] at h
  cases h
  exact h2

theorem maybeLocated_trans (blocks : List (Option PrimitiveBlock)) (a b c : Int64) (h1 : MaybeLocated blocks a b)
    (h2 : MaybeLocated blocks b c) : MaybeLocated blocks a c := by
  rcases h1 with rfl | ⟨h1, h3⟩
  · exact h2
  · rcases h2 with rfl | ⟨h2, -⟩
    · exact .inr ⟨h1, h3⟩
    · obtain ⟨x, -, -, hx⟩ := h3
      have := nodeLocation_negative hx
      omega

theorem rewrite_sound (blocks : List (Option PrimitiveBlock)) (h : AnyOrder blocks) (index : String)
    (chunks : Nat → Nat) (fs0 fs1 : FS) {batches : List (Option ElementBatch)} (hwork : mapRes work blocks = .ok batches)
    (hrun : (NodeIndexer.Output index chunks never batches).exec fs0 = .ok ((), fs1))
    {ixFile : List UInt8} (hfile : Holds fs1 index ixFile) {ix : NodeIdx} (hload : NewNodeIndex ixFile = .ok ix)
    (inflate : Inflate) (scheds : Nat → Pbf.Block → Sched) (hsched : ∀ i b, (scheds i b).pooled.length < 2 ^ 63)
    (memory : Option UInt64) (n : UInt64) (hn : passCount ix memory = .ok n) (hn0 : n ≠ 0) {subs : List NodeIndex.SubIdx}
    (hsubs : mapRes (fun p => ix.SubIndex (UInt64.ofNat p) n) (List.range n.toNat) = .ok subs)
    (inp out : String) {cs : List Content} {file : List UInt8} (hl : file.length < 2 ^ 63)
    (hc : FileHas inflate waysDecoded file cs) (hsm : SmallFile cs) (fs : FS) (hin : Holds fs inp file)
    (hix : Holds fs index ixFile) :
    ∃ fs' file' cs', (Rewrite.rewritenodes inflate scheds memory inp index out).exec fs = .ok ((), fs') ∧
      Holds fs' out file' ∧ file'.length < 2 ^ 63 ∧ FileHas inflate waysDecoded file' cs' ∧ Matches (ButRefs (MaybeLocated blocks)) cs cs' := by
  obtain ⟨bs, fs2, file2, ix2, g1, g2, g3, g4, g5, g6, g7, g8, -⟩ := any_index blocks h index chunks fs0
  rw [hwork] at g1
  cases g1
  rw [hrun] at g2
  cases g2
  obtain ⟨pos, hfile⟩ := hfile
  obtain ⟨pos2, g3⟩ := g3
  rw [hfile] at g3
  cases g3
  rw [hload] at g4
  cases g4
  have hgives : ∀ (p : Nat) si, ix.SubIndex (UInt64.ofNat p) n = .ok si → Rewrite.Gives si (MaybeLocated blocks) := by
    intro p si hsi
    obtain ⟨s1, s2, s3, s4⟩ := subIndex_any ix g5 _ n si hsi
    refine ⟨fun r _ => .inl rfl, fun r hr hint hh => ?_⟩
    obtain ⟨f, hf, hfair, hhint⟩ := findNode_any s1 r.toUInt64 hint hh
    have hr0 : 0 ≤ r.toInt := by rw [Int64.lt_iff_toInt_lt] at hr; simpa using hr
    have hid := i64_nat hr0
    refine ⟨f, hf, by rcases hhint with hh' | hh' <;> omega, ?_⟩
    unfold Rewrite.keepOr
    rcases hfair with ⟨e, he, q1, q2, q3⟩ | ⟨q1, -⟩
    · cases hok : f.ok with
      | false => exact .inl rfl
      | true =>
        refine .inr ⟨hr0, ?_⟩
        have := (g8 r.toUInt64 f.loc).1 ⟨e, s3.subset he, q1, (by rw [s2] at q2; exact q2), (by rw [hok] at q3; simpa using q3)⟩
        rw [show r.toInt.toNat = r.toUInt64.toNat by omega]
        exact this
    · rw [q1]; exact .inl rfl
  obtain ⟨fs', file', e1, e2, e3, cs', e4, e5⟩ := Rewrite.rewritenodes_keep inflate scheds memory n hn hn0 hsubs
    (fun _ f => ∃ cs', Matches (ButRefs (MaybeLocated blocks)) cs cs' ∧ FileHas inflate waysDecoded f cs')
    (by
      rintro p si - hsi f inp' out' fs' hf ⟨cs', m1, m2⟩ hh
      obtain ⟨fs2, f2, a1, a2, a3, ⟨cs2, a4, a5⟩, a6⟩ := Rewrite.pass_rel inflate (scheds p) (hsched p) (hgives p si hsi) hf m2
        (Rewrite.smallFile_rel m1 hsm) inp' out' fs' hh
      exact ⟨fs2, f2, a1, a2, a3, ⟨cs2, Rewrite.matches_comp
        (Rewrite.content_comp (maybeLocated_trans blocks)) m1 a4, a5⟩, a6⟩)
    inp index out hl ⟨cs, Rewrite.matches_refl (Rewrite.content_refl fun _ => .inl rfl) cs, hc⟩ fs hin hix hload
  exact ⟨fs', file', cs', e1, e2, e3, e5, e4⟩

/-- C102: ways rewritten with the index of a source in any order: the run completes, with any number of passes, and the
output is the input but for refs replaced by the location of a node of the source with that id. -/
theorem C102_rewrite_sound (blocks : List (Option PrimitiveBlock)) (h : AnyOrder blocks) (index : String)
    (chunks : Nat → Nat) (fs0 fs1 : FS) {batches : List (Option ElementBatch)} (hwork : mapRes work blocks = .ok batches)
    (hrun : (NodeIndexer.Output index chunks never batches).exec fs0 = .ok ((), fs1))
    {ixFile : List UInt8} (hfile : Holds fs1 index ixFile) {ix : NodeIdx} (hload : NewNodeIndex ixFile = .ok ix)
    (inflate : Inflate) (scheds : Nat → Pbf.Block → Sched) (hsched : ∀ i b, (scheds i b).pooled.length < 2 ^ 63)
    (memory : Option UInt64) (n : UInt64) (hn : passCount ix memory = .ok n) (hn0 : n ≠ 0) {subs : List NodeIndex.SubIdx}
    (hsubs : mapRes (fun p => ix.SubIndex (UInt64.ofNat p) n) (List.range n.toNat) = .ok subs)
    (inp out : String) {cs : List Content} {file : List UInt8} (hl : file.length < 2 ^ 63)
    (hc : FileHas inflate waysDecoded file cs) (hsm : SmallFile cs) (fs : FS) (hin : Holds fs inp file)
    (hix : Holds fs index ixFile) :
    ∃ fs' file' cs', (Rewrite.rewritenodes inflate scheds memory inp index out).exec fs = .ok ((), fs') ∧
      Holds fs' out file' ∧ FileHas inflate waysDecoded file' cs' ∧ Matches (ButRefs (MaybeLocated blocks)) cs cs' := by
  obtain ⟨fs', file', cs', e1, e2, -, e3, e4⟩ := rewrite_sound blocks h index chunks fs0 fs1 hwork hrun hfile hload inflate
    scheds hsched memory n hn hn0 hsubs inp out hl hc hsm fs hin hix
  exact ⟨fs', file', cs', e1, e2, e3, e4⟩

/-- C102: if the ids never go down, every ref to a node of the source is replaced by the location of one of its
versions, and the others stay. -/
theorem C102_rewrite_history (blocks : List (Option PrimitiveBlock)) (h : AnyOrder blocks) (hd : NeverDown blocks)
    (hne : allNodes blocks ≠ []) (index : String) (chunks : Nat → Nat) (fs0 : FS)
    (inflate : Inflate) (scheds : Nat → Pbf.Block → Sched) (hsched : ∀ i b, (scheds i b).pooled.length < 2 ^ 63) :
    ∃ batches fs1 ixFile, mapRes work blocks = .ok batches ∧
      (NodeIndexer.Output index chunks never batches).exec fs0 = .ok ((), fs1) ∧ Holds fs1 index ixFile ∧
      ∀ (inp out : String) (cs : List Content) (file : List UInt8) (fs : FS), file.length < 2 ^ 63 →
        FileHas inflate waysDecoded file cs → SmallFile cs → Holds fs inp file → Holds fs index ixFile →
        ∃ fs' file' cs', (Rewrite.rewritenodes inflate scheds none inp index out).exec fs = .ok ((), fs') ∧
          Holds fs' out file' ∧ FileHas inflate waysDecoded file' cs' ∧ Matches (ButRefs (Located blocks)) cs cs' := by
  obtain ⟨bs, fs1, ixFile, ix, si, h1, h2, h3, h4, h5, h6⟩ := C102_nodes_history blocks h hd hne index chunks fs0
  refine ⟨bs, fs1, ixFile, h1, h2, h3, ?_⟩
  intro inp out cs file fs hl hc hsm hin hix
  have hids := h.ids
  have hgives : Rewrite.Gives si (Located blocks) := by
    constructor
    · intro r hr
      refine .inr ⟨rfl, fun x hx he => ?_⟩
      have := hids x hx
      rw [he] at this
      rw [Int64.lt_iff_toInt_lt] at hr
      have hz : (0 : Int64).toInt = 0 := rfl
      omega
    · intro r hr hint hh
      have hr0 : 0 ≤ r.toInt := by rw [Int64.lt_iff_toInt_lt] at hr; simpa using hr
      have hid := i64_nat hr0
      obtain ⟨f, hf, q0, q1, q2⟩ := h6 r.toUInt64 hint hh
      refine ⟨f, hf, q0, ?_⟩
      unfold Rewrite.keepOr
      have hnat : r.toInt.toNat = r.toUInt64.toNat := by omega
      cases hok : f.ok with
      | true =>
        refine .inl ⟨hr0, ?_⟩
        rw [hnat]
        exact q1 hok
      | false =>
        refine .inr ⟨rfl, fun x hx he => ?_⟩
        refine (q2 hok).2 x hx ?_
        rw [he]
        omega
  obtain ⟨fs', file', e1, e2, e3, cs', e4, e5⟩ := Rewrite.rewritenodes_keep inflate scheds none 1 rfl (by decide)
    (subs := [si]) (by
      show mapRes _ (List.range 1) = _
      rw [one_pass]
      show (ix.SubIndex 0 1 >>= _) = _
      rw [h5]
      rfl)
    (fun i f => if i = 0 then FileHas inflate waysDecoded f cs
      else ∃ cs', Matches (ButRefs (Located blocks)) cs cs' ∧ FileHas inflate waysDecoded f cs')
    (by
      intro p si' hp _ f inp' out' fs' hf hJ hh
      cases p with
      | succ p => simp at hp
      | zero =>
        simp only [List.getElem?_cons_zero, Option.some.injEq] at hp
        subst hp
        exact Rewrite.pass_rel inflate (scheds 0) (hsched 0) hgives hf hJ hsm inp' out' fs' hh)
    inp index out hl hc fs hin hix h4
  exact ⟨fs', file', cs', e1, e2, e5, e4⟩

theorem rewrite_history (blocks : List (Option PrimitiveBlock)) (h : AnyOrder blocks) (hd : NeverDown blocks) (index : String)
    (chunks : Nat → Nat) (fs0 fs1 : FS) {batches : List (Option ElementBatch)} (hwork : mapRes work blocks = .ok batches)
    (hrun : (NodeIndexer.Output index chunks never batches).exec fs0 = .ok ((), fs1))
    {ixFile : List UInt8} (hfile : Holds fs1 index ixFile) {ix : NodeIdx} (hload : NewNodeIndex ixFile = .ok ix)
    (inflate : Inflate) (scheds : Nat → Pbf.Block → Sched) (hsched : ∀ i b, (scheds i b).pooled.length < 2 ^ 63)
    (memory : Option UInt64) (n : UInt64) (hn : passCount ix memory = .ok n) (hn0 : n ≠ 0) (hcov : PassesCover ix n.toNat)
    (inp out : String) {cs : List Content} {file : List UInt8} (hl : file.length < 2 ^ 63)
    (hc : FileHas inflate waysDecoded file cs) (hsm : SmallFile cs) (fs : FS) (hin : Holds fs inp file)
    (hix : Holds fs index ixFile) :
    ∃ fs' file' cs', (Rewrite.rewritenodes inflate scheds memory inp index out).exec fs = .ok ((), fs') ∧
      Holds fs' out file' ∧ file'.length < 2 ^ 63 ∧ FileHas inflate waysDecoded file' cs' ∧
      Matches (ButRefs (Located blocks)) cs cs' := by
  obtain ⟨bs, fs2, file2, ix2, g1, g2, g3, g4, g5, g6, g7, g8, g9⟩ := any_index blocks h index chunks fs0
  rw [hwork] at g1
  cases g1
  rw [hrun] at g2
  cases g2
  obtain ⟨pos, hfile⟩ := hfile
  obtain ⟨pos2, g3⟩ := g3
  rw [hfile] at g3
  cases g3
  rw [hload] at g4
  cases g4
  obtain ⟨hcl, hz⟩ := g9 hd
  obtain ⟨subs, hs1, hs2⟩ := hcov
  rw [UInt64.ofNat_toNat] at hs1
  have hgives : ∀ (p : Nat) si, ix.SubIndex (UInt64.ofNat p) n = .ok si → Rewrite.Gives si (fun r r' =>
      (0 ≤ r.toInt ∧ NodeAt blocks r.toInt.toNat r') ∨
      (r' = r ∧ (0 ≤ r.toInt → (∀ l, ¬ NodeAt blocks r.toInt.toNat l) ∨ ∀ e ∈ si.element, ¬ rHas e r.toInt.toNat))) := by
    intro p si hsi
    obtain ⟨s1, s2, s3, s4⟩ := subIndex_any ix g5 _ n si hsi
    obtain ⟨c1, c2⟩ := s4 hcl
    refine ⟨fun r hr => .inr ⟨rfl, fun h0 => ?_⟩, fun r hr hint hh => ?_⟩
    · rw [Int64.lt_iff_toInt_lt] at hr
      have hz : (0 : Int64).toInt = 0 := rfl
      omega
    obtain ⟨f, hf, hfair, hhint⟩ := findNode_any s1 r.toUInt64 hint hh
    have hr0 : 0 ≤ r.toInt := by rw [Int64.lt_iff_toInt_lt] at hr; simpa using hr
    have hid := i64_nat hr0
    have hnat : r.toInt.toNat = r.toUInt64.toNat := by omega
    refine ⟨f, hf, by rcases hhint with hh' | hh' <;> omega, ?_⟩
    unfold Rewrite.keepOr
    dsimp only; rw [hnat]
    rcases hfair with ⟨e, he, q1, q2, q3⟩ | ⟨q1, -, q2⟩
    · rw [s2] at q2
      cases hok : f.ok with
      | false =>
        refine .inr ⟨rfl, fun _ => .inl fun l => hz e (s3.subset he) _ q1 ?_ l⟩
        rw [q2]
        rw [hok] at q3
        simpa using q3
      | true =>
        exact .inl ⟨hr0, (g8 r.toUInt64 f.loc).1 ⟨e, s3.subset he, q1, q2, (by rw [hok] at q3; simpa using q3)⟩⟩
    · rw [q1]
      exact .inr ⟨rfl, fun _ => .inr fun e he hh => q2 c1 c2 e he hh⟩
  obtain ⟨fs', file', e1, e2, e3, cs', e4, e5⟩ := Rewrite.rewritenodes_keep inflate scheds memory n hn hn0 hs1
    (fun i f => ∃ cs', Matches (ButRefs fun r r' => (0 ≤ r.toInt ∧ NodeAt blocks r.toInt.toNat r') ∨
      (r' = r ∧ (0 ≤ r.toInt → (∀ l, ¬ NodeAt blocks r.toInt.toNat l) ∨
        ∀ q < i, ∀ s, subs[q]? = some s → ∀ e ∈ s.element, ¬ rHas e r.toInt.toNat))) cs cs' ∧
      FileHas inflate waysDecoded f cs')
    (by
      rintro p si hp hsi f inp' out' fs' hf ⟨cs', m1, m2⟩ hh
      obtain ⟨fs2, f2, a1, a2, a3, ⟨cs2, a4, a5⟩, a6⟩ := Rewrite.pass_rel inflate (scheds p) (hsched p) (hgives p si hsi) hf m2
        (Rewrite.smallFile_rel m1 hsm) inp' out' fs' hh
      refine ⟨fs2, f2, a1, a2, a3, ⟨cs2, Rewrite.matches_comp (Rewrite.content_comp ?_) m1 a4, a5⟩, a6⟩
      rintro a b c (h1 | ⟨rfl, h1⟩) h2
      · obtain ⟨x, -, -, hx⟩ := h1.2
        have := nodeLocation_negative hx
        rcases h2 with ⟨h2, -⟩ | ⟨rfl, -⟩
        · omega
        · exact .inl h1
      · rcases h2 with h2 | ⟨rfl, h2⟩
        · exact .inl h2
        · refine .inr ⟨rfl, fun h0 => ?_⟩
          rcases h1 h0 with h1 | h1
          · exact .inl h1
          · rcases h2 h0 with h2 | h2
            · exact .inl h2
            · refine .inr fun q hq s hs => ?_
              by_cases hqp : q = p
              · subst hqp
                rw [hp] at hs
                cases hs
                exact h2
              · exact h1 q (by omega) s hs)
    inp index out hl ⟨cs, Rewrite.matches_refl (Rewrite.content_refl fun _ => .inr ⟨rfl, fun _ => .inr fun q hq => absurd hq (by omega)⟩) cs, hc⟩
    fs hin hix hload
  refine ⟨fs', file', cs', e1, e2, e3, e5, Rewrite.matches_imp (Rewrite.content_imp ?_) e4⟩
  rintro r r' (h1 | ⟨rfl, h1⟩)
  · exact .inl h1
  · refine .inr ⟨rfl, ?_⟩
    rintro x hx rfl
    have hid := h.ids x hx
    have hat : NodeAt blocks x.2.id.toInt.toNat (locVal x.1 x.2) := ⟨x, hx, by omega, (nodeLocation_eq x.1 x.2).1⟩
    rcases h1 (by omega) with h1 | h1
    · exact h1 _ hat
    · have hnat : x.2.id.toInt.toNat = x.2.id.toUInt64.toNat := by
        have := i64_nat (x := x.2.id) (by omega)
        omega
      rw [hnat] at hat h1
      obtain ⟨e, he, q1, -⟩ := (g8 x.2.id.toUInt64 _).2 hat
      rw [← hs2] at he
      obtain ⟨s, hs, hes⟩ := List.mem_flatMap.1 he
      obtain ⟨q, hq, rfl⟩ := List.getElem_of_mem hs
      refine h1 q ?_ _ (List.getElem?_eq_getElem hq) e hes q1
      have := Rewrite.mapRes_len hs1
      simp at this
      omega

/-- C102: the same for a run with any memory target whose passes cover the index (C31): every ref to a node of the source
is replaced by the location of one of its versions, and the others stay. -/
theorem C102_rewrite_history_passes (blocks : List (Option PrimitiveBlock)) (h : AnyOrder blocks) (hd : NeverDown blocks)
    (index : String) (chunks : Nat → Nat) (fs0 fs1 : FS) {batches : List (Option ElementBatch)}
    (hwork : mapRes work blocks = .ok batches)
    (hrun : (NodeIndexer.Output index chunks never batches).exec fs0 = .ok ((), fs1))
    {ixFile : List UInt8} (hfile : Holds fs1 index ixFile) {ix : NodeIdx} (hload : NewNodeIndex ixFile = .ok ix)
    (inflate : Inflate) (scheds : Nat → Pbf.Block → Sched) (hsched : ∀ i b, (scheds i b).pooled.length < 2 ^ 63)
    (memory : Option UInt64) (n : UInt64) (hn : passCount ix memory = .ok n) (hn0 : n ≠ 0) (hcov : PassesCover ix n.toNat)
    (inp out : String) {cs : List Content} {file : List UInt8} (hl : file.length < 2 ^ 63)
    (hc : FileHas inflate waysDecoded file cs) (hsm : SmallFile cs) (fs : FS) (hin : Holds fs inp file)
    (hix : Holds fs index ixFile) :
    ∃ fs' file' cs', (Rewrite.rewritenodes inflate scheds memory inp index out).exec fs = .ok ((), fs') ∧
      Holds fs' out file' ∧ FileHas inflate waysDecoded file' cs' ∧ Matches (ButRefs (Located blocks)) cs cs' := by
  obtain ⟨fs', file', cs', e1, e2, -, e3, e4⟩ := rewrite_history blocks h hd index chunks fs0 fs1 hwork hrun hfile hload inflate
    scheds hsched memory n hn hn0 hcov inp out hl hc hsm fs hin hix
  exact ⟨fs', file', cs', e1, e2, e3, e4⟩

/-- Node 5, then node 2. -/
def downInput : List (Option PrimitiveBlock) := [some (exampleBlock [5, 2])]

/-- Two versions of node 5, three of node 6 (one in the next block), one of node 9. -/
def historyInput : List (Option PrimitiveBlock) := [some (exampleBlock [5, 5, 6, 6]), none, some (exampleBlock [6, 9])]

theorem exampleBlock_complete (ids : List Int64) : DenseComplete (exampleBlock ids) := by
  intro pg hpg dn hdn
  simp only [exampleBlock, List.mem_cons, List.not_mem_nil, or_false] at hpg
  subst hpg
  simp only [Option.some.injEq] at hdn
  subst hdn
  simp

theorem downInput_any : AnyOrder downInput where
  complete := by
    intro pb hpb
    simp only [downInput, List.mem_cons, Option.some.injEq, List.not_mem_nil, or_false] at hpb
    subst hpb
    exact exampleBlock_complete _
  ids := by decide +kernel
  blockSize := by
    intro pb hpb
    simp only [downInput, List.mem_cons, Option.some.injEq, List.not_mem_nil, or_false] at hpb
    subst hpb
    decide +kernel
  total := by decide +kernel

theorem historyInput_any : AnyOrder historyInput where
  complete := by
    intro pb hpb
    simp only [historyInput, List.mem_cons, Option.some.injEq, reduceCtorEq, List.not_mem_nil, or_false, false_or] at hpb
    rcases hpb with rfl | rfl <;> exact exampleBlock_complete _
  ids := by decide +kernel
  blockSize := by
    intro pb hpb
    simp only [historyInput, List.mem_cons, Option.some.injEq, reduceCtorEq, List.not_mem_nil, or_false, false_or] at hpb
    rcases hpb with rfl | rfl <;> decide +kernel
  total := by decide +kernel

/-- The hypotheses of `C102_nodes_history` hold for a history, which is not `Indexable`. -/
example : AnyOrder historyInput ∧ NeverDown historyInput ∧ allNodes historyInput ≠ [] ∧ ¬ Indexable historyInput := by
  refine ⟨historyInput_any, by unfold NeverDown; decide +kernel, by decide +kernel, fun h => ?_⟩
  exact absurd h.ascending (by decide +kernel)

/-- C102 fails for a source that goes down: both nodes are in the file, and neither is found: node 5 with no hint
whatever, node 2 with the hint lookups start with, though it is with another. -/
theorem C102_nodes_false (out : String) (sched : Nat → Nat) (fs : FS) :
    ∃ batches fs' file ix si, mapRes work downInput = .ok batches ∧
      (NodeIndexer.Output out sched never batches).exec fs = .ok ((), fs') ∧ Holds fs' out file ∧
      NewNodeIndex file = .ok ix ∧ ix.SubIndex 0 1 = .ok si ∧
      (∃ l, NodeAt downInput 5 l) ∧ (∃ l, NodeAt downInput 2 l) ∧
      (∀ hint : Int, ∃ r, si.findNode 5 hint = .ok r ∧ r.ok = false) ∧
      (∃ r, si.findNode 2 0 = .ok r ∧ r.ok = false) ∧ (∃ r, si.findNode 2 1 = .ok r ∧ r.ok = true) := by
  have h1 : mapRes work downInput = .ok [some ⟨[⟨5, 5⟩, ⟨2, 2⟩], [-9223372036752047744, -9223372036846393856]⟩] := by
    decide +kernel
  generalize hbs : [some (ElementBatch.mk [⟨5, 5⟩, ⟨2, 2⟩] [-9223372036752047744, -9223372036846393856])] = bs at h1
  have hb : batches 0 0 bs = .ok (2, elemWords [⟨5, 1⟩, ⟨2, 0x1000001⟩], [-9223372036752047744, -9223372036846393856]) := by
    subst hbs
    decide +kernel
  have hspec := NodeIndexer.loopSpec out (out ++ ".loc.tmp") (tmp_ne out) bs 0 0
  obtain ⟨r1, -, -⟩ := withHeader_exec out sched never _ _ hspec NodeIndexer.header NodeIndexer.header_length fs
  obtain ⟨fs', m, e1, ⟨pos, e2⟩, e3, e4, e5⟩ := r1 2 _ _ (by
    unfold NodeIndexer.batchBytes; rw [hb]; rfl)
  rw [List.take_of_length_le (e5.1 fun _ => rfl)] at e2
  have hload := NodeIndexer.load_file [⟨5, 1⟩, ⟨2, 0x1000001⟩] [-9223372036752047744, -9223372036846393856] (by decide)
  refine ⟨bs, fs', _, _, ⟨[⟨5, 1⟩, ⟨2, 0x1000001⟩], [-9223372036752047744, -9223372036846393856], 2⟩, h1,
    by rw [NodeIndexer.output_shape]; exact e1, ⟨pos, e2⟩, hload, by decide +kernel, ?_, ?_, ?_, ?_, ?_⟩
  · exact ⟨-9223372036752047744, (exampleBlock [5, 2], ⟨5, 5000, 10000⟩), by decide +kernel, by decide +kernel,
      by decide +kernel⟩
  · exact ⟨-9223372036846393856, (exampleBlock [5, 2], ⟨2, 2000, 4000⟩), by decide +kernel, by decide +kernel,
      by decide +kernel⟩
  · intro hint
    exact ⟨⟨0, hint, false, [.missDeferred]⟩, by unfold SubIdx.findNode; rw [if_pos (by decide)], rfl⟩
  · exact ⟨⟨0, 0, false, [.missDefault]⟩, by decide +kernel, rfl⟩
  · exact ⟨⟨-9223372036846393856, 1, true, [.hitHint]⟩, by decide +kernel, rfl⟩

/-- The hypotheses of `C102_rewrite_sound` hold for the index of nodes 5, 2 and a file with a way. -/
example (inflate : Inflate) (fs : FS) : ∃ batches fs1 ixFile ix subs file cs, AnyOrder downInput ∧
    mapRes work downInput = .ok batches ∧
    (NodeIndexer.Output "index" (fun _ => 3) never batches).exec fs = .ok ((), fs1) ∧ Holds fs1 "index" ixFile ∧
    NewNodeIndex ixFile = .ok ix ∧ passCount ix none = .ok 1 ∧
    mapRes (fun p => ix.SubIndex (UInt64.ofNat p) 1) (List.range (1 : UInt64).toNat) = .ok subs ∧
    file.length < 2 ^ 63 ∧ FileHas inflate waysDecoded file cs ∧ SmallFile cs := by
  obtain ⟨bs, fs1, ixFile, ix, si, h1, h2, h3, h4, h5, -⟩ := C102_nodes_false "index" (fun _ => 3) fs
  obtain ⟨file, f1, f2⟩ := refsFile inflate
  refine ⟨bs, fs1, ixFile, ix, [si], file, _, downInput_any, h1, h2, h3, h4, rfl, ?_, f1, f2, ?_⟩
  · show mapRes _ (List.range 1) = _
    rw [one_pass]
    show (ix.SubIndex 0 1 >>= _) = _
    rw [h5]
    rfl
  · refine ⟨?_, by decide⟩
    intro b hb
    simp only [List.mem_cons, reduceCtorEq, Content.data.injEq, List.not_mem_nil, or_false, false_or] at hb
    subst hb
    exact ⟨by decide +kernel, by decide +kernel⟩

end Nodes
section Ways
open Osm.WayIndex Osm.WayIndexer

/-- The whole of the index in one pass, whatever the order of the ids. -/
theorem single_pass_any (shift : Int64) (ws : List Way) (h : WaysAnyOrder shift ws) (hne : ws ≠ []) :
    ∃ si, WayIdx.SubIndexWithScaledPass ⟨entries shift 0 ws, locData shift ws, shift⟩ 0 1 = .ok si ∧
      si.Ids = entries shift 0 ws := by
  have hu := entries_usable shift ws h
  have hlen := entries_length shift ws 0
  have hpos : 0 < ws.length := List.length_pos_iff.2 hne
  have hs2 := entries_offsets shift ws h.ids 0 (by have := h.space; omega)
  have hstart : ∀ d ∈ entries shift 0 ws, wStart shift d < (locData shift ws).length := by
    intro d hd
    obtain ⟨w, _, _, _, q3, _⟩ := (entries_mem shift ws h.ids 0 [] (by simp) (by have := h.space; omega)).1 d hd
    unfold wStart
    rw [locData_length]
    have := wayBlocks_pos shift w
    exact Nat.mul_lt_mul_of_pos_right (by omega) (Nat.two_pow_pos _)
  have hso : (entries shift 0 ws).Pairwise fun a b => wStart shift a ≤ wStart shift b :=
    hs2.imp fun hab => Nat.mul_le_mul_right _ (Nat.le_of_lt hab)
  have := sub_at ⟨entries shift 0 ws, locData shift ws, shift⟩ hu.range hu.memory hu.starts 1 0 (by omega) (by omega)
  dsimp only at this
  rw [Nat.div_one, Nat.mul_zero, Nat.mul_one] at this
  have he : before shift ((locData shift ws).length : Nat) (entries shift 0 ws) = (entries shift 0 ws).length := by
    have hle := before_le shift ((locData shift ws).length : Nat) (entries shift 0 ws)
    rcases Nat.lt_or_ge (before shift ((locData shift ws).length : Nat) (entries shift 0 ws))
      (entries shift 0 ws).length with hlt | hge
    · have := (before_iff ((locData shift ws).length : Nat) _ hso _ hlt).2 (by
        have := hstart _ (List.getElem_mem hlt)
        omega)
      omega
    · omega
  have ha : before shift (0 : Nat) (entries shift 0 ws) = 0 := by
    rcases Nat.eq_zero_or_pos (before shift (0 : Nat) (entries shift 0 ws)) with h0 | h0
    · exact h0
    · have := (before_iff (0 : Nat) _ hso 0 (by omega)).1 h0
      omega
  rw [he, ha, if_neg (by omega), List.take_length, if_pos (by omega), List.drop_zero,
    List.getElem?_eq_getElem (by omega)] at this
  exact ⟨_, this, rfl⟩

/-- C102: whatever the order of the ways and whichever ids repeat, the indexer completes and its file opens; in any
pass over it, any lookup returns, and the path it finds is that of a way of the source with that id. -/
theorem C102_ways_sound (shift : Int64) (blocks : List (Option PrimitiveBlock))
    (h : WaysAnyOrder shift (allWays blocks)) (out : String) (sched : Nat → Nat) (fs : FS) :
    ∃ batches fs' file ix, workAll shift blocks = .ok batches ∧
      (WayIndexer.Output out shift sched never batches).exec fs = .ok ((), fs') ∧ Holds fs' out file ∧
      NewWayIndex file = .ok ix ∧
      ∀ p n si, ix.SubIndexWithScaledPass p n = .ok si → ∀ (id : Int64) (hint : Int), 0 ≤ hint →
        ∃ r, si.FindLocations id hint = .ok r ∧
          (r.ok = true → ∃ w ∈ allWays blocks, w.ID = id ∧ r.locs = indexedRefs w) ∧ (r.ok = false → r.locs = []) := by
  obtain ⟨bs, fs', file, h1, h2, h3, h4⟩ := output_any shift blocks h out sched fs
  refine ⟨bs, fs', file, _, h1, h2, h3, h4, ?_⟩
  intro p n si hsi id hint hh
  obtain ⟨s1, s2, s3, -⟩ := sub_any _ p n si hsi
  have hu := usable_sub (ix := ⟨entries shift 0 (allWays blocks), locData shift (allWays blocks), shift⟩)
    (entries_usable shift _ h) s1 s2 s3
  obtain ⟨m1, -⟩ := entries_mem shift (allWays blocks) h.ids 0 [] (by simp) (by have := h.space; omega)
  rcases find_any hu id hint hh with ⟨d, hd, hid, p', c, hp', he⟩ | ⟨⟨c, he⟩, -⟩
  · obtain ⟨w, hw, q1, -, -, q4⟩ := m1 d (s1.subset hd)
    rw [List.nil_append] at q4
    rw [s2, s3] at he
    dsimp only at he
    rw [q4] at he
    refine ⟨_, he, ?_, fun hf => by cases hf⟩
    intro _
    exact ⟨w, hw, Int64.toInt_inj.1 (by omega), rfl⟩
  · exact ⟨_, he, (fun hf => by cases hf), fun _ => rfl⟩

/-- C102: if the way ids never go down (every version of a way, one after the other), a lookup in the whole index
finds an id exactly if the source has a way with it, and then with the path of one of its versions. -/
theorem C102_ways_history (shift : Int64) (blocks : List (Option PrimitiveBlock))
    (h : WaysAnyOrder shift (allWays blocks)) (hd : WaysNeverDown (allWays blocks)) (hne : allWays blocks ≠ [])
    (out : String) (sched : Nat → Nat) (fs : FS) :
    ∃ batches fs' file ix si, workAll shift blocks = .ok batches ∧
      (WayIndexer.Output out shift sched never batches).exec fs = .ok ((), fs') ∧ Holds fs' out file ∧
      NewWayIndex file = .ok ix ∧ ix.SubIndexWithScaledPass 0 1 = .ok si ∧
      ∀ (id : Int64) (hint : Int), 0 ≤ hint → ∃ r, si.FindLocations id hint = .ok r ∧
        (r.ok = true → ∃ w ∈ allWays blocks, w.ID = id ∧ r.locs = indexedRefs w) ∧
        (r.ok = false → r.locs = [] ∧ ∀ w ∈ allWays blocks, w.ID ≠ id) := by
  obtain ⟨bs, fs', file, h1, h2, h3, h4⟩ := output_any shift blocks h out sched fs
  obtain ⟨si, hsi, hall⟩ := single_pass_any shift (allWays blocks) h hne
  refine ⟨bs, fs', file, _, si, h1, h2, h3, h4, hsi, ?_⟩
  intro id hint hh
  obtain ⟨s1, s2, s3, s4⟩ := sub_any _ 0 1 si hsi
  have hu := usable_sub (ix := ⟨entries shift 0 (allWays blocks), locData shift (allWays blocks), shift⟩)
    (entries_usable shift _ h) s1 s2 s3
  obtain ⟨m1, m2⟩ := entries_mem shift (allWays blocks) h.ids 0 [] (by simp) (by have := h.space; omega)
  rcases find_any hu id hint hh with ⟨d, hdm, hid, p', c, hp', he⟩ | ⟨⟨c, he⟩, hno⟩
  · obtain ⟨w, hw, q1, -, -, q4⟩ := m1 d (s1.subset hdm)
    rw [List.nil_append] at q4
    rw [s2, s3] at he
    dsimp only at he
    rw [q4] at he
    refine ⟨_, he, ?_, fun hf => by cases hf⟩
    intro _
    exact ⟨w, hw, Int64.toInt_inj.1 (by omega), rfl⟩
  · refine ⟨_, he, (fun hf => by cases hf), fun _ => ⟨rfl, ?_⟩⟩
    intro w hw hid
    obtain ⟨t1, t2⟩ := s4 (entries_climb shift (allWays blocks) h.ids hd 0 (by have := h.space; omega))
    obtain ⟨d, hdm, hdi⟩ := m2 w hw
    exact hno t1 t2 d (by rw [hall]; exact hdm) (by rw [hdi, hid])

/-- Way 8, then way 3. -/
def downWays : List (Option PrimitiveBlock) := [some (exampleWayBlock [8]), none, some (exampleWayBlock [3])]

/-- Two versions of way 3, then two of way 8. -/
def historyWays : List (Option PrimitiveBlock) := [some (exampleWayBlock [3, 3]), some (exampleWayBlock [8, 8])]

theorem downWays_any : WaysAnyOrder 3 (allWays downWays) :=
  ⟨by decide, by decide +kernel, by decide +kernel, by decide +kernel⟩

/-- The hypotheses of `C102_ways_history` hold for a history, which is not `WaysIndexable`. -/
example : WaysAnyOrder 3 (allWays historyWays) ∧ WaysNeverDown (allWays historyWays) ∧ allWays historyWays ≠ [] ∧
    ¬ WaysIndexable 3 (allWays historyWays) := by
  refine ⟨⟨by decide, by decide +kernel, by decide +kernel, by decide +kernel⟩, by unfold WaysNeverDown; decide +kernel,
    by decide +kernel, fun h => ?_⟩
  exact absurd h.ascending (by decide +kernel)

/-- C102 fails for ways that go down: way 8 is in the file, but is not found, with any hint. -/
theorem C102_ways_false (out : String) (sched : Nat → Nat) (fs : FS) :
    ∃ batches fs' file ix si, workAll 3 downWays = .ok batches ∧
      (WayIndexer.Output out 3 sched never batches).exec fs = .ok ((), fs') ∧ Holds fs' out file ∧
      NewWayIndex file = .ok ix ∧ ix.SubIndexWithScaledPass 0 1 = .ok si ∧
      (∃ w ∈ allWays downWays, w.ID = 8 ∧ indexedRefs w ≠ []) ∧
      (∀ hint : Int, ∃ r, si.FindLocations 8 hint = .ok r ∧ r.ok = false) := by
  obtain ⟨bs, fs', file, h1, h2, h3, h4⟩ := output_any 3 downWays downWays_any out sched fs
  refine ⟨bs, fs', file, _, ⟨entries 3 0 (allWays downWays), locData 3 (allWays downWays), 3, 3⟩, h1, h2, h3, h4, ?_, ?_, ?_⟩
  · decide +kernel
  · decide +kernel
  · intro hint
    exact ⟨⟨[], hint, false, [.missDeferred]⟩, by unfold SubIdx.FindLocations; rw [if_pos (by decide)], rfl⟩

end Ways
end Osm.Props
