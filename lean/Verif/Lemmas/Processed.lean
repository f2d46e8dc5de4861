import Verif.Lemmas.Rewritten
import Verif.Spec.Processed

/-! # Files made by several commands (C112) -/

namespace Osm.Format
open Osm Osm.Spec Osm.Spec.OsmFormat Osm.T Osm.Pbf Osm.Interrupt

/-- What stays of a way. -/
def wayMark (w : Way) : Int64 × Nat := (w.ID, w.Refs.length)

/-- What no command changes. -/
structure Same (cs cs' : List Content) : Prop where
  rel : (mapRes RelIndex.work (cs.map inside) >>= fun xs => .ok (xs.flatMap (·.getD []))) =
    (mapRes RelIndex.work (cs'.map inside) >>= fun xs => Res.ok (xs.flatMap (·.getD [])))
  ways : (fileWays cs').map wayMark = (fileWays cs).map wayMark
  rels : (fileRelations cs').map relCore = (fileRelations cs).map relCore

theorem Same.refl (cs : List Content) : Same cs cs := ⟨rfl, rfl, rfl⟩

theorem Same.trans {a b c : List Content} (h : Same a b) (k : Same b c) : Same a c :=
  ⟨h.rel.trans k.rel, k.ways.trans h.ways, k.rels.trans h.rels⟩

theorem inside_id (cs : List Content) : cs.filterMap inside = (cs.map inside).filterMap id := by
  rw [List.filterMap_map]; rfl

theorem same_inside {cs cs' : List Content} (h : cs'.map inside = cs.map inside) : Same cs cs' := by
  refine ⟨by rw [h], ?_, ?_⟩
  · rw [fileWays_eq, fileWays_eq, inside_id, inside_id, h]
  · rw [fileRelations_eq, fileRelations_eq, inside_id, inside_id, h]

theorem blocks_contents {inflate : Inflate} {file : List UInt8} {blocks : List (Option PrimitiveBlock)}
    (h : IsOsmFile inflate file blocks) : ∃ cs, IsOsmContents inflate file cs ∧ cs.map inside = blocks := by
  obtain ⟨xs, h1, h2⟩ := h
  suffices h : ∃ cs, Matches (IsContent inflate) xs cs ∧ cs.map inside = blocks by
    obtain ⟨cs, a, b⟩ := h
    exact ⟨cs, ⟨xs, h1, a⟩, b⟩
  clear h1
  induction h2 with
  | nil => exact ⟨[], .nil, rfl⟩
  | cons h _ ih =>
    obtain ⟨cs, a, b⟩ := ih
    cases h with
    | header bs => exact ⟨.other osmHeader bs :: cs, .cons (.header bs) a, by rw [List.map_cons, b]; rfl⟩
    | data bs p d hp hd => exact ⟨.data d :: cs, .cons (.data bs p d hp hd) a, by rw [List.map_cons, b]; rfl⟩

theorem decompress_done (inflate : Inflate) {file : List UInt8} {cs : List Content} (hg : Good inflate file cs)
    {xs : List (GoStr × List UInt8)} (hx : IsFile file xs) (hk : ∀ x ∈ xs, x.1 = osmHeader ∨ x.1 = osmData) {ps : List (List UInt8)}
    (hm : Matches (fun x p => IsPayload inflate x.2 p) xs ps) (hp : ∀ p ∈ ps, p ≠ [] ∧ p.length < 2 ^ 31 - 32)
    (sched0 : Block → Sched) (src dec : String) (fs fs0 : FS) (hin : Holds fs src file)
    (hdec : (decompress inflate sched0 none src dec).exec fs = .ok ((), fs0)) (file' : List UInt8) (hout : Holds fs0 dec file')
    (hl' : file'.length < 2 ^ 63) :
    ∃ cs', Good inflate file' cs' ∧ cs'.map inside = cs.map inside := by
  obtain ⟨xs', x1, x2⟩ := hg.is
  obtain ⟨bs, e3, hbs⟩ := split_of x1 hg.len hg.some (kinds_content x2)
  obtain ⟨bs2, e4, hbs2⟩ := split_of hx hg.len hg.some hk
  rw [e3] at e4
  cases e4
  subst hbs hbs2
  have hblocks : Matches (HasBlock inflate) (bs.map Seen) (cs.map inside) := by
    clear x1 hm hx hk e3 hg
    generalize bs.map Seen = z at x2
    induction x2 with
    | nil => exact .nil
    | cons h _ ih =>
      refine .cons ?_ ih
      cases h with
      | header bs => exact .header bs
      | data bs p b hp hb => exact .data bs p b hp hb
  obtain ⟨got, e2, o⟩ := process_back none _ src _ e3 fs hin hdec
  have e2 : mapRes (decompressWork inflate sched0) bs = .ok got := e2
  obtain ⟨fs', o1, o2, _⟩ := decompressOutput_exec dec got fs
  rw [o] at o1
  cases o1
  obtain rfl := holds_unique hout o2
  obtain ⟨_, hb⟩ := Rewrite.split_blocks hg.len e3
  have hm' : Matches (fun b p => IsPayload inflate (Seen b).2 p) bs ps := matches_seen hm
  have hout := decompress_blobs inflate sched0 (fun b h => (hb b h).1) hm' (fun p h => (hp p h).1) e2
  obtain ⟨d1, d2, d3⟩ := decompressed_conf inflate inflate hm fun p h => (hp p h).2
  have hfile : IsFile (fileOf (decompressed (bs.map Seen) ps)) (decompressed (bs.map Seen) ps) := by
    refine fileOf_isFile _ fun x hx => ⟨?_, d3 x hx⟩
    have : x.1 ∈ (decompressed (bs.map Seen) ps).map (·.1) := List.mem_map_of_mem hx
    rw [d1] at this
    obtain ⟨y, hy, he⟩ := List.mem_map.1 this
    rw [← he]
    exact kinds_content x2 y hy
  have hblk := decompressed_blocks inflate inflate (fun x hx => by
    obtain ⟨b, h, rfl⟩ := List.mem_map.1 hx
    have := (hb b h).2.1
    show b.Data.bytes.length < _
    omega) hm (fun p h => (hp p h).2) hblocks
  have hres : IsOsmFile inflate got.flatten (cs.map inside) := by
    rw [hout]
    exact ⟨_, hfile, hblk⟩
  obtain ⟨cs', c1, c2⟩ := blocks_contents hres
  have hlen : cs'.length = cs.length := by
    have := congrArg List.length c2
    simpa using this
  refine ⟨cs', ⟨hl', ?_, by rw [hlen]; exact hg.few, c1⟩, c2⟩
  intro h0
  rw [h0] at c1
  have h2 := contents_nil c1
  rw [h2] at hlen
  have h3 : cs = [] := List.eq_nil_of_length_eq_zero hlen.symm
  exact hg.some (no_contents (h3 ▸ hg.is))

/-- What wayindex sends. -/
def SameWays (cs cs' : List Content) : Prop := ∀ shift amt : Int64,
  (mapRes (WayIndexer.work shift amt) (cs.map inside) >>= fun xs => .ok (xs.flatMap Option.toList)) =
    (mapRes (WayIndexer.work shift amt) (cs'.map inside) >>= fun xs => Res.ok (xs.flatMap Option.toList))

/-- What nodeindex sends. -/
def SameNodes (cs cs' : List Content) : Prop := mapRes NodeIndexer.work (cs.map inside) = mapRes NodeIndexer.work (cs'.map inside)

theorem made_same (inflate : Inflate) {a b : List UInt8} {cs : List Content} (hg : Good inflate a cs) {k : Cmd} (h : MadeOf inflate a b k) :
    ∃ cs', Good inflate b cs' ∧ Same cs cs' ∧ (k ≠ .rewritenodes → SameWays cs cs') ∧ (k ≠ .tagfilter → SameNodes cs cs') := by
  cases h with
  | decompress sched src dst fs fs' xs ps file kinds payloads sizes inp run out len =>
    obtain ⟨cs', h1, h2⟩ := decompress_done inflate hg file kinds payloads sizes sched src dst fs fs' inp run b out len
    exact ⟨cs', h1, same_inside h2, fun _ shift amt => by rw [h2], fun _ => by unfold SameNodes; rw [h2]⟩
  | tagfilter sched hsched src dst fs fs' n inp run out some =>
    obtain ⟨ys, file'', t1, _, t3, t4, t5, t6, _⟩ := tagfilter_done inflate sched hsched hg src dst fs fs' n inp run
    obtain rfl := holds_unique out t3
    refine ⟨_, ⟨t5, some, t6, t4⟩, ⟨dropped (fun c y h => filt_rels h) t1, ?_, left_relations t1⟩,
      fun _ shift amt => dropped (fun c y h => filt_ways h shift amt) t1, fun h => absurd rfl h⟩
    have := congrArg (List.map fun c => (c.1, c.2.length)) (left_ways t1)
    simp only [List.map_map] at this
    exact this
  | rewritenodes scheds hsched src index dst fs fs' memory n ix ixFile subs wf locs passes parts load inp inx run out =>
    obtain ⟨file'', q1, q2⟩ := rewritenodes_done inflate scheds hsched wf locs memory n passes
      (Repeat.passCount_ne ix memory n passes) parts src index dst hg fs fs' inp inx load run
    obtain rfl := holds_unique out q1
    refine ⟨_, q2, ⟨?_, ?_, ?_⟩, fun h => absurd rfl h, fun _ => mapRefs_works (mapRefs_nodeWork _) cs⟩
    · rw [← mapRefs_works (mapRefs_relWork _) cs]
    · rw [fileWays_mapRefs, List.map_map]
      refine List.map_congr_left fun w _ => ?_
      show (w.ID, (w.Refs.map _).length) = (w.ID, w.Refs.length)
      rw [List.length_map]
    · rw [fileRelations_mapRefs]

theorem processed_same (inflate : Inflate) {cmds : Cmd → Prop} {a b : List UInt8} {cs : List Content} (hg : Good inflate a cs)
    (h : Processed inflate cmds a b) :
    ∃ cs', Good inflate b cs' ∧ Same cs cs' ∧ (¬ cmds .rewritenodes → SameWays cs cs') ∧ (¬ cmds .tagfilter → SameNodes cs cs') := by
  induction h with
  | start => exact ⟨cs, hg, .refl cs, fun _ _ _ => rfl, fun _ => rfl⟩
  | step _ hk h ih =>
    obtain ⟨cs1, g1, s1, w1, n1⟩ := ih
    obtain ⟨cs2, g2, s2, w2, n2⟩ := made_same inflate g1 h
    refine ⟨cs2, g2, s1.trans s2, fun hn shift amt => (w1 hn shift amt).trans (w2 (fun e => hn (e ▸ hk)) shift amt), fun hn => ?_⟩
    exact (n1 hn).trans (n2 fun e => hn (e ▸ hk))

end Osm.Format
