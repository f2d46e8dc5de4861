import Verif.Lemmas.Idempotent
import Verif.Props.TagFilter
import Verif.Lemmas.WayIndex

/-! # Running a program on its own output (C81) -/

namespace Osm.Props
open Osm Osm.Pb Osm.T Osm.Pbf Osm.Spec Osm.NodeIndex Osm.Rewrite

/-! ## decompress -/

/-- C81: decompressing what decompress wrote gives the same bytes, whatever the numbers of workers, the interleavings
and the chunks of zlib of the two runs; and the second run does not panic and can be completed. -/
theorem C81_decompress (inflate : Inflate) (sched sched' : Block → Sched) (file : List UInt8)
    (hl : file.length < 2 ^ 63) (bs : List Block) (hs : split file = .ok bs)
    (hp : ∀ b ∈ bs, Decompressible inflate b) (W W' : Nat) (got : List (List UInt8))
    (hd : Delivers (decompressCfg inflate sched file) W got) (f : String) (fs : FS) :
    ∃ fs' out, (decompressOutput f got).exec fs = .ok ((), fs') ∧ Holds fs' f out ∧ (out.length < 2 ^ 63 →
      (∀ s, Reachable (decompressCfg inflate sched' out) W' s → s.crashed = false) ∧
      (0 < W' → ∃ got', Delivers (decompressCfg inflate sched' out) W' got') ∧
      ∀ got', Delivers (decompressCfg inflate sched' out) W' got' → ∀ (f' : String) (fs2 : FS),
        ∃ fs2', (decompressOutput f' got').exec fs2 = .ok ((), fs2') ∧ Holds fs2' f' out) := by
  obtain ⟨s, hr, hdn, hc, rfl⟩ := hd
  obtain ⟨bs', e1, e2, _⟩ := C55_in_order _ hl rfl W s hr hdn hc
  rw [show (decompressCfg inflate sched file).file = file from rfl, hs] at e1
  cases e1
  have e2 : mapRes (decompressWork inflate sched) bs = .ok s.got := e2
  obtain ⟨fs', o1, o2, o3⟩ := decompressOutput_exec f s.got fs
  refine ⟨fs', _, o1, o2, fun hol => ?_⟩
  have hbf := ((split_iff file hl bs).1 hs).2
  have hkinds := blockFile_kind hbf
  have hbne : bs ≠ [] := by
    rintro rfl
    obtain ⟨hne, hbf⟩ := (split_iff file hl []).1 hs
    cases hbf
    exact hne rfl
  obtain ⟨ps, q1, q2, q3⟩ := decompressed_blocks inflate sched bs s.got hp hkinds e2
  have hw : ∀ x ∈ (bs.zip ps).map (fun x => (x.1.Kind, rawBlob x.2)), Writable x := by
    intro x hx
    obtain ⟨y, hy, rfl⟩ := List.mem_map.1 hx
    exact (q3 y hy).2.2
  have hzne : (bs.zip ps).map (fun x => (x.1.Kind, rawBlob x.2)) ≠ [] := by
    intro h
    have := congrArg List.length h
    simp [q1] at this
    exact hbne this
  rw [q2] at hol ⊢
  have key : ∀ x ∈ (bs.zip ps).map (fun x => (x.1.Kind, rawBlob x.2)), ∀ (i : Nat) (spare : List UInt8),
      (Slice.mk x.2 spare).Fits → decompressWork inflate sched' ⟨i, ⟨x.2, spare⟩, x.1⟩ = .ok (frame x.1 x.2) := by
    intro x hx i spare hf
    obtain ⟨y, hy, rfl⟩ := List.mem_map.1 hx
    obtain ⟨_, j2, _⟩ := q3 y hy
    exact decompressWork_eq inflate sched' _ y.2 (rawBlob_read inflate y.2 spare j2 hf i _) j2
  clear q2 q3
  generalize (bs.zip ps).map (fun x => (x.1.Kind, rawBlob x.2)) = xs at hw hzne hol key ⊢
  obtain ⟨bs2, t1, t2⟩ := again hzne hw hol (work := decompressWork inflate sched') (g := fun x => frame x.1 x.2) key
  have hrun := clean_run (c := decompressCfg inflate sched' (fileOf xs)) hol
    t1 (fun b hb => NodeIndex.mapRes_mem t2 b hb) (fun _ => rfl) (fun _ => rfl) W'
  refine ⟨hrun.1, fun h => (hrun.2 h).2, ?_⟩
  rintro got' ⟨s2, r1, r2, r3, rfl⟩ f' fs2
  obtain ⟨bs3, u1, u2, _⟩ := C55_in_order _ hol rfl W' s2 r1 r2 r3
  rw [show (decompressCfg inflate sched' (fileOf xs)).file = fileOf xs from rfl, t1] at u1
  cases u1
  have u2 : mapRes (decompressWork inflate sched') bs2 = .ok s2.got := u2
  rw [t2] at u2
  have u3 := Res.ok.inj u2
  obtain ⟨fs3, v1, v2, _⟩ := decompressOutput_exec f' s2.got fs2
  refine ⟨fs3, v1, ?_⟩
  have : s2.got.flatten = fileOf xs := by
    rw [← u3]
    rfl
  rw [← this]
  exact v2

/-- A run on the two blocks of `mixedBlocks` (of which one is compressed) meets the hypotheses. -/
example : ∃ (inflate : Inflate) (file : List UInt8) (bs : List Block), file.length < 2 ^ 63 ∧ split file = .ok bs ∧
    (∀ b ∈ bs, Decompressible inflate b) ∧ ∀ sched W, 0 < W → ∃ got, Delivers (decompressCfg inflate sched file) W got := by
  obtain ⟨bs, h1, h2⟩ := mixed_decompressible
  exact ⟨_, fileOf mixedBlocks, bs, by decide +kernel, h1, h2, fun sched W hW =>
    (C51_completes _ sched _ (by decide +kernel) bs h1 h2 W).2 hW⟩

/-! ## rewritenodes -/

theorem content_fixed {f g : Int64 → Int64} (h : ∀ r, g (f r) = f r) (c : Content) :
    (c.mapRefs f).mapRefs g = c.mapRefs f := by
  rw [content_mapRefs_comp]
  congr 1
  funext r
  exact h r

/-- Running rewritenodes on a settled file, with ranges among those that made it. -/
theorem rewritenodes_again (inflate : Inflate) (scheds : Nat → Block → Sched)
    (hsched : ∀ i b, (scheds i b).pooled.length < 2 ^ 63) {ix : NodeIdx} (wf : WellFormed ix.elements ix.locations)
    (hneg : NegativeLocs ix.locations) (memory : Option UInt64) (n : UInt64) (hn : passCount ix memory = .ok n)
    (hn0 : n ≠ 0) {subs : List SubIdx}
    (hsubs : mapRes (fun p => ix.SubIndex (UInt64.ofNat p) n) (List.range n.toNat) = .ok subs)
    {es : List IndexElement} (hes : ∀ (p : Nat) si, subs[p]? = some si → ∀ e ∈ si.element, e ∈ es) (inp index out : String)
    {cs : List Content} {file ixFile : List UInt8} (hl : file.length < 2 ^ 63)
    (hc : FileSettled inflate file (cs.map (·.mapRefs (locate es ix.locations))))
    (hsm : SmallFile (cs.map (·.mapRefs (locate es ix.locations)))) (fs : FS) (hin : Holds fs inp file)
    (hix : Holds fs index ixFile) (hload : NewNodeIndex ixFile = .ok ix) :
    ∃ fs', (rewritenodes inflate scheds memory inp index out).exec fs = .ok ((), fs') ∧ Holds fs' out file := by
  have hfix : ∀ si : SubIdx, (∀ e ∈ si.element, e ∈ es) → si.locations = ix.locations →
      ∀ c ∈ cs.map (·.mapRefs (locate es ix.locations)), c.mapRefs (locate si.element si.locations) = c := by
    intro si h1 h2 c hc
    obtain ⟨d, _, rfl⟩ := List.mem_map.1 hc
    rw [h2]
    exact content_fixed (fun r => locate_again hneg h1 r) d
  generalize cs.map (·.mapRefs (locate es ix.locations)) = cs1 at hfix hc hsm
  obtain ⟨fs', file', h1, h2, _, h3, _⟩ := rewritenodes_gen inflate scheds wf hneg memory n hn hn0 hsubs
    (fun f c => f = file ∧ c = cs1) (fun f c => f = file ∧ c = cs1) (fun _ _ h => h)
    (by
      rintro p si hp hw hloc f c inp' out' fs hl ⟨rfl, rfl⟩ _ hin
      have hf := hfix si (hes p si hp) hloc
      obtain ⟨fs', g1, g2, g3⟩ := pass_again inflate (scheds p) (hsched p) hw hc hf inp' out' fs hin
      refine ⟨fs', f, g1, g2, hl, ⟨rfl, ?_⟩, g3⟩
      conv => rhs; rw [← List.map_id c]
      exact List.map_congr_left fun x hx => hf x hx)
    inp index out hl ⟨rfl, rfl⟩ hsm fs hin hix hload
  obtain ⟨rfl, _⟩ := h3
  exact ⟨fs', h1, h2⟩

/-- C81: running rewritenodes with the same index and the same memory target on its own output writes the same bytes,
whatever the chunks of zlib in the two runs, even if the passes do not cover the index. -/
theorem C81_rewritenodes (inflate : Inflate) (scheds scheds' : Nat → Block → Sched)
    (hsched : ∀ i b, (scheds i b).pooled.length < 2 ^ 63) (hsched' : ∀ i b, (scheds' i b).pooled.length < 2 ^ 63)
    {ix : NodeIdx} (wf : WellFormed ix.elements ix.locations)
    (hneg : NegativeLocs ix.locations) (memory : Option UInt64) (n : UInt64) (hn : passCount ix memory = .ok n)
    (hn0 : n ≠ 0) {subs : List SubIdx}
    (hsubs : mapRes (fun p => ix.SubIndex (UInt64.ofNat p) n) (List.range n.toNat) = .ok subs)
    (inp index out : String) (_ : Distinct inp index out n.toNat) {cs : List Content} {file ixFile : List UInt8} (hl : file.length < 2 ^ 63)
    (hc : FileHas inflate waysDecoded file cs) (hsm : SmallFile cs) (fs : FS) (hin : Holds fs inp file)
    (hix : Holds fs index ixFile) (hload : NewNodeIndex ixFile = .ok ix) :
    ∃ fs' file', (rewritenodes inflate scheds memory inp index out).exec fs = .ok ((), fs') ∧ Holds fs' out file' ∧
      ∀ (inp2 index2 out2 : String) (fs2 : FS), Distinct inp2 index2 out2 n.toNat → Holds fs2 inp2 file' → Holds fs2 index2 ixFile →
        ∃ fs2', (rewritenodes inflate scheds' memory inp2 index2 out2).exec fs2 = .ok ((), fs2') ∧ Holds fs2' out2 file' := by
  obtain ⟨fs', file', h1, h2, h3, h4, _⟩ := rewritenodes_gen inflate scheds wf hneg memory n hn hn0 hsubs
    (FileHas inflate reader) (FileSettled inflate) (fun _ _ h => h.has)
    (fun p _ _ hw _ _ _ inp' out' fs hl hc hsm hin =>
      pass_settles inflate (scheds p) (hsched p) hw hl hc hsm inp' out' fs hin) inp index out hl hc hsm fs hin hix hload
  refine ⟨fs', file', h1, h2, fun inp2 index2 out2 fs2 _ hin2 hix2 => ?_⟩
  exact rewritenodes_again inflate scheds' hsched' wf hneg memory n hn hn0 hsubs
    (fun p si hp e he => List.mem_flatMap.2 ⟨si, List.mem_of_getElem? hp, he⟩) inp2 index2 out2 h3 h4
    (smallFile_map _ hsm) fs2 hin2 hix2 hload

/-- C81: and so does running it with any other memory target, if the passes of the first run covered the index (C31: as
a single pass does). -/
theorem C81_rewritenodes_any_memory (inflate : Inflate) (scheds scheds' : Nat → Block → Sched)
    (hsched : ∀ i b, (scheds i b).pooled.length < 2 ^ 63) (hsched' : ∀ i b, (scheds' i b).pooled.length < 2 ^ 63)
    {ix : NodeIdx} (wf : WellFormed ix.elements ix.locations)
    (hneg : NegativeLocs ix.locations) (memory : Option UInt64) (n : UInt64) (hn : passCount ix memory = .ok n)
    (hn0 : n ≠ 0) (hcover : PassesCover ix n.toNat)
    (inp index out : String) (_ : Distinct inp index out n.toNat) {cs : List Content} {file ixFile : List UInt8} (hl : file.length < 2 ^ 63)
    (hc : FileHas inflate waysDecoded file cs) (hsm : SmallFile cs) (fs : FS) (hin : Holds fs inp file)
    (hix : Holds fs index ixFile) (hload : NewNodeIndex ixFile = .ok ix) :
    ∃ fs' file', (rewritenodes inflate scheds memory inp index out).exec fs = .ok ((), fs') ∧ Holds fs' out file' ∧
      ∀ (memory2 : Option UInt64) (n2 : UInt64), passCount ix memory2 = .ok n2 → n2 ≠ 0 → ∀ subs2,
        mapRes (fun p => ix.SubIndex (UInt64.ofNat p) n2) (List.range n2.toNat) = .ok subs2 →
        ∀ (inp2 index2 out2 : String) (fs2 : FS), Distinct inp2 index2 out2 n.toNat → Holds fs2 inp2 file' → Holds fs2 index2 ixFile →
        ∃ fs2', (rewritenodes inflate scheds' memory2 inp2 index2 out2).exec fs2 = .ok ((), fs2') ∧ Holds fs2' out2 file' := by
  obtain ⟨subs, hs1, hs2⟩ := hcover
  rw [UInt64.ofNat_toNat] at hs1
  obtain ⟨fs', file', h1, h2, h3, h4, _⟩ := rewritenodes_gen inflate scheds wf hneg memory n hn hn0 hs1
    (FileHas inflate reader) (FileSettled inflate) (fun _ _ h => h.has)
    (fun p _ _ hw _ _ _ inp' out' fs hl hc hsm hin =>
      pass_settles inflate (scheds p) (hsched p) hw hl hc hsm inp' out' fs hin) inp index out hl hc hsm fs hin hix hload
  rw [hs2] at h4
  refine ⟨fs', file', h1, h2, fun memory2 n2 hn2 hn20 subs2 hsubs2 inp2 index2 out2 fs2 _ hin2 hix2 => ?_⟩
  refine rewritenodes_again inflate scheds' hsched' wf hneg memory2 n2 hn2 hn20 hsubs2 (fun p si hp e he => ?_) inp2 index2 out2
    h3 h4 (smallFile_map _ hsm) fs2 hin2 hix2 hload
  obtain ⟨_, s2⟩ := subs_of wf (n := n2.toNat) (subs := subs2) (by rw [UInt64.ofNat_toNat]; exact hsubs2)
  exact (subIndex_wf ix wf _ _ si (s2 p si hp).1).2.2 e he

/-- The file of `refsFile` and the index `lopsided` meet the hypotheses, with one pass (which covers the index) and with
two (which do not). -/
example (inflate : Inflate) : ∃ file ixFile cs, file.length < 2 ^ 63 ∧ FileHas inflate waysDecoded file cs ∧ SmallFile cs ∧
    NewNodeIndex ixFile = .ok lopsided ∧ WellFormed lopsided.elements lopsided.locations ∧ NegativeLocs lopsided.locations ∧
    (passCount lopsided none = .ok 1 ∧ PassesCover lopsided 1) ∧ passCount lopsided (some 1) = .ok 2 ∧
    ∃ subs, mapRes (fun p => lopsided.SubIndex (UInt64.ofNat p) 2) (List.range 2) = .ok subs := by
  obtain ⟨file, hl, hc⟩ := refsFile inflate
  obtain ⟨wf, hcomp, hneg⟩ := lopsided_wf
  obtain ⟨h2, a, b, _, h3⟩ := lopsided_two
  have hL : lopsided.locations.length = 131073 := List.length_replicate
  refine ⟨file, _, _, hl, hc, ⟨fun b hb => ?_, by simp⟩,
    NodeIndexer.load_file lopsided.elements lopsided.locations (by decide), wf, hneg,
    ⟨rfl, C31_single_pass lopsided wf hcomp (by rw [hL]; decide) (List.cons_ne_nil _ _)⟩, h2, _, h3⟩
  simp only [List.mem_cons, reduceCtorEq, Content.data.injEq, List.not_mem_nil, or_false, false_or] at hb
  subst hb
  exact ⟨by decide +kernel, by decide +kernel⟩

/-! ## tagfilter -/

/-- No tag of a wanted node or of a way or relation, and no role, is the empty string. -/
def NoEmptyStrings : Item → Prop
  | .other _ _ => True
  | .entities ns ws rs => [] ∉ blockStrings (wantedNodes ns) ws rs

/-- C81: filtering what tagfilter wrote (unless that is an empty file) gives the same bytes, whatever the numbers of
workers, the interleavings and the chunks of zlib of the two runs; the second run does not panic, can be completed, and
drops no block. -/
theorem C81_tagfilter (inflate : Inflate) (sched sched' : Block → Sched) (hsched : ∀ b, (sched b).pooled.length < 2 ^ 63)
    (hsched' : ∀ b, (sched' b).pooled.length < 2 ^ 63)
    (file : List UInt8) (hl : file.length < 2 ^ 63) (cs : List Content) (hc : FileHas inflate readAll file cs)
    (its : List Item) (hi : Matches IsItem cs its) (hfew : ∀ it ∈ its, it.FewStrings) (hne : ∀ it ∈ its, NoEmptyStrings it)
    (W W' : Nat) (got : List Rewrite.Out)
    (hd : Delivers (TagFilter.filterCfg inflate sched file) W got) (out : String) (fs : FS) :
    ∃ fs' file' fillers, (TagFilter.output out got).exec fs = .ok (fillers, fs') ∧ Holds fs' out file' ∧
      (file' ≠ [] → file'.length < 2 ^ 63 →
        (∀ s, Reachable (TagFilter.filterCfg inflate sched' file') W' s → s.crashed = false) ∧
        (0 < W' → ∃ got', Delivers (TagFilter.filterCfg inflate sched' file') W' got') ∧
        ∀ got', Delivers (TagFilter.filterCfg inflate sched' file') W' got' → ∀ (out' : String) (fs2 : FS),
          ∃ fs2', (TagFilter.output out' got').exec fs2 = .ok (0, fs2') ∧ Holds fs2' out' file') := by
  obtain ⟨fs', h1, h2, h3⟩ := TagFilter.output_exec out got fs
  obtain ⟨s, hr, hdn, hcc, rfl⟩ := hd
  obtain ⟨bs, e1, e2, _⟩ := C55_in_order _ hl rfl W s hr hdn hcc
  have e1 : split file = .ok bs := e1
  have e2 : mapRes (TagFilter.filterWork inflate sched) bs = .ok s.got := e2
  obtain ⟨bs', b1, b2⟩ := hc
  rw [e1] at b1
  cases b1
  obtain ⟨hbne, hb⟩ := Rewrite.split_blocks hl e1
  have hset : ∀ x ∈ s.got, x = (TagFilter.filler, []) ∨ TagFilter.Settled x := by
    intro x hx
    obtain ⟨b, hbm, hbx⟩ := WayIndex.mapRes_back e2 x hx
    obtain ⟨c, hc', hcc⟩ := Rewrite.matches_mem b2 b hbm
    obtain ⟨it, hit, hii⟩ := Rewrite.matches_mem hi c hc'
    obtain ⟨f1, f2, f3⟩ := hb b hbm
    refine TagFilter.work_settles inflate sched hsched f1 f2 f3 hcc hii (hfew it hit) ?_ hbx
    rintro ns ws rs rfl
    exact hne _ hit
  have hw : ∀ x ∈ TagFilter.written s.got, TagFilter.Settled x := by
    intro x hx
    obtain ⟨m1, m2⟩ := List.mem_filter.1 hx
    rcases hset x m1 with rfl | h
    · simp at m2
    · exact h
  refine ⟨fs', _, _, h1, h2, fun hfne hol => ?_⟩
  clear h1 h2 h3
  have hnf : ∀ x ∈ TagFilter.written s.got, x.1 ≠ TagFilter.filler := fun x hx => of_decide_eq_true (List.mem_filter.1 hx).2
  generalize TagFilter.written s.got = xs at hw hfne hol hnf
  have hxne : xs ≠ [] := by rintro rfl; exact hfne rfl
  obtain ⟨bs2, t1, t2⟩ := again hxne (fun x hx => (hw x hx).1) hol (work := TagFilter.filterWork inflate sched')
    (g := fun x => x) fun x hx i spare hf => TagFilter.work_again inflate sched' hsched' (hw x hx) i spare hf
  rw [List.map_id'] at t2
  have hrun := clean_run (c := TagFilter.filterCfg inflate sched' (fileOf xs)) hol
    t1 (fun b hb => NodeIndex.mapRes_mem t2 b hb) (fun _ => rfl) (fun _ => rfl) W'
  refine ⟨hrun.1, fun h => (hrun.2 h).2, ?_⟩
  rintro got' ⟨s2, r1, r2, r3, rfl⟩ out' fs2
  obtain ⟨bs3, u1, u2, _⟩ := C55_in_order _ hol rfl W' s2 r1 r2 r3
  rw [show (TagFilter.filterCfg inflate sched' (fileOf xs)).file = fileOf xs from rfl, t1] at u1
  cases u1
  have u2 : mapRes (TagFilter.filterWork inflate sched') bs2 = .ok s2.got := u2
  rw [t2] at u2
  have u3 := Res.ok.inj u2
  have hwr : TagFilter.written s2.got = s2.got := by
    rw [← u3]
    exact List.filter_eq_self.2 fun x hx => decide_eq_true (hnf x hx)
  obtain ⟨fs3, v1, v2, _⟩ := TagFilter.output_exec out' s2.got fs2
  rw [hwr] at v1 v2
  rw [Nat.sub_self] at v1
  rw [← u3] at v2
  exact ⟨fs3, v1, v2⟩

/-- The file of `taggedFile` meets the hypotheses. -/
example (inflate : Inflate) (sched : Block → Sched) (hsched : ∀ b, (sched b).pooled.length < 2 ^ 63) :
    ∃ file cs, file.length < 2 ^ 63 ∧ FileHas inflate readAll file cs ∧ Matches IsItem cs taggedItems ∧
    (∀ it ∈ taggedItems, it.FewStrings) ∧ (∀ it ∈ taggedItems, NoEmptyStrings it) ∧
    ∀ W, 0 < W → ∃ got, Delivers (TagFilter.filterCfg inflate sched file) W got := by
  obtain ⟨file, h1, h2, h3, h4, h5⟩ := taggedFile inflate
  refine ⟨file, _, h1, h2, h3, h4, ?_, fun W hW => ((C50_completes inflate sched hsched file h1 _ h2 _ h3 h5 W).2 hW).2⟩
  intro it hit
  simp only [taggedItems, List.mem_cons, List.not_mem_nil, or_false] at hit
  rcases hit with rfl | rfl | rfl
  · trivial
  · unfold NoEmptyStrings; decide +kernel
  · unfold NoEmptyStrings; decide +kernel

/-- With an empty value it is not so: the node `{"a": ""}` is kept at first, but without its tag (C49); so the second
run drops the block. -/
theorem C81_false_with_empty_value (inflate : Inflate) (sched : Block → Sched) (hsched : ∀ b, (sched b).pooled.length < 2 ^ 63) :
    ∃ pb s, BlockShape readAll pb ∧ TagFilter.filterBlock [] pb = .ok s ∧ s.msg.1 = osmData ∧
      ∀ (i : Nat) (spare : List UInt8), (Slice.mk s.msg.2 spare).Fits →
        TagFilter.filterWork inflate sched ⟨i, ⟨s.msg.2, spare⟩, s.msg.1⟩ = .ok (TagFilter.filler, []) := by
  obtain ⟨pb, h1, _, _, s, b', h2, h3, h4, h5, h6, h7⟩ := C49_false_with_empty_value inflate
  refine ⟨pb, s, h1, h2, h3, fun i spare hf => ?_⟩
  obtain ⟨raw, pb', r1, r2, r3⟩ := h4 i spare (sched ⟨i, ⟨s.msg.2, spare⟩, osmData⟩) hf (hsched _)
  have r2' : ReadPrimitiveBlock TagFilter.reader raw = .ok pb' := r2
  rw [trim_readAll (readBlock_shape _ _ _ r2)] at r3
  subst r3
  unfold TagFilter.filterWork TagFilter.filterIter
  rw [h3, if_neg (by simp), r1, Res.ok_bind, r2', Res.ok_bind]
  unfold TagFilter.filterBlock
  rw [h5, Res.ok_bind, h6, Res.ok_bind, h7, Res.ok_bind]
  rfl

end Osm.Props
