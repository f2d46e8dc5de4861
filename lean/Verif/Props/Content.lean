import Verif.Lemmas.Content
import Verif.Props.Commute
import Verif.Props.FormatCount
import Verif.Props.Repeat
import Verif.Props.Find

/-!
# C108: only the content of the input matters

Two files of the same content, which may be encoded differently: compressed or not, with fields in another order, with other
strings in the table than are used, and so on. `cut`: as in C74.
-/

namespace Osm.Props
open Osm Osm.T Osm.Pbf Osm.Spec Osm.Spec.OsmFormat Osm.Interrupt Osm.Repeat Osm.Content

/-- C108: nodeindex. -/
theorem C108_nodeindex (inflate : Inflate) (s1 s2 : Block → Sched) (cut : Option Nat) (chunks1 chunks2 : Nat → Nat)
    {file1 file2 : List UInt8} (hl1 : file1.length < 2 ^ 63) (hl2 : file2.length < 2 ^ 63) (hne1 : file1 ≠ []) (hne2 : file2 ≠ [])
    {blocks : List (Option PrimitiveBlock)} (h1 : IsOsmFile inflate file1 blocks) (h2 : IsOsmFile inflate file2 blocks)
    (inp1 inp2 out : String) (fs1 fs2 : FS) (hin1 : Holds fs1 inp1 file1) (hin2 : Holds fs2 inp2 file2) :
    SameRun out ((nodeindex inflate s1 cut chunks1 never inp1 out).exec fs1)
      ((nodeindex inflate s2 cut chunks2 never inp2 out).exec fs2) := by
  obtain ⟨b1, p1, m1⟩ := sound_is_source (C87_source inflate file1 hl1 hne1 blocks h1)
  obtain ⟨b2, p2, m2⟩ := sound_is_source (C87_source inflate file2 hl2 hne2 blocks h2)
  refine process_alike cut p1 p2 ?_ hin1 hin2 fun xs => ?_
  · rw [Programs.works_source s1 Programs.nodeReader NodeIndexer.work Programs.nodeWork_agrees (matches_handed m1 cut),
      Programs.works_source s2 Programs.nodeReader NodeIndexer.work Programs.nodeWork_agrees (matches_handed m2 cut)]
  · rw [NodeIndexer.output_shape, NodeIndexer.output_shape]
    exact rel_withHeader out chunks1 chunks2 _ _ (NodeIndexer.loopSpec out (out ++ ".loc.tmp") (tmp_ne out) xs 0 0) _
      NodeIndexer.header_length (fun _ _ => True) fs1 fs2 trivial

/-- C108: wayindex. -/
theorem C108_wayindex (inflate : Inflate) (s1 s2 : Block → Sched) (cut : Option Nat) (chunks1 chunks2 : Nat → Nat) (shift : Int64)
    {file1 file2 : List UInt8} (hl1 : file1.length < 2 ^ 63) (hl2 : file2.length < 2 ^ 63) (hne1 : file1 ≠ []) (hne2 : file2 ≠ [])
    {blocks : List (Option PrimitiveBlock)} (h1 : IsOsmFile inflate file1 blocks) (h2 : IsOsmFile inflate file2 blocks)
    (inp1 inp2 out : String) (fs1 fs2 : FS) (hin1 : Holds fs1 inp1 file1) (hin2 : Holds fs2 inp2 file2) :
    SameRun out ((wayindex inflate s1 cut chunks1 never shift inp1 out).exec fs1)
      ((wayindex inflate s2 cut chunks2 never shift inp2 out).exec fs2) := by
  obtain ⟨b1, p1, m1⟩ := sound_is_source (C87_source inflate file1 hl1 hne1 blocks h1)
  obtain ⟨b2, p2, m2⟩ := sound_is_source (C87_source inflate file2 hl2 hne2 blocks h2)
  refine process_alike cut p1 p2 ?_ hin1 hin2 fun xs => ?_
  · rw [Programs.works_source s1 Programs.wayReader (Programs.wayWork shift) (Programs.wayWork_agrees shift) (matches_handed m1 cut),
      Programs.works_source s2 Programs.wayReader (Programs.wayWork shift) (Programs.wayWork_agrees shift) (matches_handed m2 cut)]
  · rw [WayIndexer.output_shape, WayIndexer.output_shape]
    exact rel_withHeader out chunks1 chunks2 _ _ (WayIndexer.loopSpec out (out ++ ".loc.tmp") (tmp_ne out) shift xs 0 0) _
      (WayIndexer.header_length shift) (fun _ _ => True) fs1 fs2 trivial

/-- C108: relindex with at least one pass, with the same way index. -/
theorem C108_relindex (inflate : Inflate) (s1 s2 : Block → Sched) (cut : Option Nat) (passes : Nat) (hn : 0 < passes)
    {file1 file2 : List UInt8} (hl1 : file1.length < 2 ^ 63) (hl2 : file2.length < 2 ^ 63) (hne1 : file1 ≠ []) (hne2 : file2 ≠ [])
    {blocks : List (Option PrimitiveBlock)} (h1 : IsOsmFile inflate file1 blocks) (h2 : IsOsmFile inflate file2 blocks)
    (inp1 inp2 wayIndex out : String) (fs1 fs2 : FS) (hin1 : Holds fs1 inp1 file1) (hin2 : Holds fs2 inp2 file2)
    (hw : SameData wayIndex fs1 fs2) :
    SameRun out ((relindex inflate s1 cut passes inp1 wayIndex out).exec fs1)
      ((relindex inflate s2 cut passes inp2 wayIndex out).exec fs2) := by
  obtain ⟨b1, p1, m1⟩ := sound_is_source (C87_source inflate file1 hl1 hne1 blocks h1)
  obtain ⟨b2, p2, m2⟩ := sound_is_source (C87_source inflate file2 hl2 hne2 blocks h2)
  refine process_alike cut p1 p2 ?_ hin1 hin2 fun xs => ?_
  · rw [Programs.works_source s1 Programs.relReader RelIndex.work Programs.relWork_agrees (matches_handed m1 cut),
      Programs.works_source s2 Programs.relReader RelIndex.work Programs.relWork_agrees (matches_handed m2 cut)]
  · refine rel_relindex (I := fun g => g = wayIndex) (C := fun _ => False) out wayIndex (by rfl) hn xs fs1 fs2
      ⟨fun _ h => ?_, fun _ h => h.elim⟩
    rw [h]
    exact hw

/-- C108: tagfilter, also the number of blocks it drops: byte for byte, since it encodes everything anew but the headers. -/
theorem C108_tagfilter (inflate : Inflate) (s1 s2 : Block → Sched) (hs1 : ∀ b, (s1 b).pooled.length < 2 ^ 63)
    (hs2 : ∀ b, (s2 b).pooled.length < 2 ^ 63) (cut : Option Nat)
    {file1 file2 : List UInt8} (hl1 : file1.length < 2 ^ 63) (hl2 : file2.length < 2 ^ 63) (hne1 : file1 ≠ []) (hne2 : file2 ≠ [])
    {cs : List Content} (h1 : IsOsmContents inflate file1 cs) (h2 : IsOsmContents inflate file2 cs)
    (inp1 inp2 out : String) (fs1 fs2 : FS) (hin1 : Holds fs1 inp1 file1) (hin2 : Holds fs2 inp2 file2) :
    SameRun out ((tagfilter inflate s1 cut inp1 out).exec fs1) ((tagfilter inflate s2 cut inp2 out).exec fs2) := by
  obtain ⟨x1, y1, z1⟩ := h1
  obtain ⟨x2, y2, z2⟩ := h2
  obtain ⟨b1, p1, rfl⟩ := Format.split_of y1 hl1 hne1 (Format.kinds_content z1)
  obtain ⟨b2, p2, rfl⟩ := Format.split_of y2 hl2 hne2 (Format.kinds_content z2)
  have hb : ∀ {file : List UInt8} {bs : List Block}, file.length < 2 ^ 63 → split file = .ok bs →
      ∀ b ∈ handed cut bs, b.Data.Fits ∧ b.Data.bytes.length < 2 ^ 63 := fun hl hs b hb => by
    have := (Rewrite.split_blocks hl hs).2 b (mem_handed hb)
    exact ⟨this.1, by omega⟩
  refine process_alike cut p1 p2 ?_ hin1 hin2 fun xs => ?_
  · rw [works_sends inflate s1 hs1 (matches_handed (Format.matches_seen z1) cut) (hb hl1 p1),
      works_sends inflate s2 hs2 (matches_handed (Format.matches_seen z2) cut) (hb hl2 p2)]
  · exact Alike.mono (rel_filter (I := fun _ => False) (C := fun _ => False) out xs fs1 fs2 ⟨fun _ h => h.elim, fun _ h => h.elim⟩)
      fun _ _ h => ⟨h.1, agree_data h.2 (.inr (.inl rfl))⟩

/-- C108: rewritenodes, with the same index: if both runs end normally, the outputs have the same content, block by block. -/
theorem C108_rewritenodes (inflate : Inflate) (s1 s2 : Nat → Block → Sched)
    (hs1 : ∀ i b, (s1 i b).pooled.length < 2 ^ 63) (hs2 : ∀ i b, (s2 i b).pooled.length < 2 ^ 63)
    {file1 file2 : List UInt8} (hl1 : file1.length < 2 ^ 63) (hl2 : file2.length < 2 ^ 63) (hne1 : file1 ≠ []) (hne2 : file2 ≠ [])
    {cs : List Content} (hfew : cs.length ≤ 2 ^ 31) (h1 : IsOsmContents inflate file1 cs) (h2 : IsOsmContents inflate file2 cs)
    {ix : NodeIndex.NodeIdx} (wf : WellFormed ix.elements ix.locations) (hneg : NegativeLocs ix.locations) (memory : Option UInt64)
    (n : UInt64) (hn : NodeIndex.passCount ix memory = .ok n) {subs : List NodeIndex.SubIdx}
    (hsubs : mapRes (fun p => ix.SubIndex (UInt64.ofNat p) n) (List.range n.toNat) = .ok subs)
    {ixFile : List UInt8} (hload : NodeIndex.NewNodeIndex ixFile = .ok ix)
    (inp1 inp2 index1 index2 out1 out2 : String) (fs1 fs2 fs1' fs2' : FS) (hin1 : Holds fs1 inp1 file1) (hin2 : Holds fs2 inp2 file2)
    (hix1 : Holds fs1 index1 ixFile) (hix2 : Holds fs2 index2 ixFile)
    (r1 : (Rewrite.rewritenodes inflate s1 memory inp1 index1 out1).exec fs1 = .ok ((), fs1'))
    (r2 : (Rewrite.rewritenodes inflate s2 memory inp2 index2 out2).exec fs2 = .ok ((), fs2')) :
    ∃ file1' file2' cs', Holds fs1' out1 file1' ∧ Holds fs2' out2 file2' ∧ IsOsmContents inflate file1' cs' ∧
      IsOsmContents inflate file2' cs' := by
  have hn0 := passCount_ne ix memory n hn
  obtain ⟨f1, a1, a2⟩ := Format.rewritenodes_done inflate s1 hs1 wf hneg memory n hn hn0 hsubs inp1 index1 out1 ⟨hl1, hne1, hfew, h1⟩
    fs1 fs1' hin1 hix1 hload r1
  obtain ⟨f2, b1, b2⟩ := Format.rewritenodes_done inflate s2 hs2 wf hneg memory n hn hn0 hsubs inp2 index2 out2 ⟨hl2, hne2, hfew, h2⟩
    fs2 fs2' hin2 hix2 hload r2
  exact ⟨f1, f2, _, a1, b1, a2.is, b2.is⟩

/-- C108: entitycount prints the same numbers. -/
theorem C108_entitycount (inflate : Inflate) (s1 s2 : Block → Sched) (hs1 : ∀ b, (s1 b).pooled.length < 2 ^ 63)
    (hs2 : ∀ b, (s2 b).pooled.length < 2 ^ 63)
    {file1 file2 : List UInt8} (hl1 : file1.length < 2 ^ 63) (hl2 : file2.length < 2 ^ 63) (hne1 : file1 ≠ []) (hne2 : file2 ≠ [])
    {cs : List Content} (h1 : IsOsmContents inflate file1 cs) (h2 : IsOsmContents inflate file2 cs) (W1 W2 : Nat)
    (st1 st2 : St (List T.PrimitiveGroup))
    (hr1 : Reachable (Count.countCfg inflate s1 file1) W1 st1) (hd1 : st1.main = .done) (hc1 : st1.cancelled = false)
    (hr2 : Reachable (Count.countCfg inflate s2 file2) W2 st2) (hd2 : st2.main = .done) (hc2 : st2.cancelled = false)
    (m1 m2 : Count.Var → UInt64) (hp1 : Count.Prints inflate s1 st1 m1) (hp2 : Count.Prints inflate s2 st2 m2) : m1 = m2 := by
  obtain ⟨a1, a2, a3, a4, a5, a6, a7, a8, a9⟩ := C61_format inflate s1 hs1 file1 hl1 hne1 cs h1 W1 st1 hr1 hd1 hc1 m1 hp1
  obtain ⟨b1, b2, b3, b4, b5, b6, b7, b8, b9⟩ := C61_format inflate s2 hs2 file2 hl2 hne2 cs h2 W2 st2 hr2 hd2 hc2 m2 hp2
  have hmax : ∀ {x y : UInt64} {xs : List UInt64}, IsMax x xs → IsMax y xs → x = y := fun hx hy =>
    UInt64.le_antisymm (hy.2 _ hx.1) (hx.2 _ hy.1)
  funext v
  cases v with
  | blockCount => rw [a1, b1]
  | nodeCount => rw [a2, b2]
  | wayCount => rw [a3, b3]
  | relationCount => rw [a4, b4]
  | wayRefCount => rw [a5, b5]
  | maxNode => exact hmax a6 b6
  | maxWay => exact hmax a7 b7
  | maxRelation => exact hmax a8 b8
  | maxWayRefCount => exact hmax a9 b9

theorem prints_blocks (inflate : Inflate) (sched : Block → Sched) (ids : List UInt64) (file : List UInt8) (hl : file.length < 2 ^ 63)
    {bs : List Block} (hs : split file = .ok bs) (W : Nat) (s : St (List Find.Entity))
    (hr : Reachable (Find.findCfg inflate sched ids file) W s) (hd : s.main = .done) (hc : s.cancelled = false)
    (out : List Find.Entity) (hp : Find.Prints inflate sched ids s out) :
    ∃ os, mapRes (Find.findBlock inflate sched ids) bs = .ok os ∧ out.Perm os.flatten := by
  obtain ⟨bs', e1, _, e3, _⟩ := C55_each_once _ hl W s hr hd hc
  have e1 : split file = .ok bs' := e1
  rw [hs] at e1
  cases e1
  obtain ⟨outs, q1, q2⟩ := hp
  obtain ⟨os, o1, o2⟩ := workers_found inflate sched ids s.workers q1
  obtain ⟨ws, w1, w2⟩ := Count.mapRes_perm e3 o1
  exact ⟨ws, w1, (Find.interleaved_perm q2).trans (o2 ▸ Count.flatten_perm w2)⟩

/-- C108: entityfind prints the same entities, as often. -/
theorem C108_entityfind (inflate : Inflate) (s1 s2 : Block → Sched) (hs1 : ∀ b, (s1 b).pooled.length < 2 ^ 63)
    (hs2 : ∀ b, (s2 b).pooled.length < 2 ^ 63) (ids : List UInt64)
    {file1 file2 : List UInt8} (hl1 : file1.length < 2 ^ 63) (hl2 : file2.length < 2 ^ 63) (hne1 : file1 ≠ []) (hne2 : file2 ≠ [])
    {cs : List Content} (h1 : IsOsmContents inflate file1 cs) (h2 : IsOsmContents inflate file2 cs) (W1 W2 : Nat)
    (st1 st2 : St (List Find.Entity))
    (hr1 : Reachable (Find.findCfg inflate s1 ids file1) W1 st1) (hd1 : st1.main = .done) (hc1 : st1.cancelled = false)
    (hr2 : Reachable (Find.findCfg inflate s2 ids file2) W2 st2) (hd2 : st2.main = .done) (hc2 : st2.cancelled = false)
    (out1 out2 : List Find.Entity) (hp1 : Find.Prints inflate s1 ids st1 out1) (hp2 : Find.Prints inflate s2 ids st2 out2) :
    out1.Perm out2 := by
  obtain ⟨x1, y1, z1⟩ := h1
  obtain ⟨x2, y2, z2⟩ := h2
  obtain ⟨b1, p1, rfl⟩ := Format.split_of y1 hl1 hne1 (Format.kinds_content z1)
  obtain ⟨b2, p2, rfl⟩ := Format.split_of y2 hl2 hne2 (Format.kinds_content z2)
  have hb : ∀ {file : List UInt8} {bs : List Block}, file.length < 2 ^ 63 → split file = .ok bs →
      ∀ b ∈ bs, b.Data.Fits ∧ b.Data.bytes.length < 2 ^ 63 := fun hl hs b hb => by
    have := (Rewrite.split_blocks hl hs).2 b hb
    exact ⟨this.1, by omega⟩
  obtain ⟨o1, q1, q2⟩ := prints_blocks inflate s1 ids file1 hl1 p1 W1 st1 hr1 hd1 hc1 out1 hp1
  obtain ⟨o2, r1, r2⟩ := prints_blocks inflate s2 ids file2 hl2 p2 W2 st2 hr2 hd2 hc2 out2 hp2
  rw [works_finds inflate s1 hs1 ids (Format.matches_seen z1) (hb hl1 p1)] at q1
  rw [works_finds inflate s2 hs2 ids (Format.matches_seen z2) (hb hl2 p2)] at r1
  rw [q1] at r1
  cases r1
  exact q2.trans r2.symm

/-- C108: decompressing makes no difference to what is made of the file: the indexes are the same. The payloads must not be empty
(C51), and have room for the size in front of them. -/
theorem C108_decompressed (inflate : Inflate) {file : List UInt8} (hl : file.length < 2 ^ 63) (hne : file ≠ [])
    {xs : List (GoStr × List UInt8)} (hx : IsFile file xs) {blocks : List (Option PrimitiveBlock)}
    (hblocks : Matches (HasBlock inflate) xs blocks) {ps : List (List UInt8)} (hm : Matches (fun x p => IsPayload inflate x.2 p) xs ps)
    (hp : ∀ p ∈ ps, p ≠ [] ∧ p.length < 2 ^ 31 - 32) (sched0 : Block → Sched) (src dec : String) (fs fs0 : FS)
    (hin : Holds fs src file) (hdec : (decompress inflate sched0 none src dec).exec fs = .ok ((), fs0)) :
    ∃ file', Holds fs0 dec file' ∧ (file'.length < 2 ^ 63 → ∀ (s1 s2 : Block → Sched) (cut : Option Nat) (chunks1 chunks2 : Nat → Nat)
      (shift : Int64) (passes : Nat) (wayIndex out : String) (fs1 fs2 : FS), 0 < passes → Holds fs1 src file → Holds fs2 dec file' →
      SameData wayIndex fs1 fs2 →
      SameRun out ((nodeindex inflate s1 cut chunks1 never src out).exec fs1) ((nodeindex inflate s2 cut chunks2 never dec out).exec fs2) ∧
      SameRun out ((wayindex inflate s1 cut chunks1 never shift src out).exec fs1)
        ((wayindex inflate s2 cut chunks2 never shift dec out).exec fs2) ∧
      SameRun out ((relindex inflate s1 cut passes src wayIndex out).exec fs1)
        ((relindex inflate s2 cut passes dec wayIndex out).exec fs2)) := by
  have hk : ∀ x ∈ xs, x.1 = osmHeader ∨ x.1 = osmData := by
    clear hx hm
    induction hblocks with
    | nil => intro x hx; cases hx
    | cons h _ ih =>
      intro x hx
      rcases List.mem_cons.1 hx with rfl | hx
      · cases h with
        | header => exact .inl rfl
        | data => exact .inr rfl
      · exact ih x hx
  have hsrc : IsOsmFile inflate file blocks := ⟨xs, hx, hblocks⟩
  obtain ⟨bs, e3, rfl⟩ := Format.split_of hx hl hne hk
  obtain ⟨got, e2, o⟩ := process_back none _ src _ e3 fs hin hdec
  have e2 : mapRes (decompressWork inflate sched0) bs = .ok got := e2
  obtain ⟨fs', o1, o2, _⟩ := decompressOutput_exec dec got fs
  rw [o] at o1
  cases o1
  obtain ⟨_, hb⟩ := Rewrite.split_blocks hl e3
  have hm' : Matches (fun b p => IsPayload inflate (Seen b).2 p) bs ps := Format.matches_seen hm
  have hout := Format.decompress_blobs inflate sched0 (fun b h => (hb b h).1) hm' (fun p h => (hp p h).1) e2
  obtain ⟨d1, d2, d3⟩ := Format.decompressed_conf inflate inflate hm fun p h => (hp p h).2
  have hfile : IsFile (fileOf (Format.decompressed (bs.map Seen) ps)) (Format.decompressed (bs.map Seen) ps) := by
    refine Format.fileOf_isFile _ fun x hx => ⟨?_, d3 x hx⟩
    have : x.1 ∈ (Format.decompressed (bs.map Seen) ps).map (·.1) := List.mem_map_of_mem hx
    rw [d1] at this
    obtain ⟨y, hy, he⟩ := List.mem_map.1 this
    rw [← he]
    exact hk y hy
  have hblk := Format.decompressed_blocks inflate inflate (fun x hx => by
    obtain ⟨b, h, rfl⟩ := List.mem_map.1 hx
    have := (hb b h).2.1
    show b.Data.bytes.length < _
    omega) hm (fun p h => (hp p h).2) hblocks
  have hres : IsOsmFile inflate got.flatten blocks := by
    rw [hout]
    exact ⟨_, hfile, hblk⟩
  refine ⟨got.flatten, o2, fun hl' s1 s2 cut chunks1 chunks2 shift passes wayIndex out fs1 fs2 hn i1 i2 hw => ?_⟩
  have hne' : got.flatten ≠ [] := by
    intro h0
    obtain ⟨ys, y1, y2⟩ := hres
    rw [h0] at y1
    have hy : ys = [] := by
      generalize hz : ([] : List UInt8) = z at y1
      cases y1 with
      | nil => rfl
      | cons size header blob rest kind dataSize xs hs =>
        have := congrArg List.length hz
        simp only [List.length_append, List.length_nil] at this
        omega
    subst hy
    cases y2
    generalize hz : bs.map Seen = z at hblocks hx
    cases hblocks
    cases hx
    exact hne rfl
  exact ⟨C108_nodeindex inflate s1 s2 cut chunks1 chunks2 hl hl' hne hne' hsrc hres src dec out fs1 fs2 i1 i2,
    C108_wayindex inflate s1 s2 cut chunks1 chunks2 shift hl hl' hne hne' hsrc hres src dec out fs1 fs2 i1 i2,
    C108_relindex inflate s1 s2 cut passes hn hl hl' hne hne' hsrc hres src dec wayIndex out fs1 fs2 i1 i2 hw⟩

/-! ### The hypotheses are met -/

/-- The content of `squeezedFile`, not compressed. -/
def plainFile : List UInt8 := fileOf [(osmHeader, [10, 1, 5]), (osmData, [10, 66] ++ tinyPayload)]

/-- Two different files of the same content. -/
theorem same_content : IsOsmContents strange plainFile [.other osmHeader [10, 1, 5], .data tinyBlock] ∧
    IsOsmContents strange squeezedFile [.other osmHeader [10, 1, 5], .data tinyBlock] ∧ plainFile ≠ squeezedFile := by
  refine ⟨⟨_, C88_file _ (by unfold Writable; decide +kernel), .cons (.header _) (.cons (.data _ tinyPayload _
    (Format.rawPayloadOf_sound _ _ _ (by decide +kernel)) tiny_isBlock) .nil)⟩, ⟨_, C88_file _ (by unfold Writable; decide +kernel),
    .cons (.header _) (.cons ?_ .nil)⟩, by decide +kernel⟩
  cases squeezed_payloads with
  | cons _ h => cases h with
    | cons h _ => exact .data _ tinyPayload _ h tiny_isBlock

/-- Their blocks. -/
theorem same_blocks : IsOsmFile strange plainFile [none, some tinyBlock] ∧ IsOsmFile strange squeezedFile [none, some tinyBlock] := by
  obtain ⟨⟨x, h1, h2⟩, ⟨y, h3, h4⟩, _⟩ := same_content
  have blocks : ∀ {x : List (GoStr × List UInt8)}, Matches (IsContent strange) x [.other osmHeader [10, 1, 5], .data tinyBlock] →
      Matches (HasBlock strange) x [none, some tinyBlock] := by
    intro x h
    cases h with
    | cons h h' => cases h' with
      | cons h' h'' =>
        cases h''
        cases h
        cases h' with
        | data bs p b hp hb => exact .cons (.header _) (.cons (.data _ _ _ hp hb) .nil)
  exact ⟨⟨x, h1, blocks h2⟩, ⟨y, h3, blocks h4⟩⟩

/-- So nodeindex makes the same index of both, and does end normally. -/
example (s1 s2 : Block → Sched) (chunks1 chunks2 : Nat → Nat) (fs1 fs2 : FS) (h1 : Holds fs1 "plain" plainFile)
    (h2 : Holds fs2 "squeezed" squeezedFile) :
    ∃ fs1' fs2' bytes, (nodeindex strange s1 none chunks1 never "plain" "nix").exec fs1 = .ok ((), fs1') ∧
      (nodeindex strange s2 none chunks2 never "squeezed" "nix").exec fs2 = .ok ((), fs2') ∧
      Holds fs1' "nix" bytes ∧ Holds fs2' "nix" bytes := by
  have hsame := C108_nodeindex strange s1 s2 none chunks1 chunks2 (by decide +kernel) (by decide +kernel) (by decide +kernel)
    (by decide +kernel) same_blocks.1 same_blocks.2 "plain" "squeezed" "nix" fs1 fs2 h1 h2
  obtain ⟨fs1', ixFile, ix, a1, a2, _⟩ := nodeindex_ok s1 chunks1
    (sound_is_source (C87_source strange plainFile (by decide +kernel) (by decide +kernel) _ same_blocks.1)) tiny_indexable
    "plain" "nix" fs1 h1
  have a1 : (nodeindex strange s1 none chunks1 never "plain" "nix").exec fs1 = .ok ((), fs1') := a1
  rw [a1] at hsame
  generalize hr : (nodeindex strange s2 none chunks2 never "squeezed" "nix").exec fs2 = r at hsame
  cases hsame with
  | ok _ b hb =>
    obtain ⟨pos, a2⟩ := a2
    have hd : (fs1' "nix").map (·.data) = (b.2 "nix").map (·.data) := hb.2
    rw [a2] at hd
    refine ⟨fs1', b.2, ixFile, a1, ?_, ⟨pos, a2⟩, ?_⟩
    · rfl
    · cases hx : b.2 "nix" with
      | none => rw [hx] at hd; cases hd
      | some x =>
        rw [hx] at hd
        obtain ⟨d, q⟩ := x
        cases hd
        exact ⟨q, hx⟩

end Osm.Props
