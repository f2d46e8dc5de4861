import Verif.Lemmas.Damaged
import Verif.Props.Interrupt
import Verif.Props.Count
import Verif.Props.Find

/-!
# C93: damaged input is never taken for complete
-/

namespace Osm.Props
open Osm Osm.T Osm.Pbf Osm.Spec Osm.Spec.OsmFormat Osm.Damaged

/-- C93: a file in the format (whoever wrote it) that was cut short: reading it panics, unless it was cut exactly between two
blobs (and behind at least one); then exactly the blobs before the cut are read. -/
theorem C93_cut (file : List UInt8) (xs : List (GoStr × List UInt8)) (h : IsFile file xs) (hl : file.length < 2 ^ 63)
    (hk : ∀ x ∈ xs, x.1 = osmHeader ∨ x.1 = osmData) (n : Nat) (hn : n < file.length) :
    (CutInside file xs n ∨ n = 0) ∧ split (file.take n) = .panic ∨
    ∃ j, 1 ≤ j ∧ j < xs.length ∧ IsFile (file.take n) (xs.take j) ∧ IsFile (file.drop n) (xs.drop j) ∧
      ∃ bs, split (file.take n) = .ok bs ∧ bs.map (fun b => (b.Kind, b.Data.bytes)) = xs.take j := by
  have hl' : (file.take n).length < 2 ^ 63 := by rw [List.length_take]; omega
  by_cases hb : ∃ bs, BlockFile 0 (file.take n) bs ∧ n ≠ 0
  · right
    obtain ⟨bs, hb, h0⟩ := hb
    obtain ⟨j, j1, j2, j3, j4⟩ := prefix_blockFile h hl n 0 bs hb
    refine ⟨j, ?_, ?_, j2, j3, bs, (split_iff _ hl' bs).2 ⟨?_, hb⟩, j4⟩
    · rcases Nat.eq_zero_or_pos j with rfl | hp
      · have := congrArg List.length (nil_isFile (by simpa using j2))
        rw [List.length_take, List.length_nil] at this
        omega
      · exact hp
    · rcases Nat.lt_or_ge j xs.length with hj | hj
      · exact hj
      · rw [List.drop_of_length_le hj] at j3
        have := congrArg List.length (nil_isFile j3)
        rw [List.length_drop, List.length_nil] at this
        omega
    · intro e
      have := congrArg List.length e
      rw [List.length_take, List.length_nil] at this
      omega
  · left
    refine ⟨?_, ?_⟩
    · by_cases h0 : n = 0
      · exact Or.inr h0
      · refine Or.inl ⟨hn, fun j hj => hb ?_⟩
        obtain ⟨bs, h1, _⟩ := Format.blockFile_of hj hl' (fun x hx => hk x (List.mem_of_mem_take hx)) 0
        exact ⟨bs, h1, h0⟩
    · by_cases h0 : n = 0
      · rw [h0, List.take_zero]; rfl
      · exact C53_otherwise _ hl' fun bs h => hb ⟨bs, h, h0⟩

/-- C93: whichever command ends without a panic and without having been cancelled: its input was read from the first byte to
the last one, and every block of data in it was unpacked and decoded (decompress only unpacks). -/
theorem C93_whole (inflate : Inflate) (sched : Block → Sched) (chunks : Nat → Nat) (shift : Int64) (passes : Nat)
    (inp wayIndex out : String) (fs fs' : FS) (file : List UInt8) (hin : Holds fs inp file) (hl : file.length < 2 ^ 63) :
    ((Programs.nodeindex inflate sched chunks inp out).exec fs = .ok ((), fs') → ReadableWhole inflate file) ∧
    ((Programs.wayindex inflate sched chunks shift inp out).exec fs = .ok ((), fs') → ReadableWhole inflate file) ∧
    ((Programs.relindex inflate sched passes inp wayIndex out).exec fs = .ok ((), fs') → ReadableWhole inflate file) ∧
    (∀ k, (Interrupt.tagfilter inflate sched none inp out).exec fs = .ok (k, fs') → ReadableWhole inflate file) ∧
    ((Interrupt.decompress inflate sched none inp out).exec fs = .ok ((), fs') → UnpackableWhole inflate file) := by
  obtain ⟨p, hin⟩ := hin
  have key : ∀ {α O : Type} {work : Block → Res O} {output : List O → Prog α} {r : α × FS},
      (Interrupt.process none work inp output).exec fs = .ok r → ∃ bs, split file = .ok bs ∧ ∀ b ∈ bs, ∃ o, work b = .ok o := by
    intro α O work output r h
    obtain ⟨f, bs, xs, ⟨q, h1⟩, h2, h3⟩ := process_ok h
    rw [hin] at h1
    cases h1
    exact ⟨bs, h2, mapRes_every h3⟩
  refine ⟨fun h => ?_, fun h => ?_, fun h => ?_, fun k h => ?_, fun h => ?_⟩
  · obtain ⟨bs, h1, h2⟩ := key (work := Programs.blockWork inflate sched _ _) h
    exact whole_of (decodes_blockWork _ _ _ _) hl h1 h2
  · obtain ⟨bs, h1, h2⟩ := key (work := Programs.blockWork inflate sched _ _) h
    exact whole_of (decodes_blockWork _ _ _ _) hl h1 h2
  · obtain ⟨bs, h1, h2⟩ := key (work := Programs.blockWork inflate sched _ _) h
    exact whole_of (decodes_blockWork _ _ _ _) hl h1 h2
  · obtain ⟨bs, h1, h2⟩ := key h
    exact whole_of (decodes_filter _ _) hl h1 h2
  · obtain ⟨bs, h1, h2⟩ := key h
    exact unpackable_of (unpacks_decompress _ _) hl h1 h2

/-- C93: the same for rewritenodes, if there is a pass at all. -/
theorem C93_whole_rewritenodes (inflate : Inflate) (scheds : Nat → Block → Sched) (memory : Option UInt64)
    (inp index out : String) (fs fs' : FS) (file ixFile : List UInt8) (hin : Holds fs inp file) (hl : file.length < 2 ^ 63)
    (hix : Holds fs index ixFile) (hpasses : ∀ ix, NodeIndex.NewNodeIndex ixFile = .ok ix → NodeIndex.passCount ix memory ≠ .ok 0)
    (h : (Rewrite.rewritenodes inflate scheds memory inp index out).exec fs = .ok ((), fs')) : ReadableWhole inflate file := by
  obtain ⟨p, hin⟩ := hin
  obtain ⟨q, hix⟩ := hix
  unfold Rewrite.rewritenodes at h
  rw [Prog.exec_bind, exec_OsOpen_some hix, Res.ok_bind, Prog.exec_bind, exec_MMapMap] at h
  dsimp only at h
  rw [hix] at h
  dsimp only at h
  obtain ⟨m, h1, h⟩ := Res.bind_eq_ok.1 h
  split at h1
  · cases h1
  obtain rfl := Res.ok.inj h1
  rw [Prog.exec_bind, Prog.exec_lift] at h
  obtain ⟨y, h2, h⟩ := Res.bind_eq_ok.1 h
  obtain ⟨ix, h3, h4⟩ := Res.bind_eq_ok.1 h2
  obtain rfl := Res.ok.inj h4
  rw [Prog.exec_bind, Prog.exec_lift] at h
  obtain ⟨z, h5, h⟩ := Res.bind_eq_ok.1 h
  obtain ⟨passes, h6, h7⟩ := Res.bind_eq_ok.1 h5
  obtain rfl := Res.ok.inj h7
  dsimp only at h h3 h6
  have hp : passes.toNat ≠ 0 := by
    intro e
    have : passes = 0 := UInt64.toNat_inj.1 e
    rw [this] at h6
    exact hpasses ix h3 h6
  obtain ⟨k, hk⟩ : ∃ k, passes.toNat = k + 1 := ⟨passes.toNat - 1, by omega⟩
  rw [Prog.exec_bind] at h
  obtain ⟨w, h8, _⟩ := Res.bind_eq_ok.1 h
  rw [show Rewrite.runPasses inflate scheds ix inp out passes.toNat passes.toNat 0 =
    Rewrite.runPasses inflate scheds ix inp out passes.toNat (k + 1) 0 by rw [← hk]] at h8
  unfold Rewrite.runPasses at h8
  rw [Prog.exec_bind] at h8
  obtain ⟨r1, g1, h8⟩ := Res.bind_eq_ok.1 h8
  have : r1 = ((), fs) := by
    have : (Rewrite.removeOld out passes.toNat 0).exec fs = .ok ((), fs) := rfl
    rw [this] at g1
    exact (Res.ok.inj g1).symm
  subst this
  rw [Prog.exec_bind, Prog.exec_lift] at h8
  obtain ⟨r2, g2, h8⟩ := Res.bind_eq_ok.1 h8
  obtain ⟨si, g3, g4⟩ := Res.bind_eq_ok.1 g2
  obtain rfl := Res.ok.inj g4
  rw [Prog.exec_bind] at h8
  obtain ⟨r3, g5, _⟩ := Res.bind_eq_ok.1 h8
  have g5 : (Interrupt.process none (Rewrite.rewriteWork inflate (scheds 0) si) inp
    (Rewrite.output (Rewrite.passOutput out passes.toNat 0))).exec fs = .ok r3 := g5
  obtain ⟨f, bs, xs, ⟨q', e1⟩, e2, e3⟩ := process_ok g5
  rw [hin] at e1
  cases e1
  exact whole_of (decodes_rewrite _ _ _) hl e2 (mapRes_every e3)

/-- C93: the same for every schedule of the concurrent runs, those of the commands that only count or search included. -/
theorem C93_any_schedule (inflate : Inflate) (sched : Block → Sched) (file : List UInt8) (hl : file.length < 2 ^ 63) (W : Nat) :
    (∀ {O : Type} (r : PBReader) (work : Option PrimitiveBlock → Res O) s,
      Reachable (Programs.cfg (Programs.blockWork inflate sched r work) file) W s → s.main = .done → s.cancelled = false →
        ReadableWhole inflate file) ∧
    (∀ si s, Reachable (Rewrite.rewriteCfg inflate sched si file) W s → s.main = .done → s.cancelled = false →
        ReadableWhole inflate file) ∧
    (∀ s, Reachable (TagFilter.filterCfg inflate sched file) W s → s.main = .done → s.cancelled = false →
        ReadableWhole inflate file) ∧
    (∀ ids s, Reachable (Find.findCfg inflate sched ids file) W s → s.main = .done → s.cancelled = false →
        ReadableWhole inflate file) ∧
    (∀ s, Reachable (Count.countCfg inflate sched file) W s → s.main = .done → s.cancelled = false →
        ReadableWhole inflate file) ∧
    (∀ s, Reachable (decompressCfg inflate sched file) W s → s.main = .done → s.cancelled = false →
        UnpackableWhole inflate file) ∧
    (∀ s, Reachable (Count.blocksCfg file) W s → s.main = .done → s.cancelled = false →
        file ≠ [] ∧ ∃ bs, BlockFile 0 file bs) := by
  refine ⟨fun r work s hr hd hc => ?_, fun si s hr hd hc => ?_, fun s hr hd hc => ?_, fun ids s hr hd hc => ?_,
    fun s hr hd hc => ?_, fun s hr hd hc => ?_, fun s hr hd hc => ?_⟩
  all_goals obtain ⟨bs, e1, -, -, e2⟩ := C55_each_once _ hl W s hr hd hc
  · exact whole_of (decodes_blockWork inflate sched r work) hl e1 e2
  · exact whole_of (decodes_rewrite inflate sched si) hl e1 e2
  · exact whole_of (decodes_filter inflate sched) hl e1 e2
  · exact whole_of (decodes_find inflate sched ids) hl e1 e2
  · exact whole_of (decodes_count inflate sched) hl e1 e2
  · exact unpackable_of (unpacks_decompress inflate sched) hl e1 e2
  · have h := (split_iff file hl bs).1 e1
    exact ⟨h.1, bs, h.2⟩

/-- C93: so a file that was cut inside a blob is not readable whole. -/
theorem C93_cut_unreadable (inflate : Inflate) (file : List UInt8) (xs : List (GoStr × List UInt8)) (h : IsFile file xs)
    (hl : file.length < 2 ^ 63) (n : Nat) (hn : CutInside file xs n) :
    ¬ ReadableWhole inflate (file.take n) ∧ ¬ UnpackableWhole inflate (file.take n) := by
  have : ∀ bs, ¬ BlockFile 0 (file.take n) bs := by
    intro bs hb
    obtain ⟨j, _, j2, _⟩ := prefix_blockFile h hl n 0 bs hb
    exact hn.2 j j2
  exact ⟨fun ⟨_, bs, hb, _⟩ => this bs hb, fun ⟨_, bs, hb, _⟩ => this bs hb⟩

/-- C93: nor is one with a block of data that zlib rejects or of which it delivers less than was promised. -/
theorem C93_corrupt_unreadable (inflate : Inflate) (file : List UInt8) (hl : file.length < 2 ^ 63) (bs : List Block)
    (hs : split file = .ok bs) (b : Block) (hb : b ∈ bs) (hk : b.Kind = osmData) (z : Slice) (size : Option Int32)
    (hz : ReadBlob b.Data = .ok ⟨none, size, some z⟩)
    (hbad : inflate z.bytes = none ∨ size = none ∨ ∃ p n, inflate z.bytes = some p ∧ size = some n ∧ (p.length : Int) < n.toInt) :
    ¬ ReadableWhole inflate file ∧ ¬ UnpackableWhole inflate file := by
  have key : ¬ UnpackableWhole inflate file := by
    rintro ⟨_, bs', h1, h2⟩
    have : bs' = bs := by
      have := (split_iff file hl bs').2 ⟨(by rintro rfl; cases hs), h1⟩
      rw [hs] at this
      exact (Res.ok.inj this).symm
    subst this
    obtain ⟨sched, raw, h3⟩ := h2 b hb hk
    unfold rawOf at h3
    rw [hz, Res.ok_bind] at h3
    rcases hbad with h | rfl | ⟨p, n, h, rfl, hlt⟩
    · rw [(C52_rejects inflate sched).1 z size h] at h3
      cases h3
    · rw [(C52_rejects inflate sched).2.1 z] at h3
      cases h3
    · rw [C52_short inflate z p n h hlt sched] at h3
      cases h3
  exact ⟨fun ⟨h0, bs', h1, h2⟩ => key ⟨h0, bs', h1, fun b hb hk => by
    obtain ⟨s, raw, _, _, h3, _⟩ := h2 b hb hk
    exact ⟨s, raw, h3⟩⟩, key⟩

/-- C93: on an input that cannot be read whole nodeindex, whatever the schedule and at whatever moment it dies, leaves no
index: the output file is as it was before the run, or is rejected. -/
theorem C93_no_node_index (inflate : Inflate) (sched : Block → Sched) (file : List UInt8) (hl : file.length < 2 ^ 63)
    (hbad : ¬ ReadableWhole inflate file) (W : Nat) (s : St (Option NodeIndexer.ElementBatch))
    (hr : Reachable (Programs.cfg (Programs.blockWork inflate sched Programs.nodeReader NodeIndexer.work) file) W s)
    (hc : s.cancelled = false) (chunks : Nat → Nat) (out : String) (fs fs' : FS)
    (hd : DiesIn (Interrupt.nodeLoop out) (NodeIndexer.Output out chunks never) s fs fs') :
    fs' out = fs out ∨ ∃ file', Holds fs' out file' ∧ NodeIndex.NewNodeIndex file' = .panic := by
  rcases C72_nodeindex _ file hl W s hr hc chunks out fs fs' hd with h | h | ⟨⟨bs, h1, h2⟩, _⟩
  · exact Or.inl h
  · exact Or.inr h
  · exact absurd (whole_of (decodes_blockWork _ _ _ _) hl h1 (mapRes_every h2)) hbad

/-- C93: nor does wayindex. -/
theorem C93_no_way_index (inflate : Inflate) (sched : Block → Sched) (file : List UInt8) (hl : file.length < 2 ^ 63)
    (hbad : ¬ ReadableWhole inflate file) (W : Nat) (s : St (Option WayIndexer.IndexElement)) (shift : Int64)
    (hr : Reachable (Programs.cfg (Programs.blockWork inflate sched Programs.wayReader (Programs.wayWork shift)) file) W s)
    (hc : s.cancelled = false) (chunks : Nat → Nat) (out : String) (fs fs' : FS)
    (hd : DiesIn (Interrupt.wayLoop out shift) (WayIndexer.Output out shift chunks never) s fs fs') :
    fs' out = fs out ∨ ∃ file', Holds fs' out file' ∧
      ∀ p n, (WayIndex.NewWayIndex file' >>= fun ix => ix.SubIndexWithScaledPass p n) = .panic := by
  rcases C72_wayindex _ file hl W s hr hc shift chunks out fs fs' hd with h | h | ⟨⟨bs, h1, h2⟩, _⟩
  · exact Or.inl h
  · exact Or.inr h
  · exact absurd (whole_of (decodes_blockWork _ _ _ _) hl h1 (mapRes_every h2)) hbad

/-! ## Examples -/

theorem threeBlocks_isFile : IsFile (fileOf threeBlocks) threeBlocks := Format.fileOf_isFile _ threeBlocks_writable

theorem threeBlocks_length : (fileOf threeBlocks).length = 48 := by decide +kernel

/-- Three blobs, cut inside the last one and behind the second one. -/
example : CutInside (fileOf threeBlocks) threeBlocks 40 ∧ split ((fileOf threeBlocks).take 40) = .panic ∧
    ∃ bs, split ((fileOf threeBlocks).take 31) = .ok bs ∧ bs.map (fun b => (b.Kind, b.Data.bytes)) = threeBlocks.take 2 := by
  have hk : ∀ x ∈ threeBlocks, x.1 = osmHeader ∨ x.1 = osmData := fun x hx => (threeBlocks_writable x hx).1
  have hp : split ((fileOf threeBlocks).take 40) = .panic := by rfl
  have hq : ∃ bs, split ((fileOf threeBlocks).take 31) = .ok bs := ⟨_, by rfl⟩
  have hl : (fileOf threeBlocks).length < 2 ^ 63 := by rw [threeBlocks_length]; omega
  refine ⟨?_, hp, ?_⟩
  · rcases C93_cut _ _ threeBlocks_isFile hl hk 40 (by rw [threeBlocks_length]; omega) with ⟨h | h, _⟩ | ⟨j, _, _, _, _, bs, h, _⟩
    · exact h
    · cases h
    · rw [hp] at h; cases h
  · obtain ⟨bs, hq⟩ := hq
    rcases C93_cut _ _ threeBlocks_isFile hl hk 31 (by rw [threeBlocks_length]; omega) with ⟨_, h⟩ | ⟨j, h1, h2, _, _, bs', h, h3⟩
    · rw [hq] at h; cases h
    · refine ⟨bs', h, ?_⟩
      have hj : j = 2 := by
        have h4 : (split ((fileOf threeBlocks).take 31) >>= fun bs => Res.ok bs.length) = .ok 2 := by rfl
        rw [h, Res.ok_bind] at h4
        have h5 := congrArg List.length h3
        rw [List.length_map, List.length_take, Res.ok.inj h4] at h5
        have : threeBlocks.length = 3 := rfl
        omega
      rw [h3, hj]

/-- No command takes the first 40 bytes of it for a complete file. -/
example (inflate : Inflate) (sched : Block → Sched) (chunks : Nat → Nat) (inp out : String) (fs fs' : FS)
    (hin : Holds fs inp ((fileOf threeBlocks).take 40)) :
    (Programs.nodeindex inflate sched chunks inp out).exec fs ≠ .ok ((), fs') := by
  intro h
  obtain ⟨h1, bs, h2, _⟩ := (C93_whole inflate sched chunks 0 0 inp "" out fs fs' _ hin
    (by rw [List.length_take, threeBlocks_length]; omega)).1 h
  have := (split_iff _ (by rw [List.length_take, threeBlocks_length]; omega) bs).2 ⟨h1, h2⟩
  rw [show split ((fileOf threeBlocks).take 40) = .panic by rfl] at this
  cases this

end Osm.Props
