import Verif.Lemmas.Repeat
import Verif.Props.Cancel

/-!
# C77: the same inputs give the same output

Two runs of a command on the same input files: in other file systems (with other contents of the output and temporary
files, say of an earlier or interrupted run), with other numbers of workers, other schedules, other contents of the pooled
buffers and other chunks delivered by the decompressor and the copying. `cut`: as in C74.
-/

namespace Osm.Props
open Osm Osm.T Osm.Pbf Osm.Spec Osm.Interrupt Osm.Repeat

/-- C77: with any numbers of workers and any schedules, two completed runs which are not cancelled hand the same results in
the same order to the writer, if the workers do the same with each block. -/
theorem C77_any_schedule {O : Type} (w1 w2 : Block → Res O) (file : List UInt8) (hl : file.length < 2 ^ 63)
    (hw : AllBlocks (fun b => w1 b = w2 b) file) (W1 W2 : Nat) (s1 s2 : St O)
    (h1 : Reachable (Programs.cfg w1 file) W1 s1) (d1 : s1.main = .done) (c1 : s1.cancelled = false)
    (h2 : Reachable (Programs.cfg w2 file) W2 s2) (d2 : s2.main = .done) (c2 : s2.cancelled = false) :
    s1.got = s2.got := by
  obtain ⟨bs1, a1, a2, _⟩ := C55_in_order _ hl rfl W1 s1 h1 d1 c1
  obtain ⟨bs2, b1, b2, _⟩ := C55_in_order _ hl rfl W2 s2 h2 d2 c2
  have a1 : split file = .ok bs1 := a1
  have b1 : split file = .ok bs2 := b1
  rw [a1] at b1
  cases b1
  have a2 : mapRes w1 bs1 = .ok s1.got := a2
  have b2 : mapRes w2 bs1 = .ok s2.got := b2
  rw [mapRes_on (hw bs1 a1), b2] at a2
  exact (Res.ok.inj a2).symm

/-- C77: decompress, if no block inflates to more than it declares. -/
theorem C77_decompress (inflate : Inflate) (s1 s2 : Block → Sched) (cut : Option Nat) (inp out : String) (fs1 fs2 : FS)
    (hd : SameData inp fs1 fs2) (hb : ∀ x, fs1 inp = some x → AllBlocks (NotLonger inflate) x.data) :
    SameRun out ((decompress inflate s1 cut inp out).exec fs1) ((decompress inflate s2 cut inp out).exec fs2) := by
  have : Rel (fun a b => (Agree (fun _ => False) (fun _ => False) a b ∧ SameData inp a b) ∧
      ∀ x, a inp = some x → AllBlocks (NotLonger inflate) x.data) (SameData out)
      (decompress inflate s1 cut inp out) (decompress inflate s2 cut inp out) := by
    refine rel_process cut (fun a b h => h.1.2) (fun a b h x hx bs hs c hc => decompress_same (h.2 x hx bs hs c hc) s1 s2) fun xs => ?_
    exact rel_mono (rel_decompress out xs) (fun _ _ h => h.1.1) fun _ _ h => agree_data h (.inr (.inl rfl))
  exact this fs1 fs2 ⟨⟨⟨fun _ h => h.elim, fun _ h => h.elim⟩, hd⟩, hb⟩

/-- C77: tagfilter, also the number of blocks it drops. -/
theorem C77_tagfilter (inflate : Inflate) (s1 s2 : Block → Sched) (cut : Option Nat) (inp out : String) (fs1 fs2 : FS)
    (hd : SameData inp fs1 fs2) (hb : ∀ x, fs1 inp = some x → AllBlocks (Definite inflate readAll) x.data) :
    SameRun out ((tagfilter inflate s1 cut inp out).exec fs1) ((tagfilter inflate s2 cut inp out).exec fs2) := by
  have : Rel (fun a b => (Agree (fun _ => False) (fun _ => False) a b ∧ SameData inp a b) ∧
      ∀ x, a inp = some x → AllBlocks (Definite inflate readAll) x.data) (SameData out)
      (tagfilter inflate s1 cut inp out) (tagfilter inflate s2 cut inp out) := by
    refine rel_process cut (fun a b h => h.1.2) (fun a b h x hx bs hs c hc => filter_same (h.2 x hx bs hs c hc) s1 s2) fun xs => ?_
    exact rel_mono (rel_filter out xs) (fun _ _ h => h.1.1) fun _ _ h => agree_data h (.inr (.inl rfl))
  exact this fs1 fs2 ⟨⟨⟨fun _ h => h.elim, fun _ h => h.elim⟩, hd⟩, hb⟩

/-- C77: nodeindex (not cancelled while copying the locations). -/
theorem C77_nodeindex (inflate : Inflate) (s1 s2 : Block → Sched) (cut : Option Nat) (chunks1 chunks2 : Nat → Nat)
    (inp out : String) (fs1 fs2 : FS) (hd : SameData inp fs1 fs2)
    (hb : ∀ x, fs1 inp = some x → AllBlocks (Definite inflate nodesDecoded) x.data) :
    SameRun out ((nodeindex inflate s1 cut chunks1 never inp out).exec fs1)
      ((nodeindex inflate s2 cut chunks2 never inp out).exec fs2) := by
  have : Rel (fun a b => SameData inp a b ∧
      ∀ x, a inp = some x → AllBlocks (Definite inflate nodesDecoded) x.data) (SameData out)
      (nodeindex inflate s1 cut chunks1 never inp out) (nodeindex inflate s2 cut chunks2 never inp out) := by
    refine rel_process cut (fun a b h => h.1) (fun a b h x hx bs hs c hc =>
      blockWork_same (fun p q e => by rw [← nodeWork_trim, e, nodeWork_trim]) (h.2 x hx bs hs c hc) s1 s2) fun xs => ?_
    rw [NodeIndexer.output_shape, NodeIndexer.output_shape]
    exact rel_withHeader out chunks1 chunks2 _ _ (NodeIndexer.loopSpec out (out ++ ".loc.tmp") (tmp_ne out) xs 0 0) _
      NodeIndexer.header_length _
  exact this fs1 fs2 ⟨hd, hb⟩

/-- C77: wayindex. -/
theorem C77_wayindex (inflate : Inflate) (s1 s2 : Block → Sched) (cut : Option Nat) (chunks1 chunks2 : Nat → Nat)
    (shift : Int64) (inp out : String) (fs1 fs2 : FS) (hd : SameData inp fs1 fs2)
    (hb : ∀ x, fs1 inp = some x → AllBlocks (Definite inflate waysDecoded) x.data) :
    SameRun out ((wayindex inflate s1 cut chunks1 never shift inp out).exec fs1)
      ((wayindex inflate s2 cut chunks2 never shift inp out).exec fs2) := by
  have : Rel (fun a b => SameData inp a b ∧
      ∀ x, a inp = some x → AllBlocks (Definite inflate waysDecoded) x.data) (SameData out)
      (wayindex inflate s1 cut chunks1 never shift inp out) (wayindex inflate s2 cut chunks2 never shift inp out) := by
    refine rel_process cut (fun a b h => h.1) (fun a b h x hx bs hs c hc =>
      blockWork_same (fun p q e => Programs.wayWork_congr shift (by rw [← Programs.trim_ways, e, Programs.trim_ways]))
        (h.2 x hx bs hs c hc) s1 s2) fun xs => ?_
    rw [WayIndexer.output_shape, WayIndexer.output_shape]
    exact rel_withHeader out chunks1 chunks2 _ _ (WayIndexer.loopSpec out (out ++ ".loc.tmp") (tmp_ne out) shift xs 0 0) _
      (WayIndexer.header_length shift) _
  exact this fs1 fs2 ⟨hd, hb⟩

/-- C77: relindex with at least one pass. -/
theorem C77_relindex (inflate : Inflate) (s1 s2 : Block → Sched) (cut : Option Nat) (passes : Nat) (hn : 0 < passes)
    (inp wayIndex out : String) (fs1 fs2 : FS) (hd : SameData inp fs1 fs2) (hw : SameData wayIndex fs1 fs2)
    (hb : ∀ x, fs1 inp = some x → AllBlocks (Definite inflate relationsDecoded) x.data) :
    SameRun out ((relindex inflate s1 cut passes inp wayIndex out).exec fs1)
      ((relindex inflate s2 cut passes inp wayIndex out).exec fs2) := by
  have : Rel (fun a b => (Agree (fun g => g = wayIndex) (fun _ => False) a b ∧ SameData inp a b) ∧
      ∀ x, a inp = some x → AllBlocks (Definite inflate relationsDecoded) x.data) (SameData out)
      (relindex inflate s1 cut passes inp wayIndex out) (relindex inflate s2 cut passes inp wayIndex out) := by
    refine rel_process cut (fun a b h => h.1.2) (fun a b h x hx bs hs c hc =>
      blockWork_same (fun p q e => by rw [← relWork_trim, e, relWork_trim]) (h.2 x hx bs hs c hc) s1 s2) fun xs => ?_
    exact rel_mono (rel_relindex out wayIndex (by rfl) hn xs) (fun _ _ h => h.1.1) fun _ _ h => h
  refine this fs1 fs2 ⟨⟨⟨fun _ h => ?_, fun _ h => h.elim⟩, hd⟩, hb⟩
  rw [h]
  exact hw

/-- C77: rewritenodes, on a file with readable contents and a well-formed index. -/
theorem C77_rewritenodes (inflate : Inflate) (s1 s2 : Nat → Block → Sched)
    (hs1 : ∀ i b, (s1 i b).pooled.length < 2 ^ 63) (hs2 : ∀ i b, (s2 i b).pooled.length < 2 ^ 63)
    (cuts : Nat → Option Nat) (memory : Option UInt64) (inp index out : String) (fs1 fs2 : FS)
    (hd : SameData inp fs1 fs2) (hx : SameData index fs1 fs2)
    {file : List UInt8} (hin : Holds fs1 inp file) (hl : file.length < 2 ^ 63) {cs : List Content}
    (hc : FileHas inflate waysDecoded file cs) (hsm : SmallFile cs)
    {ixFile : List UInt8} (hix : Holds fs1 index ixFile)
    (hwf : ∀ ix, NodeIndex.NewNodeIndex ixFile = .ok ix → WellFormed ix.elements ix.locations) :
    SameRun out ((rewritenodes inflate s1 cuts memory inp index out).exec fs1)
      ((rewritenodes inflate s2 cuts memory inp index out).exec fs2) := by
  obtain ⟨pi, hin⟩ := hin
  obtain ⟨px, hix⟩ := hix
  obtain ⟨py, hiy⟩ : ∃ py, fs2 index = some ⟨ixFile, py⟩ := by
    unfold SameData at hx
    rw [hix] at hx
    cases h2 : fs2 index with
    | none => rw [h2] at hx; cases hx
    | some y =>
      rw [h2] at hx
      simp only [Option.map_some, Option.some.injEq] at hx
      exact ⟨y.pos, by rw [hx]⟩
  have start : ∀ (s : Nat → Block → Sched) (fs : FS) (p : Nat), fs index = some ⟨ixFile, p⟩ →
      (rewritenodes inflate s cuts memory inp index out).exec fs =
      (if ixFile = [] then .panic else (do
        let ix ← NodeIndex.NewNodeIndex ixFile
        let n ← NodeIndex.passCount ix memory
        ((do
          rewritePasses inflate s cuts ix inp out n.toNat n.toNat 0
          Rewrite.removeLast out n.toNat : Prog Unit)).exec fs)) := by
    intro s fs p h
    unfold rewritenodes
    rw [Prog.exec_bind, exec_OsOpen_some h, Res.ok_bind, Prog.exec_bind, exec_MMapMap]
    dsimp only
    rw [h]
    dsimp only
    by_cases he : ixFile = []
    · rw [if_pos he, if_pos he]; rfl
    · rw [if_neg he, if_neg he, Res.ok_bind, Prog.exec_bind, Prog.exec_lift]
      cases NodeIndex.NewNodeIndex ixFile with
      | panic => rfl
      | hang => rfl
      | ok ix =>
        rw [Res.ok_bind, Res.ok_bind, Res.ok_bind, Prog.exec_bind, Prog.exec_lift]
        cases NodeIndex.passCount ix memory with
        | panic => rfl
        | hang => rfl
        | ok n => rfl
  rw [start s1 fs1 px hix, start s2 fs2 py hiy]
  unfold SameRun
  by_cases he : ixFile = []
  · rw [if_pos he, if_pos he]; exact .panic
  rw [if_neg he, if_neg he]
  cases hload : NodeIndex.NewNodeIndex ixFile with
  | panic => exact .panic
  | hang => exact .hang
  | ok ix =>
    rw [Res.ok_bind, Res.ok_bind]
    cases hn : NodeIndex.passCount ix memory with
    | panic => exact .panic
    | hang => exact .hang
    | ok n =>
      rw [Res.ok_bind, Res.ok_bind]
      have hpos : n.toNat ≠ 0 := fun h => passCount_ne ix memory n hn (UInt64.toNat_inj.1 (by simpa using h))
      obtain ⟨left, hleft⟩ : ∃ k, n.toNat = k + 1 := ⟨n.toNat - 1, by omega⟩
      have hp := rel_passes (I := fun g => g = inp) (inflate := inflate) hs1 hs2 cuts (hwf ix hload) (inp := inp) (out := out) (n := n.toNat)
        (by rfl) left 0 (fun _ => False) (by omega) (fun h => absurd h (by omega))
      rw [← hleft] at hp
      refine rel_bind hp (fun _ => rel_removeLast out n.toNat (fun h => .inr ⟨h, rfl⟩) (.inl rfl)) fs1 fs2 ?_
      refine ⟨⟨fun g hg => ?_, fun _ h => h.elim⟩, ?_⟩
      · subst hg; exact hd
      · unfold Rewrite.passInput
        rw [if_neg (by omega)]
        intro x hx'
        rw [hin] at hx'
        cases hx'
        exact .inr ⟨hl, cs, hc, hsm⟩

/-! ## What else the output depends on -/

theorem process_panic {α O : Type} {work : Block → Res O} {inp : String} {output : List O → Prog α} {file : List UInt8}
    {bs : List Block} (hs : split file = .ok bs) (hw : mapRes work bs = .panic) (fs : FS) (hin : Holds fs inp file) :
    (process none work inp output).exec fs = .panic := by
  obtain ⟨p, hin⟩ := hin
  unfold process
  rw [Prog.exec_bind, exec_OsOpen_some hin, Res.ok_bind, Prog.exec_bind, exec_MMapMap]
  dsimp only
  rw [hin]
  dsimp only
  by_cases he : file = []
  · rw [if_pos he]; rfl
  · rw [if_neg he, Res.ok_bind, Prog.exec_bind, Prog.exec_lift, hs, Res.ok_bind, Res.ok_bind, Prog.exec_bind, Prog.exec_lift]
    show ((mapRes work bs >>= _) >>= _) = _
    rw [hw]
    rfl

/-- C77: without its condition it is false: a block which inflates to more than it declares is decompressed or makes the
program panic, depending on how much the decompressor delivers at once. -/
theorem C77_longer_differs : ∃ (inflate : Inflate) (s1 s2 : Block → Sched) (file : List UInt8), ∀ (inp out : String) (fs : FS),
    Holds fs inp file → (∃ fs', (decompress inflate s1 none inp out).exec fs = .ok ((), fs')) ∧
      (decompress inflate s2 none inp out).exec fs = .panic := by
  refine ⟨fun _ => some [7, 7], fun _ => ⟨[], fun _ => ⟨0, false⟩⟩, fun _ => ⟨[0, 0], fun _ => ⟨1, true⟩⟩,
    frame osmData [16, 1, 26, 1, 9], fun inp out fs hin => ?_⟩
  have hs : split (frame osmData [16, 1, 26, 1, 9]) = .ok [⟨0, ⟨[16, 1, 26, 1, 9], []⟩, osmData⟩] := by decide +kernel
  constructor
  · have hm : mapRes (decompressWork (fun _ => some [7, 7]) fun _ => ⟨[], fun _ => ⟨0, false⟩⟩)
        [⟨0, ⟨[16, 1, 26, 1, 9], []⟩, osmData⟩] = .ok [frame osmData [10, 1, 7]] := by decide +kernel
    obtain ⟨fs', h, _⟩ := decompressOutput_exec out [frame osmData [10, 1, 7]] fs
    refine ⟨fs', ?_⟩
    unfold decompress Prog.exec at *
    rw [process_run none _ inp _ hs hm fs hin]
    exact h
  · exact process_panic hs (by decide +kernel) fs hin

/-- What wayindex writes. -/
theorem wayindex_bytes {inflate : Inflate} {s : Block → Sched} {shift : Int64} {file : List UInt8} {bs : List Block}
    {xs : List (Option WayIndexer.IndexElement)} {c : Int64} {A B : List UInt8} (hs : split file = .ok bs)
    (hm : mapRes (Programs.blockWork inflate s Programs.wayReader (Programs.wayWork shift)) bs = .ok xs)
    (hb : WayIndexer.batchBytes shift 0 0 xs = .ok (c, A, B)) (chunks : Nat → Nat) (inp out : String) (fs : FS)
    (hin : Holds fs inp file) :
    ∃ fs', (wayindex inflate s none chunks never shift inp out).exec fs = .ok ((), fs') ∧
      Holds fs' out (WayIndexer.header shift c ++ A ++ B) := by
  obtain ⟨a1, -, -⟩ := withHeader_exec out chunks never _ _
    (WayIndexer.loopSpec out (out ++ ".loc.tmp") (tmp_ne out) shift xs 0 0) (WayIndexer.header shift)
    (WayIndexer.header_length shift) fs
  obtain ⟨fs', m, e1, ⟨p, e2⟩, _, _, e3, _⟩ := a1 c A B hb
  rw [List.take_of_length_le (e3 fun _ => rfl)] at e2
  refine ⟨fs', ?_, p, e2⟩
  unfold wayindex
  have := process_run none (Programs.blockWork inflate s Programs.wayReader (Programs.wayWork shift)) inp
    (WayIndexer.Output out shift chunks never) hs hm fs hin
  rw [WayIndexer.output_shape] at this
  unfold Prog.exec at e1 ⊢
  rw [this]
  exact e1

/-- C77: and a block whose last field claims more bytes than there are is read on into what an earlier block left in the
pooled buffer, so the index that wayindex writes depends on that. -/
theorem C77_pool_differs : ∃ (inflate : Inflate) (s1 s2 : Block → Sched) (file : List UInt8),
    ∀ (chunks : Nat → Nat) (inp out : String) (fs : FS), Holds fs inp file → ∃ fs1 fs2 d1 d2,
      (wayindex inflate s1 none chunks never 0 inp out).exec fs = .ok ((), fs1) ∧ Holds fs1 out d1 ∧
      (wayindex inflate s2 none chunks never 0 inp out).exec fs = .ok ((), fs2) ∧ Holds fs2 out d2 ∧ d1 ≠ d2 := by
  have hs : split (frame osmData [16, 9, 26, 1, 9]) = .ok [⟨0, ⟨[16, 9, 26, 1, 9], []⟩, osmData⟩] := by decide +kernel
  have hm : ∀ l : UInt8, l = 2 ∨ l = 4 → mapRes (Programs.blockWork (fun _ => some [18, 7, 26, 5, 8, 5, 66, 2, 2])
      (fun _ => ⟨[0, 0, 0, 0, 0, 0, 0, 0, 0, l], fun _ => ⟨100, false⟩⟩) Programs.wayReader (Programs.wayWork 0))
      [⟨0, ⟨[16, 9, 26, 1, 9], []⟩, osmData⟩] = .ok [some ⟨[42949672960], [2, l, 0, 0]⟩] := by
    intro l hl
    rcases hl with rfl | rfl <;> rfl
  have hb : ∀ l : UInt8, l = 2 ∨ l = 4 → WayIndexer.batchBytes 0 0 0 [some ⟨[42949672960], [2, l, 0, 0]⟩] =
      .ok (1, [0, 0, 0, 0, 10, 0, 0, 0], [2, l, 0, 0]) := by
    intro l hl
    rcases hl with rfl | rfl <;> decide +kernel
  refine ⟨fun _ => some [18, 7, 26, 5, 8, 5, 66, 2, 2], fun _ => ⟨[0, 0, 0, 0, 0, 0, 0, 0, 0, 2], fun _ => ⟨100, false⟩⟩,
    fun _ => ⟨[0, 0, 0, 0, 0, 0, 0, 0, 0, 4], fun _ => ⟨100, false⟩⟩, frame osmData [16, 9, 26, 1, 9],
    fun chunks inp out fs hin => ?_⟩
  obtain ⟨fs1, a1, a2⟩ := wayindex_bytes hs (hm 2 (.inl rfl)) (hb 2 (.inl rfl)) chunks inp out fs hin
  obtain ⟨fs2, b1, b2⟩ := wayindex_bytes hs (hm 4 (.inr rfl)) (hb 4 (.inr rfl)) chunks inp out fs hin
  exact ⟨fs1, fs2, _, _, a1, a2, b1, b2, by decide +kernel⟩

/-! ## Examples -/

/-- A decompressor that knows one stream. -/
def oneStream : Inflate := fun z => if z = [120, 1] then some tinyPayload else none

/-- The file of C69 with the data compressed. -/
def zippedFile : List UInt8 := tinyFile.take 20 ++ frame osmData [16, 66, 26, 2, 120, 1]

theorem zipped_split : split zippedFile = .ok
    [⟨0, ⟨[1, 2, 3], zippedFile.drop 20⟩, osmHeader⟩, ⟨1, ⟨[16, 66, 26, 2, 120, 1], []⟩, osmData⟩] := by decide +kernel

theorem zipped_source : Source oneStream zippedFile [none, some tinyBlock] := by
  refine ⟨_, zipped_split, .cons (.other _ (by decide)) (.cons (.data _ ⟨none, some 66, some ⟨[120, 1], []⟩⟩ tinyPayload _ rfl
    (by decide +kernel) (.zlib _ _ _ rfl (by decide +kernel)) (by decide +kernel)) .nil)⟩

theorem zipped_definite (o : PBReader) (c : PrimitiveBlock) (h : ReadPrimitiveBlock o ⟨tinyPayload, []⟩ = .ok c) :
    AllBlocks (Definite oneStream o) zippedFile := by
  intro bs hs b hb hk z size stream h1 h2
  rw [zipped_split] at hs
  cases hs
  simp only [List.mem_cons, List.not_mem_nil, or_false] at hb
  rcases hb with rfl | rfl
  · exact absurd hk (by decide)
  · have hr : ReadBlob ⟨[16, 66, 26, 2, 120, 1], []⟩ = .ok ⟨none, some 66, some ⟨[120, 1], []⟩⟩ := by decide +kernel
    have hr' := h1.symm.trans hr
    cases hr'
    cases h2
    exact .inr (.inr ⟨by decide +kernel, c, h⟩)

/-- The two conditions of the theorems hold for it, with each reader. -/
example : AllBlocks (Definite oneStream readAll) zippedFile ∧ AllBlocks (Definite oneStream nodesDecoded) zippedFile ∧
    AllBlocks (Definite oneStream waysDecoded) zippedFile ∧ AllBlocks (Definite oneStream relationsDecoded) zippedFile ∧
    AllBlocks (NotLonger oneStream) zippedFile := by
  refine ⟨zipped_definite _ _ rfl, zipped_definite _ _ rfl, zipped_definite _ _ rfl, zipped_definite _ _ rfl, ?_⟩
  intro bs hs b hb z size stream h1 h2
  rw [zipped_split] at hs
  cases hs
  simp only [List.mem_cons, List.not_mem_nil, or_false] at hb
  rcases hb with rfl | rfl
  · have hr : ∀ x, ReadBlob ⟨[1, 2, 3], zippedFile.drop 20⟩ ≠ .ok x := by
      intro x hx
      have hy : ReadBlob ⟨[1, 2, 3], zippedFile.drop 20⟩ = .panic := by decide +kernel
      rw [hy] at hx
      cases hx
    exact absurd h1 (hr _)
  · have hr : ReadBlob ⟨[16, 66, 26, 2, 120, 1], []⟩ = .ok ⟨none, some 66, some ⟨[120, 1], []⟩⟩ := by decide +kernel
    have hr' := h1.symm.trans hr
    cases hr'
    cases h2
    exact .inr (by decide +kernel)

/-- So two runs of nodeindex on it, the second over the remains of whatever was there, both complete and write the same
index. -/
example (s1 s2 : Block → Sched) (c1 c2 : Nat → Nat) (fs1 fs2 : FS) (h1 : Holds fs1 "src" zippedFile)
    (h2 : Holds fs2 "src" zippedFile) :
    ∃ r1 r2 file, (nodeindex oneStream s1 none c1 never "src" "nix").exec fs1 = .ok ((), r1) ∧ Holds r1 "nix" file ∧
      (nodeindex oneStream s2 none c2 never "src" "nix").exec fs2 = .ok ((), r2) ∧ Holds r2 "nix" file := by
  obtain ⟨p1, h1⟩ := h1
  obtain ⟨p2, h2⟩ := h2
  have hs := C77_nodeindex oneStream s1 s2 none c1 c2 "src" "nix" fs1 fs2 (by unfold SameData; rw [h1, h2]; rfl) (by
    intro x hx
    rw [h1] at hx
    cases hx
    exact zipped_definite _ _ rfl)
  obtain ⟨r1, file, ix, a1, a2, _⟩ := nodeindex_ok s1 c1 zipped_source tiny_indexable "src" "nix" fs1 ⟨p1, h1⟩
  have a1 : (nodeindex oneStream s1 none c1 never "src" "nix").exec fs1 = .ok ((), r1) := a1
  rw [a1] at hs
  generalize hy : (nodeindex oneStream s2 none c2 never "src" "nix").exec fs2 = y at hs
  cases hs with
  | ok _ s hr =>
    obtain ⟨q, a2⟩ := a2
    refine ⟨r1, s.2, file, a1, ⟨q, a2⟩, rfl, ?_⟩
    have := hr.2
    unfold SameData at this
    dsimp only at this
    rw [a2] at this
    cases h : s.2 "nix" with
    | none => rw [h] at this; cases this
    | some x =>
      rw [h] at this
      simp only [Option.map_some, Option.some.injEq] at this
      exact ⟨x.pos, by rw [this]; exact h⟩

/-- Two runs of rewritenodes, with two passes. -/
example (inflate : Inflate) (s1 s2 : Nat → Block → Sched) (hs1 : ∀ i b, (s1 i b).pooled.length < 2 ^ 63)
    (hs2 : ∀ i b, (s2 i b).pooled.length < 2 ^ 63) :
    ∃ file ixFile, ∀ (inp index out : String) (fs1 fs2 : FS), Holds fs1 inp file → Holds fs1 index ixFile →
      SameData inp fs1 fs2 → SameData index fs1 fs2 →
      SameRun out ((rewritenodes inflate s1 (fun _ => none) (some 1) inp index out).exec fs1)
        ((rewritenodes inflate s2 (fun _ => none) (some 1) inp index out).exec fs2) := by
  obtain ⟨file, hl, hc⟩ := refsFile inflate
  obtain ⟨wf, hcomp, hneg⟩ := lopsided_wf
  obtain ⟨ixFile, hload⟩ : ∃ f, NodeIndex.NewNodeIndex f = .ok lopsided :=
    ⟨_, NodeIndexer.load_file lopsided.elements lopsided.locations (by decide)⟩
  have hsm : SmallFile [.other osmHeader [1, 2, 3], .data (refsBlock [1, 200000, -4])] := by
    refine ⟨fun b hb => ?_, by simp⟩
    simp only [List.mem_cons, reduceCtorEq, Content.data.injEq, List.not_mem_nil, or_false, false_or] at hb
    subst hb
    exact ⟨by decide +kernel, by decide +kernel⟩
  refine ⟨file, ixFile, fun inp index out fs1 fs2 hin hix hd hx => ?_⟩
  refine C77_rewritenodes inflate s1 s2 hs1 hs2 _ _ inp index out fs1 fs2 hd hx hin hl hc hsm hix fun ix h => ?_
  rw [hload] at h
  cases h
  exact wf

end Osm.Props
