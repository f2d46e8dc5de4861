import Verif.Lemmas.Commute
import Verif.Props.Programs
import Verif.Props.FormatCount

/-!
# C107: the order of tagfilter and rewritenodes does not matter

Two ways from a source file to a filtered file with rewritten ways: first rewritenodes and then tagfilter (run A), or first
tagfilter and then rewritenodes (run B), with any names and whatever zlib and the goroutines do in each of the four runs.
-/

namespace Osm.Props
open Osm Osm.Spec Osm.Spec.OsmFormat Osm.T Osm.Pbf Osm.NodeIndex

theorem commute_core (inflate : Inflate) (schedsA schedsB : Nat → Block → Sched) (schedA schedB : Block → Sched)
    (hA : ∀ i b, (schedsA i b).pooled.length < 2 ^ 63) (hB : ∀ i b, (schedsB i b).pooled.length < 2 ^ 63)
    (hA' : ∀ b, (schedA b).pooled.length < 2 ^ 63) (hB' : ∀ b, (schedB b).pooled.length < 2 ^ 63)
    {file : List UInt8} {cs : List Content} (hl : file.length < 2 ^ 63) (hne : file ≠ []) (hfew : cs.length ≤ 2 ^ 31)
    (hc : IsOsmContents inflate file cs)
    {ix : NodeIdx} (wf : WellFormed ix.elements ix.locations) (hneg : NegativeLocs ix.locations)
    (memoryA memoryB : Option UInt64) (nA nB : UInt64) (hnA : passCount ix memoryA = .ok nA) (hnB : passCount ix memoryB = .ok nB)
    (hA0 : nA ≠ 0) (hB0 : nB ≠ 0) {subsA subsB : List SubIdx}
    (hsA : mapRes (fun p => ix.SubIndex (UInt64.ofNat p) nA) (List.range nA.toNat) = .ok subsA)
    (hsB : mapRes (fun p => ix.SubIndex (UInt64.ofNat p) nB) (List.range nB.toNat) = .ok subsB)
    (hsame : subsA.flatMap (·.element) = subsB.flatMap (·.element))
    {src index a1 a2 b1 b2 : String} (hib : index ≠ b1) {ixFile : List UInt8} (hload : NewNodeIndex ixFile = .ok ix)
    {fs fsA1 fsA2 fsB1 fsB2 : FS} (hin : Holds fs src file) (hix : Holds fs index ixFile) {fillersA fillersB : Nat}
    (A1 : (Rewrite.rewritenodes inflate schedsA memoryA src index a1).exec fs = .ok ((), fsA1))
    (A2 : (TagFilter.tagfilter inflate schedA a1 a2).exec fsA1 = .ok (fillersA, fsA2))
    (B1 : (TagFilter.tagfilter inflate schedB src b1).exec fs = .ok (fillersB, fsB1))
    (B2 : (Rewrite.rewritenodes inflate schedsB memoryB b1 index b2).exec fsB1 = .ok ((), fsB2)) :
    fillersA = fillersB ∧ ∃ fileA fileB cs', Holds fsA2 a2 fileA ∧ Holds fsB2 b2 fileB ∧
      IsOsmContents inflate fileA cs' ∧ IsOsmContents inflate fileB cs' := by
  have hg : Format.Good inflate file cs := ⟨hl, hne, hfew, hc⟩
  obtain ⟨f1, x1, x2⟩ := Format.rewritenodes_done inflate schedsA hA wf hneg memoryA nA hnA hA0 hsA src index a1 hg fs fsA1 hin hix
    hload A1
  obtain ⟨ysA, fA, y1, y2, y3, y4, _⟩ := Format.tagfilter_done inflate schedA hA' x2 a1 a2 fsA1 fsA2 fillersA x1 A2
  obtain ⟨ysB, f2, z1, z2, z3, z4, z5, z6, z7⟩ := Format.tagfilter_done inflate schedB hB' hg src b1 fs fsB1 fillersB hin B1
  have hix1 : Holds fsB1 index ixFile := by
    obtain ⟨p, hix⟩ := hix
    exact ⟨p, by rw [z7 _ hib]; exact hix⟩
  have hne2 : f2 ≠ [] := by
    rintro rfl
    exact Format.rewritenodes_empty inflate schedsB memoryB nB hnB hB0 b1 index b2 fsB1 fsB2 z3 hix1 hload B2
  obtain ⟨fB, w1, w2⟩ := Format.rewritenodes_done inflate schedsB hB wf hneg memoryB nB hnB hB0 hsB b1 index b2
    ⟨z5, hne2, z6, z4⟩ fsB1 fsB2 z3 hix1 hload B2
  have := Format.filts_mapRefs (locate (subsA.flatMap (·.element)) ix.locations) cs z1
  rw [this] at y1
  cases y1
  rw [Format.left_mapRefs] at y2 y4
  rw [List.length_map, List.length_map] at y2
  refine ⟨y2.trans z2.symm, fA, fB, _, y3, w1, y4, ?_⟩
  rw [hsame]
  exact w2.is

/-- C107: rewriting and then filtering gives the same content as filtering and then rewriting, block by block, and the same
number of blocks is dropped; for a given memory target, even if the passes do not cover the index. -/
theorem C107_same_memory (inflate : Inflate) (schedsA schedsB : Nat → Block → Sched) (schedA schedB : Block → Sched)
    (hA : ∀ i b, (schedsA i b).pooled.length < 2 ^ 63) (hB : ∀ i b, (schedsB i b).pooled.length < 2 ^ 63)
    (hA' : ∀ b, (schedA b).pooled.length < 2 ^ 63) (hB' : ∀ b, (schedB b).pooled.length < 2 ^ 63)
    {file : List UInt8} {cs : List Content} (hl : file.length < 2 ^ 63) (hne : file ≠ []) (hfew : cs.length ≤ 2 ^ 31)
    (hc : IsOsmContents inflate file cs)
    {ix : NodeIdx} (wf : WellFormed ix.elements ix.locations) (hneg : NegativeLocs ix.locations)
    (memory : Option UInt64) (n : UInt64) (hn : passCount ix memory = .ok n) (hn0 : n ≠ 0) {subs : List SubIdx}
    (hsubs : mapRes (fun p => ix.SubIndex (UInt64.ofNat p) n) (List.range n.toNat) = .ok subs)
    {src index a1 a2 b1 b2 : String} (hib : index ≠ b1) {ixFile : List UInt8} (hload : NewNodeIndex ixFile = .ok ix)
    {fs fsA1 fsA2 fsB1 fsB2 : FS} (hin : Holds fs src file) (hix : Holds fs index ixFile) {fillersA fillersB : Nat}
    (A1 : (Rewrite.rewritenodes inflate schedsA memory src index a1).exec fs = .ok ((), fsA1))
    (A2 : (TagFilter.tagfilter inflate schedA a1 a2).exec fsA1 = .ok (fillersA, fsA2))
    (B1 : (TagFilter.tagfilter inflate schedB src b1).exec fs = .ok (fillersB, fsB1))
    (B2 : (Rewrite.rewritenodes inflate schedsB memory b1 index b2).exec fsB1 = .ok ((), fsB2)) :
    fillersA = fillersB ∧ ∃ fileA fileB cs', Holds fsA2 a2 fileA ∧ Holds fsB2 b2 fileB ∧
      IsOsmContents inflate fileA cs' ∧ IsOsmContents inflate fileB cs' :=
  commute_core inflate schedsA schedsB schedA schedB hA hB hA' hB' hl hne hfew hc wf hneg memory memory n n hn hn hn0 hn0 hsubs
    hsubs rfl hib hload hin hix A1 A2 B1 B2

/-- C107: and for two memory targets whose passes cover the index (C31). -/
theorem C107_any_memory (inflate : Inflate) (schedsA schedsB : Nat → Block → Sched) (schedA schedB : Block → Sched)
    (hA : ∀ i b, (schedsA i b).pooled.length < 2 ^ 63) (hB : ∀ i b, (schedsB i b).pooled.length < 2 ^ 63)
    (hA' : ∀ b, (schedA b).pooled.length < 2 ^ 63) (hB' : ∀ b, (schedB b).pooled.length < 2 ^ 63)
    {file : List UInt8} {cs : List Content} (hl : file.length < 2 ^ 63) (hne : file ≠ []) (hfew : cs.length ≤ 2 ^ 31)
    (hc : IsOsmContents inflate file cs)
    {ix : NodeIdx} (wf : WellFormed ix.elements ix.locations) (hneg : NegativeLocs ix.locations)
    (memoryA memoryB : Option UInt64) (nA nB : UInt64) (hnA : passCount ix memoryA = .ok nA) (hnB : passCount ix memoryB = .ok nB)
    (hA0 : nA ≠ 0) (hB0 : nB ≠ 0) (hcA : PassesCover ix nA.toNat) (hcB : PassesCover ix nB.toNat)
    {src index a1 a2 b1 b2 : String} (hib : index ≠ b1) {ixFile : List UInt8} (hload : NewNodeIndex ixFile = .ok ix)
    {fs fsA1 fsA2 fsB1 fsB2 : FS} (hin : Holds fs src file) (hix : Holds fs index ixFile) {fillersA fillersB : Nat}
    (A1 : (Rewrite.rewritenodes inflate schedsA memoryA src index a1).exec fs = .ok ((), fsA1))
    (A2 : (TagFilter.tagfilter inflate schedA a1 a2).exec fsA1 = .ok (fillersA, fsA2))
    (B1 : (TagFilter.tagfilter inflate schedB src b1).exec fs = .ok (fillersB, fsB1))
    (B2 : (Rewrite.rewritenodes inflate schedsB memoryB b1 index b2).exec fsB1 = .ok ((), fsB2)) :
    fillersA = fillersB ∧ ∃ fileA fileB cs', Holds fsA2 a2 fileA ∧ Holds fsB2 b2 fileB ∧
      IsOsmContents inflate fileA cs' ∧ IsOsmContents inflate fileB cs' := by
  obtain ⟨subsA, s1, s2⟩ := hcA
  obtain ⟨subsB, t1, t2⟩ := hcB
  rw [UInt64.ofNat_toNat] at s1 t1
  exact commute_core inflate schedsA schedsB schedA schedB hA hB hA' hB' hl hne hfew hc wf hneg memoryA memoryB nA nB hnA hnB hA0
    hB0 s1 t1 (s2.trans t2.symm) hib hload hin hix A1 A2 B1 B2

/-- C107: in one case the order does matter: if tagfilter leaves no block at all, its file is empty, and rewritenodes then does not
end normally (an empty file cannot be mapped), while rewriting first and filtering afterwards ends normally. -/
theorem C107_nothing_left (inflate : Inflate) (scheds : Nat → Block → Sched) {ix : NodeIdx} (memory : Option UInt64) (n : UInt64)
    (hn : passCount ix memory = .ok n) (hn0 : n ≠ 0) {ixFile : List UInt8} (hload : NewNodeIndex ixFile = .ok ix)
    (inp index out : String) (fs fs' : FS) (hin : Holds fs inp []) (hix : Holds fs index ixFile) :
    (Rewrite.rewritenodes inflate scheds memory inp index out).exec fs ≠ .ok ((), fs') :=
  fun h => Format.rewritenodes_empty inflate scheds memory n hn hn0 inp index out fs fs' hin hix hload h

/-! ### The hypotheses are met -/

/-- An index that knows node 2. -/
def tinyIx : NodeIdx := ⟨[⟨2, 1⟩], [-5]⟩

theorem tinyIx_wf : WellFormed tinyIx.elements tinyIx.locations ∧ NegativeLocs tinyIx.locations ∧ PassesCover tinyIx 1 := by
  have wf : WellFormed tinyIx.elements tinyIx.locations := ⟨by decide, by decide, by decide, by decide⟩
  refine ⟨wf, ?_, C31_single_pass tinyIx wf ?_ (by decide) (by decide)⟩
  · intro l hl _
    simp only [tinyIx, List.mem_singleton] at hl
    subst hl
    decide
  · unfold Complete
    decide

/-- Neither zlib nor chance plays a part in the example. -/
def noSched : Block → Sched := fun _ => ⟨[], fun _ => ⟨0, false⟩⟩

/-- What one pass over a file writes. -/
theorem one_rewrite {ix : NodeIdx} {si : SubIdx} (hn : passCount ix none = .ok 1) (hsi : ix.SubIndex 0 1 = .ok si) {file : List UInt8}
    (hl : file.length < 2 ^ 63) {bs : List Block} (hs : split file = .ok bs) {xs : List Rewrite.Out}
    (hx : mapRes (Rewrite.rewriteWork (fun _ => none) noSched si) bs = .ok xs)
    {inp index out : String} {ixFile : List UInt8} {fs : FS} (hin : Holds fs inp file) (hix : Holds fs index ixFile)
    (hload : NewNodeIndex ixFile = .ok ix) (hlx : (fileOf xs).length < 2 ^ 63) :
    ∃ fs', (Rewrite.rewritenodes (fun _ => none) (fun _ => noSched) none inp index out).exec fs = .ok ((), fs') ∧
      Holds fs' out (fileOf xs) := by
  have hsubs : mapRes (fun p => ix.SubIndex (UInt64.ofNat p) 1) (List.range (1 : UInt64).toNat) = .ok [si] := by
    show mapRes (fun p => ix.SubIndex (UInt64.ofNat p) 1) [0] = .ok [si]
    unfold mapRes
    have : ix.SubIndex (UInt64.ofNat 0) 1 = .ok si := hsi
    rw [this]
    rfl
  obtain ⟨fs', file', h1, h2, h3, h4⟩ := Rewrite.rewritenodes_keep (fun _ => none) (fun _ => noSched) none 1 hn (by decide) hsubs
    (fun p f => if p = 0 then f = file else f = fileOf xs) (by
      intro p si' hp _ f inp' out' fs2 hf hJ hin2
      have hp0 : p = 0 := by
        have := (List.getElem?_eq_some_iff.1 hp).1
        simp at this
        exact this
      subst hp0
      cases hp
      rw [if_pos rfl] at hJ
      subst hJ
      obtain ⟨fs3, o1, o2, o3⟩ := Rewrite.output_exec out' xs fs2
      exact ⟨fs3, fileOf xs, (Rewrite.pass_exec hl hs hx inp' out' fs2 hin2).trans o1, o2, hlx, by simp, o3⟩)
    inp index out hl (by simp) fs hin hix hload
  have h4' : file' = fileOf xs := by simpa using h4
  exact ⟨fs', h1, h4' ▸ h2⟩

/-- What tagfilter writes. -/
theorem one_filter {file : List UInt8} {bs : List Block} (hs : split file = .ok bs) {xs : List Rewrite.Out}
    (hx : mapRes (TagFilter.filterWork (fun _ => none) noSched) bs = .ok xs) {inp out : String} {fs : FS} (hin : Holds fs inp file) :
    ∃ n fs', (TagFilter.tagfilter (fun _ => none) noSched inp out).exec fs = .ok (n, fs') ∧
      Holds fs' out (fileOf (TagFilter.written xs)) ∧ ∀ g, g ≠ out → fs' g = fs g := by
  obtain ⟨fs3, o1, o2, o3⟩ := TagFilter.output_exec out xs fs
  refine ⟨xs.length - (TagFilter.written xs).length, fs3, ?_, o2, o3⟩
  have := Interrupt.process_run (none : Option Nat) (TagFilter.filterWork (fun _ => none) noSched) inp (TagFilter.output out) hs
    (by exact hx) fs hin
  show (Interrupt.process none (TagFilter.filterWork (fun _ => none) noSched) inp (TagFilter.output out)).exec fs = _
  unfold Prog.exec at o1 ⊢
  rw [this]
  exact o1

/-- `tinyFile` rewritten. -/
def tinyRewritten : List Rewrite.Out := [(osmHeader, [1, 2, 3]), (osmData,
  [10, 219, 128, 128, 0, 10, 2, 10, 0, 18, 148, 128, 128, 0, 18, 18, 10, 3, 4, 2, 4, 66, 3, 40, 20, 40, 74, 6, 144,
   3, 200, 1, 144, 3, 18, 162, 128, 128, 0, 26, 142, 0, 8, 10, 18, 128, 0, 26, 128, 0, 66, 131, 0, 9, 16, 2, 26, 142,
   0, 8, 11, 18, 128, 0, 26, 128, 0, 66, 131, 0, 10, 0, 8, 18, 146, 128, 128, 0, 34, 16, 8, 7, 74, 6, 20, 15, 194, 1,
   175, 1, 82, 4, 1, 0, 1, 1])]

/-- And filtered. -/
def tinyAB : List Rewrite.Out := [(osmHeader, [1, 2, 3]), (osmData,
  [10, 213, 128, 128, 0, 10, 130, 128, 128, 0, 10, 0, 18, 162, 128, 128, 0, 26, 142, 0, 8, 10, 18,
    128, 0, 26, 128, 0, 66, 131, 0, 9, 16, 2, 26, 142, 0, 8, 11, 18, 128, 0, 26, 128, 0, 66, 131, 0, 10, 0, 8, 18, 162,
    128, 128, 0, 34, 158, 128, 0, 8, 7, 18, 128, 0, 26, 128, 0, 66, 128, 128, 0, 74, 134, 128, 0, 20, 15, 194, 1, 175,
    1, 82, 132, 128, 0, 1, 0, 1, 1])]

/-- `tinyFile` filtered. -/
def tinyFiltered : List Rewrite.Out := [(osmHeader, [1, 2, 3]), (osmData,
  [10, 213, 128, 128, 0, 10, 130, 128, 128, 0, 10, 0, 18, 162, 128, 128, 0, 26, 142, 0, 8, 10, 18, 128, 0, 26, 128,
   0, 66, 131, 0, 4, 2, 2, 26, 142, 0, 8, 11, 18, 128, 0, 26, 128, 0, 66, 131, 0, 10, 0, 8, 18, 162, 128, 128, 0, 34,
   158, 128, 0, 8, 7, 18, 128, 0, 26, 128, 0, 66, 128, 128, 0, 74, 134, 128, 0, 20, 15, 194, 1, 175, 1, 82, 132, 128,
   0, 1, 0, 1, 1])]

/-- And rewritten. -/
def tinyBA : List Rewrite.Out := [(osmHeader, [1, 2, 3]), (osmData,
  [10, 208, 128, 128, 0, 10, 2, 10, 0, 18, 162, 128, 128, 0, 26, 142, 0, 8, 10, 18, 128, 0, 26, 128,
   0, 66, 131, 0, 9, 16, 2, 26, 142, 0, 8, 11, 18, 128, 0, 26, 128, 0, 66, 131, 0, 10, 0, 8, 18, 160, 128, 128, 0, 34,
   30, 8, 7, 18, 128, 0, 26, 128, 0, 66, 128, 128, 0, 74, 134, 128, 0, 20, 15, 194, 1, 175, 1, 82, 132, 128, 0, 1, 0,
   1, 1])]

/-- The two blocks of a file made of a header and one other block. -/
def blocksOf (xs : List Rewrite.Out) : List Block :=
  [⟨0, ⟨[1, 2, 3], (fileOf xs).drop 20⟩, osmHeader⟩, ⟨1, ⟨(xs.getLast?.getD ([], [])).2, []⟩, osmData⟩]

/-- The bytes differ: the file of `Props/Programs.lean` (of whose nodes tagfilter keeps none) in both orders, with an index that
knows node 2. All four runs end normally, and the hypotheses of C107 are met. -/
theorem C107_false_of_bytes (fs : FS) (hin : Holds fs "src" tinyFile) (ixFile : List UInt8) (hload : NewNodeIndex ixFile = .ok tinyIx)
    (hix : Holds fs "nix" ixFile) :
    ∃ fsA1 fsA2 fsB1 fsB2 fillersA fillersB,
      (Rewrite.rewritenodes (fun _ => none) (fun _ => noSched) none "src" "nix" "a1").exec fs = .ok ((), fsA1) ∧
      (TagFilter.tagfilter (fun _ => none) noSched "a1" "a2").exec fsA1 = .ok (fillersA, fsA2) ∧
      (TagFilter.tagfilter (fun _ => none) noSched "src" "b1").exec fs = .ok (fillersB, fsB1) ∧
      (Rewrite.rewritenodes (fun _ => none) (fun _ => noSched) none "b1" "nix" "b2").exec fsB1 = .ok ((), fsB2) ∧
      Holds fsA2 "a2" (fileOf tinyAB) ∧ Holds fsB2 "b2" (fileOf tinyBA) ∧ fileOf tinyAB ≠ fileOf tinyBA ∧
      ∃ cs, IsOsmContents (fun _ => none) (fileOf tinyAB) cs ∧ IsOsmContents (fun _ => none) (fileOf tinyBA) cs := by
  obtain ⟨wf, hneg, hcov⟩ := tinyIx_wf
  have hn : passCount tinyIx none = .ok 1 := by rfl
  have hsi : tinyIx.SubIndex 0 1 = .ok ⟨[⟨2, 1⟩], [-5], 2⟩ := by decide +kernel
  obtain ⟨fsA1, A1, hA1⟩ := one_rewrite hn hsi (by decide +kernel) tiny_split (xs := tinyRewritten) (by decide +kernel) hin hix
    hload (out := "a1") (by decide +kernel)
  have sA : split (fileOf tinyRewritten) = .ok (blocksOf tinyRewritten) := by decide +kernel
  have mA : mapRes (TagFilter.filterWork (fun _ => none) noSched) (blocksOf tinyRewritten) = .ok tinyAB := by decide +kernel
  obtain ⟨n1, fsA2, A2, hA2, _⟩ := one_filter sA mA hA1 (out := "a2")
  have mB : mapRes (TagFilter.filterWork (fun _ => none) noSched)
      [⟨0, ⟨[1, 2, 3], tinyFile.drop 20⟩, osmHeader⟩, ⟨1, ⟨[10, 66] ++ tinyPayload, []⟩, osmData⟩] = .ok tinyFiltered := by
    decide +kernel
  obtain ⟨n2, fsB1, B1, hB1, hB⟩ := one_filter tiny_split mB hin (out := "b1")
  have hw1 : TagFilter.written tinyFiltered = tinyFiltered := by decide +kernel
  have hw2 : TagFilter.written tinyAB = tinyAB := by decide +kernel
  rw [hw1] at hB1
  rw [hw2] at hA2
  have sB : split (fileOf tinyFiltered) = .ok (blocksOf tinyFiltered) := by decide +kernel
  have hix1 : Holds fsB1 "nix" ixFile := by
    obtain ⟨p, hix⟩ := hix
    exact ⟨p, by rw [hB _ (by decide)]; exact hix⟩
  obtain ⟨fsB2, B2, hB2⟩ := one_rewrite hn hsi (by decide +kernel) sB (xs := tinyBA) (by decide +kernel) hB1 hix1
    hload (out := "b2") (by decide +kernel)
  obtain ⟨bs, hc⟩ := tiny_contents (fun _ => none)
  obtain ⟨_, fA, fB, cs, hA, hB, cA, cB⟩ := C107_any_memory (fun _ => none) (fun _ => noSched) (fun _ => noSched) noSched noSched
    (by simp [noSched]) (by simp [noSched]) (by simp [noSched]) (by simp [noSched]) (by decide +kernel) (by decide) (by simp) hc
    wf hneg none none 1 1 hn hn (by decide) (by decide) hcov hcov (by decide) hload hin hix A1 A2 B1 B2
  have eA : fA = fileOf tinyAB := Format.holds_unique hA hA2
  have eB : fB = fileOf tinyBA := Format.holds_unique hB hB2
  subst eA eB
  exact ⟨fsA1, fsA2, fsB1, fsB2, n1, n2, A1, A2, B1, B2, hA2, hB2, by decide +kernel, cs, cA, cB⟩

example : ∃ ixFile, NewNodeIndex ixFile = .ok tinyIx := ⟨_, NodeIndexer.load_file tinyIx.elements tinyIx.locations (by decide)⟩

end Osm.Props
