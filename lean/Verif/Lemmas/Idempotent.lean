import Verif.Props.Rewrite
import Verif.Props.Raw
import Verif.Props.TagFilter

/-! # Running a program on its own output -/

namespace Osm.T
open Osm Osm.Spec Osm.Pb

/-! ## Writing does not look behind the slices -/

theorem groupBytes_trim (g : T.PrimitiveGroup) : groupBytes (trimGroup g) = groupBytes g := by
  have h2 : ∀ (l : List Slice), ((l.map trimSlice).flatMap fun w => bufField 3 w.bytes) = l.flatMap fun w => bufField 3 w.bytes := by
    intro l; rw [List.flatMap_map]; rfl
  have h3 : ∀ (l : List Slice), ((l.map trimSlice).flatMap fun w => bufField 4 w.bytes) = l.flatMap fun w => bufField 4 w.bytes := by
    intro l; rw [List.flatMap_map]; rfl
  obtain ⟨rd, d, rw_, ws, rr, rs⟩ := g
  unfold groupBytes trimGroup
  dsimp only
  rw [h2, h3]
  cases rd <;> cases d <;> rfl

theorem blockBytes_trim (b : PrimitiveBlock) : blockBytes (trimBlock b) = blockBytes b := by
  have h : ∀ l : List T.PrimitiveGroup,
      optConcat (fun g => optField fix4 268435456 2 (groupBytes g)) (l.map trimGroup)
      = optConcat (fun g => optField fix4 268435456 2 (groupBytes g)) l := by
    intro l
    induction l with
    | nil => rfl
    | cons g l ih =>
      rw [List.map_cons]
      unfold optConcat
      rw [ih, groupBytes_trim]
  obtain ⟨raw, st, gs, a, bb, c, d⟩ := b
  unfold blockBytes trimBlock
  dsimp only
  rw [h]
  cases raw <;> cases st <;> rfl

theorem write_trim (b : PrimitiveBlock) : (trimBlock b).Write = b.Write := by
  funext buf
  rw [block_embSpec (trimBlock b) buf, block_embSpec b buf, blockBytes_trim]

end Osm.T

namespace Osm.Pbf
open Osm Osm.Spec Osm.T

/-- The blocks of a file of frames, processed again. -/
theorem again {O : Type} {xs : List (GoStr × List UInt8)} (hne : xs ≠ []) (hw : ∀ x ∈ xs, Writable x)
    (hl : (fileOf xs).length < 2 ^ 63) {work : Block → Res O} {g : GoStr × List UInt8 → O}
    (h : ∀ x ∈ xs, ∀ (i : Nat) (spare : List UInt8), (Slice.mk x.2 spare).Fits →
      work ⟨i, ⟨x.2, spare⟩, x.1⟩ = .ok (g x)) :
    ∃ bs, split (fileOf xs) = .ok bs ∧ mapRes work bs = .ok (xs.map g) := by
  obtain ⟨bs, h1, h2, _⟩ := Props.C53_round_trip xs hne hw hl
  have hfits := blockFile_fits ((split_iff _ hl bs).1 h1).2 hl
  refine ⟨bs, h1, ?_⟩
  subst h2
  rw [List.map_map]
  refine T.mapRes_ok bs fun b hb => ?_
  exact h (Seen b) (List.mem_map_of_mem hb) b.Index b.Data.spare (hfits b hb)

end Osm.Pbf

namespace Osm.Rewrite
open Osm Osm.Pb Osm.T Osm.Pbf Osm.NodeIndex Osm.Spec

/-! ## rewritenodes -/

/-- The bytes are those that a pass writes for this content (a block without ways is passed on as it is). -/
def Settled (x : Out) : Content → Prop
  | .other _ _ => True
  | .data b => totalWays b = 0 ∨ Blob.zero.Write (some b.Write) [] = .ok x.2

/-- A file as a pass writes it. -/
def FileSettled (inflate : Inflate) (file : List UInt8) (cs : List Content) : Prop :=
  ∃ xs : List Out, file = fileOf xs ∧ xs ≠ [] ∧ (∀ x ∈ xs, Writable x) ∧ file.length < 2 ^ 63 ∧
    Matches (fun x c => HasContent inflate reader x.1 x.2 c ∧ Settled x c) xs cs

theorem totalWays_mapRefs (f : Int64 → Int64) (pb : PrimitiveBlock) : totalWays (mapRefs f pb) = totalWays pb := by
  unfold totalWays mapRefs
  rw [List.map_map]
  congr 2
  funext g
  simp

theorem work_settled (inflate : Inflate) (sched : Block → Sched) (hsched : ∀ b, (sched b).pooled.length < 2 ^ 63)
    {si : SubIdx} (hw : WellFormedSub si) {b : Block} (hf : b.Data.Fits) {c : Content}
    (hc : HasContent inflate reader b.Kind b.Data.bytes c) {x : Out}
    (hx : rewriteWork inflate sched si b = .ok x) : Settled x (c.mapRefs (locate si.element si.locations)) := by
  unfold rewriteWork at hx
  cases c with
  | other k bs => trivial
  | data c =>
    obtain ⟨h1, h2⟩ := hc
    rw [if_neg (by simp [h1])] at hx
    obtain ⟨i, data, kind⟩ := b
    subst h1
    obtain ⟨raw, pb, r1, r2, r3⟩ := h2 i data.spare (sched ⟨i, data, osmData⟩) hf (hsched _)
    rw [r1, Res.ok_bind, r2, Res.ok_bind] at hx
    unfold rewriteDecoded at hx
    by_cases ht : totalWays pb = 0
    · left
      rw [totalWays_mapRefs, ← r3, totalWays_trim]
      exact ht
    · rw [if_neg ht] at hx
      obtain ⟨blob, h4, hx⟩ := Res.bind_eq_ok.1 hx
      cases hx
      rw [rewriteBlock_eq hw] at h4
      right
      rw [← r3, ← trim_mapRefs, write_trim]
      exact h4

/-- A settled block whose refs a sub-index would not change comes out as it is. -/
theorem work_again (inflate : Inflate) (sched : Block → Sched) (hsched : ∀ b, (sched b).pooled.length < 2 ^ 63)
    {si : SubIdx} (hw : WellFormedSub si) {x : Out} {c : Content} (hc : HasContent inflate reader x.1 x.2 c)
    (hs : Settled x c) (hfix : c.mapRefs (locate si.element si.locations) = c) (i : Nat) (spare : List UInt8)
    (hf : (Slice.mk x.2 spare).Fits) :
    rewriteWork inflate sched si ⟨i, ⟨x.2, spare⟩, x.1⟩ = .ok x := by
  unfold rewriteWork
  cases c with
  | other k bs =>
    obtain ⟨h1, h2, h3⟩ := hc
    rw [if_pos h3]
  | data c =>
    obtain ⟨h1, h2⟩ := hc
    rw [if_neg (by simp [h1])]
    obtain ⟨k, bytes⟩ := x
    dsimp only at h1 h2 hf
    subst h1
    obtain ⟨raw, pb, r1, r2, r3⟩ := h2 i spare (sched ⟨i, ⟨bytes, spare⟩, osmData⟩) hf (hsched _)
    dsimp only
    rw [r1, Res.ok_bind, r2, Res.ok_bind]
    unfold rewriteDecoded
    by_cases ht : totalWays pb = 0
    · rw [if_pos ht]
    · rw [if_neg ht, rewriteBlock_eq hw]
      have hfix' : mapRefs (locate si.element si.locations) c = c := by
        simpa [Content.mapRefs] using hfix
      rcases hs with hs | hs
      · rw [← r3, totalWays_trim] at hs
        exact absurd hs ht
      · rw [← hfix', ← r3, ← trim_mapRefs, write_trim] at hs
        rw [hs]
        rfl

theorem matches_and {α β : Type} {R S : α → β → Prop} {as : List α} {bs : List β} (h1 : Matches R as bs)
    (h2 : Matches S as bs) : Matches (fun a b => R a b ∧ S a b) as bs := by
  induction h1 with
  | nil => exact .nil
  | cons h _ ih =>
    cases h2 with
    | cons h' t' => exact .cons ⟨h, h'⟩ (ih t')

theorem works_settled (inflate : Inflate) (sched : Block → Sched) (hsched : ∀ b, (sched b).pooled.length < 2 ^ 63)
    {si : SubIdx} (hw : WellFormedSub si) : ∀ (bs : List Block) (cs : List Content) (xs : List Out),
    (∀ b ∈ bs, b.Data.Fits) → Matches (fun b c => HasContent inflate reader b.Kind b.Data.bytes c) bs cs →
    mapRes (rewriteWork inflate sched si) bs = .ok xs →
    Matches Settled xs (cs.map (·.mapRefs (locate si.element si.locations)))
  | [], cs, xs, _, hc, hx => by
    cases hc
    cases hx
    exact .nil
  | b :: bs, cs, xs, hb, hc, hx => by
    cases hc with
    | cons h1 h2 =>
      unfold mapRes at hx
      obtain ⟨x, e1, hx⟩ := Res.bind_eq_ok.1 hx
      obtain ⟨ys, e2, hx⟩ := Res.bind_eq_ok.1 hx
      cases hx
      exact .cons (work_settled inflate sched hsched hw (hb b (by simp)) h1 e1)
        (works_settled inflate sched hsched hw bs _ ys (fun b hb' => hb b (by simp [hb'])) h2 e2)

/-- Running a pass, given what its workers make. -/
theorem pass_exec {inflate : Inflate} {sched : Block → Sched} {si : SubIdx} {file : List UInt8} (hl : file.length < 2 ^ 63)
    {bs : List Block} (h1 : split file = .ok bs) {xs : List Out} (e3 : mapRes (rewriteWork inflate sched si) bs = .ok xs)
    (inp out : String) (fs : FS) (hin : Holds fs inp file) :
    (pass inflate sched si inp out).exec fs = (output out xs).exec fs := by
  obtain ⟨pos, hin⟩ := hin
  unfold pass
  rw [Prog.exec_bind, exec_OsOpen_some hin, Res.ok_bind, Prog.exec_bind, exec_MMapMap]
  dsimp only
  rw [hin]
  dsimp only
  have hne : file ≠ [] := ((split_iff file hl bs).1 h1).1
  rw [if_neg hne, Res.ok_bind, Prog.exec_bind, Prog.exec_lift, h1, Res.ok_bind, Res.ok_bind, Prog.exec_bind, Prog.exec_lift,
    e3, Res.ok_bind, Res.ok_bind]

theorem pass_settles (inflate : Inflate) (sched : Block → Sched) (hsched : ∀ b, (sched b).pooled.length < 2 ^ 63)
    {si : SubIdx} (hw : WellFormedSub si) {file : List UInt8} (hl : file.length < 2 ^ 63) {cs : List Content}
    (hc : FileHas inflate reader file cs) (hsm : SmallFile cs) (inp out : String) (fs : FS) (hin : Holds fs inp file) :
    ∃ fs' file', (pass inflate sched si inp out).exec fs = .ok ((), fs') ∧ Holds fs' out file' ∧ file'.length < 2 ^ 63 ∧
      FileSettled inflate file' (cs.map (·.mapRefs (locate si.element si.locations))) ∧
      ∀ g, g ≠ out → fs' g = fs g := by
  obtain ⟨bs, h1, h2⟩ := hc
  obtain ⟨hbne, hb⟩ := split_blocks hl h1
  obtain ⟨xs, e3⟩ := mapRes_all (f := rewriteWork inflate sched si) (as := bs) (by
    intro b hb'
    obtain ⟨c, hc', hcc⟩ := matches_mem h2 b hb'
    exact work_small inflate sched hsched hw (hb b hb').1 hcc (by rintro d rfl; exact hsm.1 d hc'))
  obtain ⟨m1, m2⟩ := works_content inflate sched hsched hw bs cs xs hb h2 e3
  have m3 := works_settled inflate sched hsched hw bs cs xs (fun b hb' => (hb b hb').1) h2 e3
  obtain ⟨fs3, o1, o2, o3⟩ := output_exec out xs fs
  have hlen : (fileOf xs).length < 2 ^ 63 := by
    have a1 := fileOf_length xs m1
    have a2 := each_length m2
    have a3 := hsm.2
    rw [List.length_map] at a2
    have : xs.length * (2 ^ 31 + 68) ≤ 2 ^ 31 * (2 ^ 31 + 68) := Nat.mul_le_mul_right _ (by omega)
    omega
  refine ⟨fs3, fileOf xs, ?_, o2, hlen, ⟨xs, rfl, ?_, m1, hlen, matches_and m2 m3⟩, o3⟩
  · rw [pass_exec hl h1 e3 inp out fs hin]
    exact o1
  · rintro rfl
    have := mapRes_len e3
    exact hbne (List.length_eq_zero_iff.1 this.symm)

theorem FileSettled.has {inflate : Inflate} {file : List UInt8} {cs : List Content} (h : FileSettled inflate file cs) :
    FileHas inflate reader file cs := by
  obtain ⟨xs, rfl, h1, h2, h3, h4⟩ := h
  refine fileOf_has inflate reader h1 h2 h3 ?_
  clear h1 h2 h3
  induction h4 with
  | nil => exact .nil
  | cons h _ ih => exact .cons h.1 ih

/-- A pass over a settled file whose refs it would not change writes the same file. -/
theorem pass_again (inflate : Inflate) (sched : Block → Sched) (hsched : ∀ b, (sched b).pooled.length < 2 ^ 63)
    {si : SubIdx} (hw : WellFormedSub si) {file : List UInt8} {cs : List Content} (hc : FileSettled inflate file cs)
    (hfix : ∀ c ∈ cs, c.mapRefs (locate si.element si.locations) = c) (inp out : String) (fs : FS) (hin : Holds fs inp file) :
    ∃ fs', (pass inflate sched si inp out).exec fs = .ok ((), fs') ∧ Holds fs' out file ∧ ∀ g, g ≠ out → fs' g = fs g := by
  obtain ⟨xs, rfl, h1, h2, h3, h4⟩ := hc
  have hk : ∀ x ∈ xs, ∃ c ∈ cs, HasContent inflate reader x.1 x.2 c ∧ Settled x c := fun x hx => matches_mem h4 x hx
  obtain ⟨bs, s1, s2⟩ := again h1 h2 h3 (work := rewriteWork inflate sched si) (g := fun x => x) (by
    intro x hx i spare hf
    obtain ⟨c, hc, k1, k2⟩ := hk x hx
    exact work_again inflate sched hsched hw k1 k2 (hfix c hc) i spare hf)
  rw [List.map_id'] at s2
  obtain ⟨fs3, o1, o2, o3⟩ := output_exec out xs fs
  exact ⟨fs3, by rw [pass_exec h3 s1 s2 inp out fs hin]; exact o1, o2, o3⟩

/-- Locating a second time, with ranges among the first ones, changes nothing. -/
theorem locate_again {locs : List Int64} (hn : NegativeLocs locs) {es es' : List IndexElement} (hsub : ∀ e ∈ es', e ∈ es)
    (r : Int64) : locate es' locs (locate es locs r) = locate es locs r := by
  by_cases hneg : locate es locs r < 0
  · exact locate_neg hneg
  · have h0 : 0 ≤ r := by
      rcases Int.lt_or_le r.toInt 0 with h | h
      · have hr : r < 0 := by rw [Int64.lt_iff_toInt_lt]; simpa using h
        rw [locate_neg hr] at hneg
        exact absurd hr hneg
      · rw [Int64.le_iff_toInt_le]; simpa using h
    have hnone : knownLoc es locs r.toInt.toNat = none := by
      cases hk : knownLoc es locs r.toInt.toNat with
      | none => rfl
      | some l =>
        exfalso
        apply hneg
        unfold locate
        rw [if_pos h0, hk]
        exact knownLoc_neg hn hk
    have e : locate es locs r = r := by
      unfold locate
      rw [if_pos h0, hnone]
      rfl
    rw [e]
    have hnone' : knownLoc es' locs r.toInt.toNat = none := by
      unfold knownLoc at hnone ⊢
      rw [List.findSome?_eq_none_iff] at hnone ⊢
      exact fun e he => hnone e (hsub e he)
    unfold locate
    rw [if_pos h0, hnone']
    rfl

end Osm.Rewrite

namespace Osm.T
open Osm Osm.Spec Osm.Pb

/-! ## tagfilter -/

theorem div_again (x : Int64) : (0 + (100 : Int32).toInt64 * (x / 100)) / 100 = x / 100 := by
  apply Int64.toInt_inj.1
  have hne : (100 : Int64) ≠ -1 := by decide
  rw [Int64.toInt_div_of_ne_right _ _ hne, Int64.toInt_div_of_ne_right _ _ hne, trunc_eq, show (100 : Int64).toInt = 100 from rfl]
  exact Int.mul_tdiv_cancel _ (by decide)

/-- Assembling what an assembled block reads as gives the block. -/
theorem asm_again {ns : List HLNode} {ws : List HLWay} {rs : List HLRelation} (hm : TagsAreMaps ns ws rs) :
    asm (ns.map nodeBack) (ws.map fun w => ⟨w.Id, sortedTags w.Tags, w.Nodes⟩)
      (rs.map fun r => ⟨r.Id, sortedTags r.Tags, r.Roles, r.Members, r.MemberType⟩) = asm ns ws rs := by
  have h1 : Each NodeReordered ns (ns.map fun n => ⟨n.Id, sortedTags n.Tags, n.Lat, n.Lon⟩) :=
    each_map _ _ _ fun n hn => ⟨sortedTags_perm (hm.1 n hn), rfl, rfl, rfl⟩
  have h2 : Each WayReordered ws (ws.map fun w => ⟨w.Id, sortedTags w.Tags, w.Nodes⟩) :=
    each_map _ _ _ fun n hn => ⟨sortedTags_perm (hm.2.1 n hn), rfl, rfl⟩
  have h3 : Each RelationReordered rs (rs.map fun r => ⟨r.Id, sortedTags r.Tags, r.Roles, r.Members, r.MemberType⟩) :=
    each_map _ _ _ fun n hn => ⟨sortedTags_perm (hm.2.2 n hn), rfl, rfl, rfl, rfl⟩
  have hm' : TagsAreMaps (ns.map fun n => ⟨n.Id, sortedTags n.Tags, n.Lat, n.Lon⟩)
      (ws.map fun w => ⟨w.Id, sortedTags w.Tags, w.Nodes⟩)
      (rs.map fun r => ⟨r.Id, sortedTags r.Tags, r.Roles, r.Members, r.MemberType⟩) :=
    ⟨each_all (fun a b h ha => (h.1.map _).nodup_iff.2 ha) h1 hm.1,
     each_all (fun a b h ha => (h.1.map _).nodup_iff.2 ha) h2 hm.2.1,
     each_all (fun a b h ha => (h.1.map _).nodup_iff.2 ha) h3 hm.2.2⟩
  have e := make_congr hm h1 h2 h3
  rw [make_eq _ _ _ hm, make_eq _ _ _ hm'] at e
  rw [← Res.ok.inj e]
  have hb : ∀ ws' rs', blockStrings (ns.map nodeBack) ws' rs' =
      blockStrings (ns.map fun n => ⟨n.Id, sortedTags n.Tags, n.Lat, n.Lon⟩) ws' rs' := by
    intro ws' rs'
    unfold blockStrings
    rw [List.flatMap_map, List.flatMap_map]
    rfl
  unfold asm
  dsimp only
  rw [hb]
  generalize blockStrings (ns.map fun n => ⟨n.Id, sortedTags n.Tags, n.Lat, n.Lon⟩) _ _ = xs
  have hg : gNodes xs (ns.map nodeBack) = gNodes xs (ns.map fun n => ⟨n.Id, sortedTags n.Tags, n.Lat, n.Lon⟩) := by
    unfold gNodes denseOf nodesKV
    simp only [List.length_map, List.map_map]
    have a1 : ∀ f : Int64 → Int64, ns.map ((fun n : HLNode => f (n.Lat / 100)) ∘ nodeBack) = ns.map fun n => f (n.Lat / 100) := by
      intro f
      refine List.map_congr_left fun n _ => ?_
      show f ((0 + (100 : Int32).toInt64 * (n.Lat / 100)) / 100) = _
      rw [div_again]
    have a2 : ∀ f : Int64 → Int64, ns.map ((fun n : HLNode => f (n.Lon / 100)) ∘ nodeBack) = ns.map fun n => f (n.Lon / 100) := by
      intro f
      refine List.map_congr_left fun n _ => ?_
      show f ((0 + (100 : Int32).toInt64 * (n.Lon / 100)) / 100) = _
      rw [div_again]
    have b1 := a1 id
    have b2 := a2 id
    simp only [id] at b1 b2
    rw [b1, b2]
    rfl
  rw [hg]

end Osm.T

namespace Osm.TagFilter
open Osm Osm.Pb Osm.T Osm.Pbf Osm.Spec

theorem wantedNodes_wanted (ns : List HLNode) : ∀ n ∈ wantedNodes ns, n.Tags ≠ [] ∧ ∀ e ∈ n.Tags, Wanted e.1 := by
  intro n hn
  unfold wantedNodes at hn
  obtain ⟨m, hm, rfl⟩ := List.mem_map.1 hn
  obtain ⟨e, h1, h2⟩ := of_decide_eq_true (List.mem_filter.1 hm).2
  dsimp only
  unfold wantedTags
  refine ⟨List.ne_nil_of_mem (List.mem_filter.2 ⟨h1, decide_eq_true h2⟩), fun e he => ?_⟩
  exact of_decide_eq_true (List.mem_filter.1 he).2

theorem wantedNodes_same {ns : List HLNode} (h : ∀ n ∈ ns, n.Tags ≠ [] ∧ ∀ e ∈ n.Tags, Wanted e.1) : wantedNodes ns = ns := by
  unfold wantedNodes
  have h1 : (ns.filter fun n => ∃ e ∈ n.Tags, Wanted e.1) = ns := by
    refine List.filter_eq_self.2 fun n hn => decide_eq_true ?_
    obtain ⟨a, b⟩ := h n hn
    obtain ⟨e, he⟩ := List.exists_mem_of_ne_nil _ a
    exact ⟨e, he, b e he⟩
  rw [h1]
  conv => rhs; rw [← List.map_id ns]
  refine List.map_congr_left fun n hn => ?_
  have : wantedTags n.Tags = n.Tags := List.filter_eq_self.2 fun e he => decide_eq_true ((h n hn).2 e he)
  rw [this]
  rfl

/-- The bytes are those which tagfilter writes for some entities, all of them wanted. -/
def Settled (x : Rewrite.Out) : Prop :=
  Writable x ∧ (x.1 = osmData → ∃ ns ws rs, TagsAreMaps ns ws rs ∧ (blockStrings ns ws rs).length < 2 ^ 32 ∧
    [] ∉ blockStrings ns ws rs ∧ (∀ n ∈ ns, n.Tags ≠ [] ∧ ∀ e ∈ n.Tags, Wanted e.1) ∧ ¬ (ns = [] ∧ ws = [] ∧ rs = []) ∧
    Blob.zero.Write (some (asm ns ws rs).Write) [] = .ok x.2)

theorem work_again (inflate : Inflate) (sched : Block → Sched) (hsched : ∀ b, (sched b).pooled.length < 2 ^ 63)
    {x : Rewrite.Out} (hx : Settled x) (i : Nat) (spare : List UInt8) (hf : (Slice.mk x.2 spare).Fits) :
    filterWork inflate sched ⟨i, ⟨x.2, spare⟩, x.1⟩ = .ok x := by
  unfold filterWork filterIter
  by_cases hk : x.1 = osmData
  · obtain ⟨k, bytes⟩ := x
    dsimp only at hk hf
    subst hk
    obtain ⟨ns, ws, rs, hm, hl, he, hw, hne, hb⟩ := hx.2 rfl
    dsimp only at hb ⊢
    rw [if_neg (by simp)]
    obtain ⟨w1, _⟩ := written_reads inflate (asm_shape _ _ _) hb
    rw [trim_readAll (asm_shape _ _ _)] at w1
    obtain ⟨raw, pb, r1, r2, r3⟩ := w1 i spare (sched ⟨i, ⟨bytes, spare⟩, osmData⟩) hf (hsched _)
    have r2' : ReadPrimitiveBlock reader raw = .ok pb := r2
    rw [trim_readAll (readBlock_shape _ _ _ r2)] at r3
    subst r3
    rw [r1, Res.ok_bind, r2', Res.ok_bind]
    have i1 := asm_toNodes ns ws rs hm hl fun n hn p hp => groupOf_ne_zero _ hl he _ (hm.1 n hn) (node_strings hn) p hp
    have i2 := asm_toWays ns ws rs hm hl
    have i3 := asm_toRelations ns ws rs hm hl
    obtain ⟨idx, hfn⟩ := filterNodes_eq (ns.map nodeBack)
    have hsame : wantedNodes (ns.map nodeBack) = ns.map nodeBack := by
      apply wantedNodes_same
      intro n hn
      obtain ⟨m, hmm, rfl⟩ := List.mem_map.1 hn
      have hp := sortedTags_perm (hm.1 m hmm)
      obtain ⟨a, b⟩ := hw m hmm
      refine ⟨fun h => ?_, fun e he => b e (hp.mem_iff.1 he)⟩
      have h : sortedTags m.Tags = [] := h
      rw [h] at hp
      exact a hp.symm.eq_nil
    have hm' : TagsAreMaps (ns.map nodeBack) (ws.map fun w => ⟨w.Id, sortedTags w.Tags, w.Nodes⟩)
        (rs.map fun r => ⟨r.Id, sortedTags r.Tags, r.Roles, r.Members, r.MemberType⟩) :=
      ⟨toNodes_isMap i1, toWays_isMap i2, toRelations_isMap i3⟩
    unfold filterBlock
    rw [i1, Res.ok_bind, i2, Res.ok_bind, i3, Res.ok_bind, hfn, Res.ok_bind, hsame]
    unfold send
    rw [if_pos ?_, assemble_eq, make_eq _ _ _ hm', Res.ok_bind, asm_again hm, hb, Res.ok_bind]
    · rfl
    · dsimp only
      simp only [nodesToBuffer, List.length_map, List.length_nil, Nat.add_zero, gt_iff_lt]
      rw [← List.length_eq_zero_iff, ← List.length_eq_zero_iff (l := ws), ← List.length_eq_zero_iff (l := rs)] at hne
      omega
  · rw [if_pos hk]
    rfl

theorem work_settles (inflate : Inflate) (sched : Block → Sched) (hsched : ∀ b, (sched b).pooled.length < 2 ^ 63)
    {b : Block} (hf : b.Data.Fits) (hlen : b.Data.bytes.length < 2 ^ 31) (hkind : b.Kind = osmHeader ∨ b.Kind = osmData)
    {c : Content} (hc : HasContent inflate readAll b.Kind b.Data.bytes c) {it : Item} (hit : IsItem c it)
    (hfew : it.FewStrings) (hne : ∀ ns ws rs, it = .entities ns ws rs → [] ∉ blockStrings (wantedNodes ns) ws rs)
    {x : Rewrite.Out} (hx : filterWork inflate sched b = .ok x) : x = (filler, []) ∨ Settled x := by
  unfold filterWork at hx
  obtain ⟨s, hs, hx⟩ := Res.bind_eq_ok.1 hx
  cases hx
  unfold filterIter at hs
  cases c with
  | other k bs =>
    obtain ⟨h1, h2, h3⟩ := hc
    rw [if_pos h3] at hs
    cases hs
    exact .inr ⟨⟨hkind, hlen⟩, fun h => absurd h h3⟩
  | data c =>
    cases it with
    | other => cases hit
    | entities ns ws rs =>
    obtain ⟨h1, h2⟩ := hc
    rw [if_neg (by simp [h1])] at hs
    obtain ⟨i, data, kind⟩ := b
    subst h1
    obtain ⟨raw, pb, r1, r2, r3⟩ := h2 i data.spare (sched ⟨i, data, osmData⟩) hf (hsched _)
    have r2' : ReadPrimitiveBlock reader raw = .ok pb := r2
    rw [trim_readAll (readBlock_shape _ _ _ r2)] at r3
    subst r3
    obtain ⟨i1, i2, i3⟩ := hit
    rw [r1, Res.ok_bind, r2', Res.ok_bind] at hs
    obtain ⟨idx, hfn⟩ := filterNodes_eq ns
    unfold filterBlock at hs
    rw [i1, Res.ok_bind, i2, Res.ok_bind, i3, Res.ok_bind, hfn, Res.ok_bind] at hs
    unfold send at hs
    have hm : TagsAreMaps (wantedNodes ns) ws rs :=
      ⟨wantedNodes_isMap (toNodes_isMap i1), toWays_isMap i2, toRelations_isMap i3⟩
    split at hs
    · next hn =>
      rw [assemble_eq, make_eq _ _ _ hm, Res.ok_bind] at hs
      obtain ⟨blob, hb, hs⟩ := Res.bind_eq_ok.1 hs
      cases hs
      obtain ⟨_, w2⟩ := written_reads inflate (asm_shape _ _ _) hb
      refine .inr ⟨⟨.inr rfl, w2⟩, fun _ => ⟨wantedNodes ns, ws, rs, hm, hfew, hne _ _ _ rfl, wantedNodes_wanted ns, ?_, hb⟩⟩
      rintro ⟨e1, rfl, rfl⟩
      simp [e1, nodesToBuffer] at hn
    · cases hs
      exact .inl rfl

end Osm.TagFilter
