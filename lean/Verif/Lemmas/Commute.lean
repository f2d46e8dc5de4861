import Verif.Lemmas.FormatOut
import Verif.Lemmas.UnsortedRewrite
import Verif.Lemmas.Idempotent
import Verif.Lemmas.Cancel

/-! # Rewriting and filtering, on the content of a file in the format (C107) -/

namespace Osm.Format
open Osm Osm.Spec Osm.Spec.Proto Osm.Spec.OsmFormat Osm.Pb Osm.T Osm.Pbf

theorem holds_unique {fs : FS} {f : String} {x y : List UInt8} (h : Holds fs f x) (h' : Holds fs f y) : x = y := by
  obtain ⟨p, h⟩ := h
  obtain ⟨q, h'⟩ := h'
  rw [h] at h'
  cases h'
  rfl

/-! ### One block through rewritenodes -/

theorem rewriteWork_isContent (inflate : Inflate) (sched : Block → Sched) (hsched : ∀ b, (sched b).pooled.length < 2 ^ 63)
    {si : NodeIndex.SubIdx} (hw : WellFormedSub si) {b : Block} (hf : b.Data.Fits) (hb31 : b.Data.bytes.length < 2 ^ 31)
    {c : Content} (hb : IsContent inflate (Seen b) c) {x : Rewrite.Out}
    (hx : Rewrite.rewriteWork inflate sched si b = .ok x) :
    IsContent inflate x (c.mapRefs (locate si.element si.locations)) ∧ Writable x := by
  obtain ⟨i, ⟨bytes, spare⟩, kind⟩ := b
  unfold Seen at hb
  dsimp only at hb hb31
  have hl : bytes.length < 2 ^ 63 := by omega
  unfold Rewrite.rewriteWork at hx
  cases hb with
  | header bs =>
    rw [if_pos header_not_data] at hx
    cases hx
    exact ⟨.header _, .inl rfl, hb31⟩
  | data bs p full hp hb =>
    rw [if_neg (by simp)] at hx
    obtain ⟨blob, h1, h2, h3⟩ := isPayload_read hp hl
    obtain ⟨blob', g1, g2⟩ := grows_blob (s := ⟨bytes, []⟩) (t := ⟨bytes, spare⟩) ⟨rfl, spare, rfl⟩ _ h1
    obtain ⟨raw, g3, g4, g5⟩ := payload_raw (sched ⟨i, ⟨bytes, spare⟩, osmData⟩) (payload_trim g2 h2)
    have hrf : raw.Fits := by
      unfold Slice.Fits
      rcases g5 with ⟨r, e1, rfl⟩ | g5
      · exact (readBlob_fits hf g1).1 raw e1
      · rw [g4, g5]
        have := hsched ⟨i, ⟨bytes, spare⟩, osmData⟩
        unfold poolBuffer
        split
        · simp; omega
        · exact this
    have e1 : rawOf inflate (sched ⟨i, ⟨bytes, spare⟩, osmData⟩) ⟨i, ⟨bytes, spare⟩, osmData⟩ = .ok raw := by
      unfold rawOf
      dsimp only
      rw [g1]
      exact g3
    obtain ⟨raw, sp⟩ := raw
    dsimp only at g4
    subst g4
    obtain ⟨pb, k1, k2, _⟩ := read_block Rewrite.reader hb sp hrf
    rw [e1, Res.ok_bind, k1, Res.ok_bind] at hx
    unfold Rewrite.rewriteDecoded at hx
    split at hx
    · next hz =>
      cases hx
      refine ⟨?_, .inr rfl, hb31⟩
      have h0 : Rewrite.totalWays full = 0 := by
        rw [← hz]
        unfold Rewrite.totalWays
        have := k2.groups
        generalize pb.PrimitiveGroup = gs, full.PrimitiveGroup = cs at this
        clear hz
        induction this with
        | nil => rfl
        | cons hg _ ih =>
          obtain ⟨_, e⟩ := hg.ways
          simp only [List.map_cons, List.sum_cons]
          rw [ih, e]
      show IsContent inflate _ (.data (mapRefs _ full))
      rw [Rewrite.mapRefs_noWays h0]
      exact .data _ _ _ hp hb
    · obtain ⟨out, k3, hx⟩ := Res.bind_eq_ok.1 hx
      cases hx
      rw [Rewrite.rewriteBlock_eq hw] at k3
      have hs := (written_reads inflate (Rewrite.mapRefs_shape (readBlock_shape Rewrite.reader _ _ k1)) k3).2
      obtain ⟨q, q1, q2, q3⟩ := write_blob_func Blob.zero (block_embSpec _) k3 (by omega)
      exact ⟨.data _ q _ (.inl ⟨_, q3⟩) (write_block (shows_mapRefs _ k2) q1 (by omega)), .inr rfl, hs⟩

theorem rewriteWorks_isContent (inflate : Inflate) (sched : Block → Sched) (hsched : ∀ b, (sched b).pooled.length < 2 ^ 63)
    {si : NodeIndex.SubIdx} (hw : WellFormedSub si) {bs : List Block} {cs : List Content}
    (h : Matches (fun b y => IsContent inflate (Seen b) y) bs cs)
    (hf : ∀ b ∈ bs, b.Data.Fits ∧ b.Data.bytes.length < 2 ^ 31 ∧ (b.Kind = osmHeader ∨ b.Kind = osmData)) :
    ∀ {xs : List Rewrite.Out}, mapRes (Rewrite.rewriteWork inflate sched si) bs = .ok xs →
    Matches (IsContent inflate) xs (cs.map (·.mapRefs (locate si.element si.locations))) ∧ ∀ x ∈ xs, Writable x := by
  induction h with
  | nil => intro xs hx; cases hx; exact ⟨.nil, by simp⟩
  | @cons a _ _ _ h _ ih =>
    intro xs hx
    unfold mapRes at hx
    obtain ⟨x, e1, hx⟩ := Res.bind_eq_ok.1 hx
    obtain ⟨ys, e2, hx⟩ := Res.bind_eq_ok.1 hx
    cases hx
    obtain ⟨f1, f2, _⟩ := hf a (by simp)
    obtain ⟨z1, z2⟩ := rewriteWork_isContent inflate sched hsched hw f1 f2 h e1
    obtain ⟨zs, hzs⟩ := ih (fun b hb => hf b (by simp [hb])) e2
    refine ⟨Matches.cons z1 zs, fun y hy => ?_⟩
    rcases List.mem_cons.1 hy with rfl | hy
    · exact z2
    · exact hzs y hy

/-- A file in the format that can be worked on. -/
structure Good (inflate : Inflate) (file : List UInt8) (cs : List Content) : Prop where
  len : file.length < 2 ^ 63
  some : file ≠ []
  few : cs.length ≤ 2 ^ 31
  is : IsOsmContents inflate file cs

theorem Good.blocks {inflate : Inflate} {file : List UInt8} {cs : List Content} (h : Good inflate file cs) :
    ∃ bs, split file = .ok bs ∧ Matches (fun b y => IsContent inflate (Seen b) y) bs cs := by
  obtain ⟨xs, x1, x2⟩ := h.is
  obtain ⟨bs, h1, rfl⟩ := split_of x1 h.len h.some (kinds_content x2)
  exact ⟨bs, h1, matches_seen x2⟩

/-- What a writer made of blocks with given contents. -/
theorem written_good {inflate : Inflate} {xs : List Rewrite.Out} {cs : List Content} (hm : Matches (IsContent inflate) xs cs)
    (hw : ∀ x ∈ xs, Writable x) (hc : cs.length ≤ 2 ^ 31) :
    IsOsmContents inflate (fileOf xs) cs ∧ (fileOf xs).length < 2 ^ 63 := by
  refine ⟨⟨xs, fileOf_isFile xs hw, hm⟩, ?_⟩
  have a1 := Rewrite.fileOf_length xs hw
  have a2 := Rewrite.each_length hm
  have : xs.length * (2 ^ 31 + 68) ≤ 2 ^ 31 * (2 ^ 31 + 68) := Nat.mul_le_mul_right _ (by omega)
  omega

theorem fileOf_some {xs : List Rewrite.Out} (h : xs ≠ []) : fileOf xs ≠ [] := by
  cases xs with
  | nil => exact absurd rfl h
  | cons x xs =>
    show frame x.1 x.2 ++ fileOf xs ≠ []
    rw [Rewrite.frame_eq]
    unfold Rewrite.frameHeader
    simp [be32]

/-- One pass that ends normally. -/
theorem pass_done (inflate : Inflate) (sched : Block → Sched) (hsched : ∀ b, (sched b).pooled.length < 2 ^ 63)
    {si : NodeIndex.SubIdx} (hw : WellFormedSub si) {file : List UInt8} {cs : List Content} (hg : Good inflate file cs)
    (inp out : String) (fs fs' : FS) (hin : Holds fs inp file)
    (hx : (Rewrite.pass inflate sched si inp out).exec fs = .ok ((), fs')) :
    ∃ file', Holds fs' out file' ∧ Good inflate file' (cs.map (·.mapRefs (locate si.element si.locations))) ∧
      ∀ g, g ≠ out → fs' g = fs g := by
  obtain ⟨bs, h1, h2⟩ := hg.blocks
  obtain ⟨hbne, hb⟩ := Rewrite.split_blocks hg.len h1
  cases hm : mapRes (Rewrite.rewriteWork inflate sched si) bs with
  | ok xs =>
    rw [Rewrite.pass_exec hg.len h1 hm inp out fs hin] at hx
    obtain ⟨fs3, o1, o2, o3⟩ := Rewrite.output_exec out xs fs
    rw [o1] at hx
    cases hx
    obtain ⟨m1, m2⟩ := rewriteWorks_isContent inflate sched hsched hw h2 hb hm
    obtain ⟨w1, w2⟩ := written_good m1 m2 (by rw [List.length_map]; exact hg.few)
    refine ⟨fileOf xs, o2, ⟨w2, fileOf_some ?_, by rw [List.length_map]; exact hg.few, w1⟩, o3⟩
    rintro rfl
    have := Rewrite.mapRes_len hm
    exact hbne (List.length_eq_zero_iff.1 this.symm)
  | _ =>
    exfalso
    obtain ⟨pos, hin⟩ := hin
    unfold Rewrite.pass at hx
    rw [Prog.exec_bind, exec_OsOpen_some hin, Res.ok_bind, Prog.exec_bind, exec_MMapMap] at hx
    dsimp only at hx
    rw [hin] at hx
    dsimp only at hx
    rw [if_neg hg.some, Res.ok_bind, Prog.exec_bind, Prog.exec_lift, h1, Res.ok_bind, Res.ok_bind, Prog.exec_bind,
      Prog.exec_lift, hm] at hx
    cases hx

/-- All passes, when they end normally. -/
theorem runPasses_done (inflate : Inflate) (scheds : Nat → Block → Sched)
    (hsched : ∀ i b, (scheds i b).pooled.length < 2 ^ 63) {ix : NodeIndex.NodeIdx}
    (hneg : NegativeLocs ix.locations) (inp out : String) {n : Nat} (subs : List NodeIndex.SubIdx) (hlen : subs.length = n)
    (hsub : ∀ (p : Nat) si, subs[p]? = some si → ix.SubIndex (UInt64.ofNat p) (UInt64.ofNat n) = .ok si ∧ WellFormedSub si ∧
      si.locations = ix.locations) :
    ∀ (left i : Nat) (fs fs' : FS) (file : List UInt8) (cs : List Content), i + (left + 1) = n →
      Holds fs (Rewrite.passInput inp out n i) file → Good inflate file cs →
      (Rewrite.runPasses inflate scheds ix inp out n (left + 1) i).exec fs = .ok ((), fs') →
      ∃ file', Holds fs' out file' ∧
        Good inflate file' (cs.map (·.mapRefs (locate ((subs.drop i).flatMap (·.element)) ix.locations))) := by
  intro left
  induction left with
  | zero =>
    intro i fs fs' file cs hi hin hg hx
    obtain ⟨fs0, z1, z2, z3⟩ := Rewrite.removeOld_exec out n i fs
    have hi1 : i < subs.length := by omega
    obtain ⟨s1, s2, s3⟩ := hsub i subs[i] (List.getElem?_eq_getElem hi1)
    have hin1 : Holds fs0 (Rewrite.passInput inp out n i) file := by
      obtain ⟨pos, hin⟩ := hin
      refine ⟨pos, ?_⟩
      rw [z3, hin]
      intro h2
      unfold Rewrite.passInput
      rw [if_pos (by omega)]
      intro he
      have := RelIndex.pass_inj he
      omega
    unfold Rewrite.runPasses at hx
    rw [Prog.exec_bind, z1, Res.ok_bind, Prog.exec_bind, Prog.exec_lift, s1, Res.ok_bind, Res.ok_bind, Prog.exec_bind] at hx
    dsimp only at hx
    obtain ⟨⟨u, fs1⟩, e1, hx⟩ := Res.bind_eq_ok.1 hx
    cases hx
    have hout : Rewrite.passOutput out n i = out := by unfold Rewrite.passOutput; rw [if_neg (by omega)]
    rw [hout] at e1
    obtain ⟨file', h1, h2, _⟩ := pass_done inflate (scheds i) (hsched i) s2 hg _ _ fs0 fs1 hin1 e1
    refine ⟨file', h1, ?_⟩
    rw [List.drop_eq_getElem_cons hi1, List.drop_eq_nil_of_le (by omega), List.flatMap_cons, List.flatMap_nil,
      List.append_nil, ← s3]
    exact h2
  | succ left ih =>
    intro i fs fs' file cs hi hin hg hx
    obtain ⟨fs0, z1, z2, z3⟩ := Rewrite.removeOld_exec out n i fs
    have hi1 : i < subs.length := by omega
    obtain ⟨s1, s2, s3⟩ := hsub i subs[i] (List.getElem?_eq_getElem hi1)
    have hin1 : Holds fs0 (Rewrite.passInput inp out n i) file := by
      obtain ⟨pos, hin⟩ := hin
      refine ⟨pos, ?_⟩
      rw [z3, hin]
      intro h2
      unfold Rewrite.passInput
      rw [if_pos (by omega)]
      intro he
      have := RelIndex.pass_inj he
      omega
    unfold Rewrite.runPasses at hx
    rw [Prog.exec_bind, z1, Res.ok_bind, Prog.exec_bind, Prog.exec_lift, s1, Res.ok_bind, Res.ok_bind, Prog.exec_bind] at hx
    dsimp only at hx
    obtain ⟨⟨u, fs1⟩, e1, hx⟩ := Res.bind_eq_ok.1 hx
    dsimp only at hx
    have hout : Rewrite.passOutput out n i = RelIndex.makePassFilename out (i + 1) n := by
      unfold Rewrite.passOutput; rw [if_pos (by omega)]
    have hinp : Rewrite.passInput inp out n (i + 1) = RelIndex.makePassFilename out (i + 1) n := by
      unfold Rewrite.passInput; rw [if_pos (by omega)]
    rw [hout] at e1
    obtain ⟨file1, h1, h2, _⟩ := pass_done inflate (scheds i) (hsched i) s2 hg _ _ fs0 fs1 hin1 e1
    obtain ⟨file', k1, k2⟩ := ih (i + 1) fs1 fs' file1 _ (by omega) (by rw [hinp]; exact h1) h2 hx
    refine ⟨file', k1, ?_⟩
    rw [List.map_map] at k2
    rw [List.drop_eq_getElem_cons hi1, List.flatMap_cons]
    refine Eq.mp (congrArg _ (List.map_congr_left fun c _ => ?_)) k2
    rw [Function.comp_apply, Rewrite.content_mapRefs_comp, s3]
    refine congrArg (fun f => Content.mapRefs f c) (funext fun r => ?_)
    exact Rewrite.locate_comp hneg _ _ r

/-- rewritenodes, when it ends normally. -/
theorem rewritenodes_done (inflate : Inflate) (scheds : Nat → Block → Sched)
    (hsched : ∀ i b, (scheds i b).pooled.length < 2 ^ 63) {ix : NodeIndex.NodeIdx} (wf : WellFormed ix.elements ix.locations)
    (hneg : NegativeLocs ix.locations) (memory : Option UInt64) (n : UInt64) (hn : NodeIndex.passCount ix memory = .ok n)
    (hn0 : n ≠ 0) {subs : List NodeIndex.SubIdx}
    (hsubs : mapRes (fun p => ix.SubIndex (UInt64.ofNat p) n) (List.range n.toNat) = .ok subs)
    (inp index out : String) {file ixFile : List UInt8} {cs : List Content} (hg : Good inflate file cs)
    (fs fs' : FS) (hin : Holds fs inp file) (hix : Holds fs index ixFile) (hload : NodeIndex.NewNodeIndex ixFile = .ok ix)
    (hx : (Rewrite.rewritenodes inflate scheds memory inp index out).exec fs = .ok ((), fs')) :
    ∃ file', Holds fs' out file' ∧
      Good inflate file' (cs.map (·.mapRefs (locate (subs.flatMap (·.element)) ix.locations))) := by
  have hnn : UInt64.ofNat n.toNat = n := UInt64.ofNat_toNat
  have s1 : subs.length = n.toNat := by have := Rewrite.mapRes_len hsubs; simpa using this
  have s2 : ∀ (p : Nat) si, subs[p]? = some si → ix.SubIndex (UInt64.ofNat p) (UInt64.ofNat n.toNat) = .ok si ∧
      WellFormedSub si ∧ si.locations = ix.locations := by
    intro p si hp
    have hlt : p < n.toNat := by
      have := (List.getElem?_eq_some_iff.1 hp).1
      omega
    obtain ⟨b, b1, b2⟩ := Rewrite.mapRes_get hsubs p p (by rw [List.getElem?_range hlt])
    rw [hp] at b1
    cases b1
    obtain ⟨a, b, _⟩ := NodeIndex.subIndex_wf ix wf _ _ si b2
    rw [hnn]
    exact ⟨b2, a, b⟩
  have hpos : n.toNat ≠ 0 := fun h => hn0 (UInt64.toNat_inj.1 (by simpa using h))
  obtain ⟨left, hleft⟩ : ∃ k, n.toNat = k + 1 := ⟨n.toNat - 1, by omega⟩
  obtain ⟨pos, hix⟩ := hix
  have hixne : ixFile ≠ [] := by
    rintro rfl
    cases hload
  unfold Rewrite.rewritenodes at hx
  rw [Prog.exec_bind, exec_OsOpen_some hix, Res.ok_bind, Prog.exec_bind, exec_MMapMap] at hx
  dsimp only at hx
  rw [hix] at hx
  dsimp only at hx
  rw [if_neg hixne, Res.ok_bind, Prog.exec_bind, Prog.exec_lift, hload, Res.ok_bind, Res.ok_bind, Prog.exec_bind,
    Prog.exec_lift, hn, Res.ok_bind, Res.ok_bind, Prog.exec_bind] at hx
  dsimp only at hx
  obtain ⟨⟨u, fs1⟩, e1, hx⟩ := Res.bind_eq_ok.1 hx
  dsimp only at hx
  have e1' : (Rewrite.runPasses inflate scheds ix inp out n.toNat (left + 1) 0).exec fs = .ok ((), fs1) := by
    rw [← hleft]; exact e1
  obtain ⟨file', h1, h2⟩ := runPasses_done inflate scheds hsched hneg inp out subs s1 s2 left 0 fs fs1 file cs (by omega)
    (by unfold Rewrite.passInput; rw [if_neg (by omega)]; exact hin) hg e1'
  refine ⟨file', ?_, h2⟩
  unfold Rewrite.removeLast OsRemove at hx
  split at hx
  · rw [Prog.exec_bind] at hx
    obtain ⟨⟨u, fs2⟩, e2, hy⟩ := Res.bind_eq_ok.1 hx
    have e3 : fs2 = fs1 := RelIndex.only_OsOpen "" _ _ _ e2
    subst e3
    rw [Prog.exec_emit] at hy
    cases hy
    obtain ⟨p, h1⟩ := h1
    refine ⟨p, ?_⟩
    rw [← h1]
    exact set_other _ _ (RelIndex.pass_ne_out _ _ _).symm
  · cases hx
    exact h1

/-- rewritenodes does not end normally on an empty file. -/
theorem rewritenodes_empty (inflate : Inflate) (scheds : Nat → Block → Sched) {ix : NodeIndex.NodeIdx}
    (memory : Option UInt64) (n : UInt64) (hn : NodeIndex.passCount ix memory = .ok n) (hn0 : n ≠ 0)
    (inp index out : String) {ixFile : List UInt8} (fs fs' : FS) (hin : Holds fs inp []) (hix : Holds fs index ixFile)
    (hload : NodeIndex.NewNodeIndex ixFile = .ok ix)
    (hx : (Rewrite.rewritenodes inflate scheds memory inp index out).exec fs = .ok ((), fs')) : False := by
  have hpos : n.toNat ≠ 0 := fun h => hn0 (UInt64.toNat_inj.1 (by simpa using h))
  obtain ⟨left, hleft⟩ : ∃ k, n.toNat = k + 1 := ⟨n.toNat - 1, by omega⟩
  obtain ⟨pos, hix⟩ := hix
  obtain ⟨p, hin⟩ := hin
  have hixne : ixFile ≠ [] := by
    rintro rfl
    cases hload
  unfold Rewrite.rewritenodes at hx
  rw [Prog.exec_bind, exec_OsOpen_some hix, Res.ok_bind, Prog.exec_bind, exec_MMapMap] at hx
  dsimp only at hx
  rw [hix] at hx
  dsimp only at hx
  rw [if_neg hixne, Res.ok_bind, Prog.exec_bind, Prog.exec_lift, hload, Res.ok_bind, Res.ok_bind, Prog.exec_bind,
    Prog.exec_lift, hn, Res.ok_bind, Res.ok_bind, Prog.exec_bind] at hx
  dsimp only at hx
  obtain ⟨⟨u, fs1⟩, e1, _⟩ := Res.bind_eq_ok.1 hx
  have e1' : (Rewrite.runPasses inflate scheds ix inp out n.toNat (left + 1) 0).exec fs = .ok ((), fs1) := by
    rw [← hleft]; exact e1
  unfold Rewrite.runPasses at e1'
  rw [Prog.exec_bind] at e1'
  obtain ⟨⟨_, f0⟩, e2, e3⟩ := Res.bind_eq_ok.1 e1'
  have h0 : f0 = fs := by cases e2; rfl
  subst h0
  rw [Prog.exec_bind, Prog.exec_lift] at e3
  obtain ⟨⟨si, f1⟩, e4, e5⟩ := Res.bind_eq_ok.1 e3
  obtain ⟨si', _, e4⟩ := Res.bind_eq_ok.1 e4
  cases e4
  dsimp only at e5
  rw [Prog.exec_bind] at e5
  obtain ⟨_, e6, _⟩ := Res.bind_eq_ok.1 e5
  have hp : Rewrite.passInput inp out n.toNat 0 = inp := by unfold Rewrite.passInput; rw [if_neg (by omega)]
  rw [hp] at e6
  unfold Rewrite.pass at e6
  rw [Prog.exec_bind, exec_OsOpen_some hin, Res.ok_bind, Prog.exec_bind, exec_MMapMap] at e6
  dsimp only at e6
  rw [hin] at e6
  dsimp only at e6
  cases e6

/-! ### One block through tagfilter -/

/-- What is left of a block. -/
def kept (ns : List HLNode) (ws : List HLWay) (rs : List HLRelation) : Option Content :=
  if (wantedNodes ns).length > 0 ∨ ws.length > 0 ∨ rs.length > 0 then some (.data (asm (wantedNodes ns) ws rs)) else none

/-- What tagfilter makes of a content (`none`: nothing is written). -/
def filt : Content → Res (Option Content)
  | .other k bs => .ok (some (.other k bs))
  | .data b => b.ToNodes >>= fun ns => b.ToWays >>= fun ws => b.ToRelations >>= fun rs => .ok (kept ns ws rs)

theorem filterWork_filt (inflate : Inflate) (sched : Block → Sched) (hsched : ∀ b, (sched b).pooled.length < 2 ^ 63)
    {b : Block} (hf : b.Data.Fits) (hb31 : b.Data.bytes.length < 2 ^ 31) {c : Content}
    (hc : IsContent inflate (Seen b) c) {x : Rewrite.Out} (hx : TagFilter.filterWork inflate sched b = .ok x) :
    ∃ y, filt c = .ok y ∧ ((y = none ∧ x.1 = TagFilter.filler) ∨
      ∃ c', y = some c' ∧ x.1 ≠ TagFilter.filler ∧ Writable x ∧ IsContent inflate x c') := by
  have hc' := content_has (by omega) hc
  unfold TagFilter.filterWork at hx
  obtain ⟨s, hs, hx⟩ := Res.bind_eq_ok.1 hx
  cases hx
  unfold TagFilter.filterIter at hs
  cases c with
  | other k bs =>
    obtain ⟨h1, h2, h3⟩ := hc'
    rw [if_pos h3] at hs
    cases hs
    refine ⟨_, rfl, .inr ⟨_, rfl, ?_, ?_, hc⟩⟩
    · dsimp only
      cases hk : Seen b with
      | mk k' bs' =>
        rw [hk] at hc
        cases hc
        have : b.Kind = osmHeader := congrArg Prod.fst hk
        rw [this]
        decide
    · refine ⟨.inl ?_, hb31⟩
      cases hk : Seen b with
      | mk k' bs' =>
        rw [hk] at hc
        cases hc
        exact congrArg Prod.fst hk
  | data d =>
    obtain ⟨h1, h2⟩ := hc'
    rw [if_neg (by rw [h1]; simp)] at hs
    obtain ⟨raw, pb, r1, r2, r3⟩ := h2 b.Index b.Data.spare (sched b) hf (hsched b)
    obtain ⟨i, ⟨bs, sp⟩, kd⟩ := b
    dsimp only at h1 r1 hb31
    subst h1
    rw [r1, Res.ok_bind] at hs
    have r2' : ReadPrimitiveBlock TagFilter.reader raw = .ok pb := r2
    have hpb : pb = d := by
      rw [← r3]
      exact (trim_readAll (readBlock_shape _ _ _ r2)).symm
    subst hpb
    rw [r2', Res.ok_bind] at hs
    unfold TagFilter.filterBlock at hs
    obtain ⟨ns, i1, hs⟩ := Res.bind_eq_ok.1 hs
    obtain ⟨ws, i2, hs⟩ := Res.bind_eq_ok.1 hs
    obtain ⟨rs, i3, hs⟩ := Res.bind_eq_ok.1 hs
    obtain ⟨idx, hfn⟩ := TagFilter.filterNodes_eq ns
    rw [hfn, Res.ok_bind] at hs
    unfold TagFilter.send at hs
    have hm : TagsAreMaps (wantedNodes ns) ws rs :=
      ⟨TagFilter.wantedNodes_isMap (toNodes_isMap i1), toWays_isMap i2, toRelations_isMap i3⟩
    have hy : filt (.data pb) = .ok (kept (ns) ws rs) := by
      show (pb.ToNodes >>= fun ns => pb.ToWays >>= fun ws => pb.ToRelations >>= fun rs => Res.ok (kept ns ws rs)) = _
      rw [i1, Res.ok_bind, i2, Res.ok_bind, i3, Res.ok_bind]
    refine ⟨_, hy, ?_⟩
    split at hs
    · next hcond =>
      have hk : kept ns ws rs = some (.data (asm (wantedNodes ns) ws rs)) :=
        if_pos (by simpa [TagFilter.nodesToBuffer] using hcond)
      rw [hk]
      rw [TagFilter.assemble_eq, make_eq _ _ _ hm, Res.ok_bind] at hs
      obtain ⟨blob, hb, hs⟩ := Res.bind_eq_ok.1 hs
      cases hs
      have w2 := (written_reads inflate (asm_shape _ _ _) hb).2
      obtain ⟨q, q1, q2, q3⟩ := write_blob_func Blob.zero (block_embSpec _) hb (by omega)
      refine .inr ⟨_, rfl, ?_, ⟨.inr rfl, w2⟩, .data _ q _ (.inl ⟨_, q3⟩) (write_block (shows_self (asm_shape _ _ _)) q1 (by omega))⟩
      dsimp only
      decide
    · next hcond =>
      have hk : kept ns ws rs = none := if_neg (by simpa [TagFilter.nodesToBuffer] using hcond)
      rw [hk]
      cases hs
      exact .inl ⟨rfl, rfl⟩

theorem filterWorks_filt (inflate : Inflate) (sched : Block → Sched) (hsched : ∀ b, (sched b).pooled.length < 2 ^ 63)
    {bs : List Block} {cs : List Content} (h : Matches (fun b y => IsContent inflate (Seen b) y) bs cs)
    (hf : ∀ b ∈ bs, b.Data.Fits ∧ b.Data.bytes.length < 2 ^ 31 ∧ (b.Kind = osmHeader ∨ b.Kind = osmData)) :
    ∀ {xs : List Rewrite.Out}, mapRes (TagFilter.filterWork inflate sched) bs = .ok xs →
    ∃ ys, mapRes filt cs = .ok ys ∧ Matches (IsContent inflate) (TagFilter.written xs) (ys.filterMap id) ∧
      (∀ x ∈ TagFilter.written xs, Writable x) := by
  induction h with
  | nil => intro xs hx; cases hx; exact ⟨[], rfl, .nil, by simp [TagFilter.written]⟩
  | @cons a c as cs h _ ih =>
    intro xs hx
    unfold mapRes at hx
    obtain ⟨x, e1, hx⟩ := Res.bind_eq_ok.1 hx
    obtain ⟨xs', e2, hx⟩ := Res.bind_eq_ok.1 hx
    cases hx
    obtain ⟨f1, f2, _⟩ := hf a (by simp)
    obtain ⟨y, y1, y2⟩ := filterWork_filt inflate sched hsched f1 f2 h e1
    obtain ⟨ys, z1, z2, z3⟩ := ih (fun b hb => hf b (by simp [hb])) e2
    refine ⟨y :: ys, ?_, ?_⟩
    · unfold mapRes
      rw [y1, z1]
      rfl
    · rcases y2 with ⟨rfl, hk⟩ | ⟨c', rfl, hk, hw, hc'⟩
      · have hw : TagFilter.written (x :: xs') = TagFilter.written xs' := by simp [TagFilter.written, hk]
        rw [hw]
        exact ⟨z2, z3⟩
      · have hw' : TagFilter.written (x :: xs') = x :: TagFilter.written xs' := by simp [TagFilter.written, hk]
        rw [hw']
        refine ⟨Matches.cons hc' z2, fun z hz => ?_⟩
        rcases List.mem_cons.1 hz with rfl | hz
        · exact hw
        · exact z3 z hz

/-- tagfilter, when it ends normally. -/
theorem tagfilter_done (inflate : Inflate) (sched : Block → Sched) (hsched : ∀ b, (sched b).pooled.length < 2 ^ 63)
    {file : List UInt8} {cs : List Content} (hg : Good inflate file cs) (inp out : String) (fs fs' : FS) (fillers : Nat)
    (hin : Holds fs inp file)
    (hx : (Interrupt.tagfilter inflate sched none inp out).exec fs = .ok (fillers, fs')) :
    ∃ ys file', mapRes filt cs = .ok ys ∧ fillers = ys.length - (ys.filterMap id).length ∧ Holds fs' out file' ∧
      IsOsmContents inflate file' (ys.filterMap id) ∧ file'.length < 2 ^ 63 ∧ (ys.filterMap id).length ≤ 2 ^ 31 ∧
      ∀ g, g ≠ out → fs' g = fs g := by
  obtain ⟨bs, h1, h2⟩ := hg.blocks
  obtain ⟨hbne, hb⟩ := Rewrite.split_blocks hg.len h1
  obtain ⟨xs, e1, e2⟩ := Interrupt.process_back none _ inp _ h1 fs hin hx
  obtain ⟨ys, z1, z2, z3⟩ := filterWorks_filt inflate sched hsched h2 hb e1
  obtain ⟨fs3, o1, o2, o3⟩ := TagFilter.output_exec out xs fs
  rw [o1] at e2
  cases e2
  have hlen : ys.length = cs.length := Rewrite.mapRes_len z1
  have hle : (ys.filterMap id).length ≤ 2 ^ 31 := by
    have := List.length_filterMap_le id ys
    have := hg.few
    omega
  obtain ⟨w1, w2⟩ := written_good z2 z3 hle
  refine ⟨ys, _, z1, ?_, o2, w1, w2, hle, o3⟩
  have a1 := Rewrite.each_length z2
  have a2 := Rewrite.mapRes_len e1
  have a3 := Rewrite.each_length h2
  have a4 : (Interrupt.handed none bs).length = bs.length := rfl
  rw [a1, a2, a4, a3, hlen]

/-! ### The two in either order -/

theorem mapRes_pre {α β γ : Type} (f : β → Res γ) (g : α → β) (xs : List α) :
    mapRes f (xs.map g) = mapRes (fun x => f (g x)) xs := by
  induction xs with
  | nil => rfl
  | cons x xs ih =>
    rw [List.map_cons]
    unfold mapRes
    rw [ih]

theorem mapRes_post {α β γ : Type} (f : α → Res β) (h : β → γ) (xs : List α) :
    mapRes (fun x => f x >>= fun y => .ok (h y)) xs = mapRes f xs >>= fun ys => .ok (ys.map h) := by
  induction xs with
  | nil => rfl
  | cons x xs ih =>
    conv => lhs; unfold mapRes
    conv => rhs; unfold mapRes
    rw [ih]
    cases f x with
    | ok y => cases mapRes f xs <;> rfl
    | _ => rfl

/-- The same, for ids as they are in ways that were taken apart. -/
def unsigned (f : Int64 → Int64) (x : UInt64) : UInt64 := (f x.toInt64).toUInt64

theorem mapRefs_string (f : Int64 → Int64) (b : PrimitiveBlock) (i : UInt32) : (mapRefs f b).GetString i = b.GetString i := rfl

theorem mapRefs_tagsGo (f : Int64 → Int64) (b : PrimitiveBlock) : ∀ (ks vs : List UInt32) (t : TagMap),
    PrimitiveBlock.makeTags.go (mapRefs f b) t ks vs = PrimitiveBlock.makeTags.go b t ks vs
  | [], _, _ => rfl
  | k :: ks, vs, t => by
    unfold PrimitiveBlock.makeTags.go
    simp only [mapRefs_string, mapRefs_tagsGo f b ks]

theorem mapRefs_tags (f : Int64 → Int64) (b : PrimitiveBlock) (ks vs : List UInt32) :
    (mapRefs f b).makeTags ks vs = b.makeTags ks vs := mapRefs_tagsGo f b ks vs []

theorem mapRefs_denseNodes (f : Int64 → Int64) (b : PrimitiveBlock) (dn : DenseNodes) : ∀ (ids : List Int64) (c : KVCache) (i : Nat),
    (mapRefs f b).denseNodes dn c i ids = b.denseNodes dn c i ids
  | [], _, _ => rfl
  | id :: ids, c, i => by
    unfold PrimitiveBlock.denseNodes
    simp only [mapRefs_tags, mapRefs_denseNodes f b dn ids]
    rfl

theorem mapRefs_groups (f : Int64 → Int64) (b : PrimitiveBlock) : (mapRefs f b).PrimitiveGroup =
    b.PrimitiveGroup.map fun g => { g with Ways := g.Ways.map fun w => { w with Refs := w.Refs.map f } } := rfl

theorem mapRefs_toNodes (f : Int64 → Int64) (b : PrimitiveBlock) : (mapRefs f b).ToNodes = b.ToNodes := by
  unfold PrimitiveBlock.ToNodes
  rw [mapRefs_groups, mapRes_pre]
  refine congrArg (fun r : Res (List (List HLNode)) => r >>= fun nss => .ok nss.flatten)
    (congrArg (fun h => mapRes h b.PrimitiveGroup) (funext fun g => ?_))
  unfold PrimitiveBlock.groupNodes
  dsimp only
  cases g.Dense with
  | none => rfl
  | some dn => exact mapRefs_denseNodes f b dn _ _ _

theorem mapRefs_toRelations (f : Int64 → Int64) (b : PrimitiveBlock) : (mapRefs f b).ToRelations = b.ToRelations := by
  unfold PrimitiveBlock.ToRelations
  rw [mapRefs_groups, mapRes_pre]
  refine congrArg (fun r : Res (List (List HLRelation)) => r >>= fun nss => .ok nss.flatten)
    (congrArg (fun h => mapRes h b.PrimitiveGroup) (funext fun g => ?_))
  dsimp only
  refine congrArg (fun h => mapRes h g.Relations) (funext fun r => ?_)
  unfold PrimitiveBlock.toHLRelation
  simp only [mapRefs_tags, mapRefs_string]

/-- A way with its nodes changed. -/
def mapNodes (f : Int64 → Int64) (w : HLWay) : HLWay := { w with Nodes := w.Nodes.map (unsigned f) }

theorem mapRefs_toWays (f : Int64 → Int64) (b : PrimitiveBlock) :
    (mapRefs f b).ToWays = b.ToWays >>= fun ws => .ok (ws.map (mapNodes f)) := by
  unfold PrimitiveBlock.ToWays
  rw [mapRefs_groups, mapRes_pre]
  have h : (fun g : T.PrimitiveGroup => mapRes (mapRefs f b).toHLWay (g.Ways.map fun w => { w with Refs := w.Refs.map f })) =
      fun g => mapRes b.toHLWay g.Ways >>= fun ws => .ok (ws.map (mapNodes f)) := by
    funext g
    rw [mapRes_pre, ← mapRes_post]
    refine congrArg (fun h => mapRes h g.Ways) (funext fun w => ?_)
    unfold PrimitiveBlock.toHLWay
    dsimp only
    rw [mapRefs_tags]
    cases b.makeTags w.Keys w.Vals with
    | ok t =>
      simp only [Res.ok_bind, mapNodes, List.map_map]
      congr 3
    | _ => rfl
  dsimp only
  rw [h, mapRes_post]
  cases mapRes (fun g : T.PrimitiveGroup => mapRes b.toHLWay g.Ways) b.PrimitiveGroup with
  | ok wss => simp only [Res.ok_bind, List.map_flatten]
  | _ => rfl

theorem mapRefs_asm (f : Int64 → Int64) (ns : List HLNode) (ws : List HLWay) (rs : List HLRelation) :
    asm ns (ws.map (mapNodes f)) rs = mapRefs f (asm ns ws rs) := by
  have hs : blockStrings ns (ws.map (mapNodes f)) rs = blockStrings ns ws rs := by
    unfold blockStrings
    rw [List.flatMap_map]
    rfl
  unfold asm
  rw [hs]
  unfold mapRefs
  dsimp only
  rw [List.map_append, List.map_append]
  have h1 : ∀ xs, (gNodes xs ns).map (fun g => { g with Ways := g.Ways.map fun w => { w with Refs := w.Refs.map f } }) = gNodes xs ns := by
    intro xs
    unfold gNodes
    split <;> rfl
  have h2 : ∀ xs, (gRels xs rs).map (fun g => { g with Ways := g.Ways.map fun w => { w with Refs := w.Refs.map f } }) = gRels xs rs := by
    intro xs
    unfold gRels
    split <;> rfl
  have h3 : ∀ xs, (gWays xs ws).map (fun g => { g with Ways := g.Ways.map fun w => { w with Refs := w.Refs.map f } }) =
      gWays xs (ws.map (mapNodes f)) := by
    intro xs
    unfold gWays
    rw [List.length_map]
    split
    · simp only [List.map_cons, List.map_nil, List.map_map]
      congr 3
      funext w
      simp [wayOf, mapNodes, unsigned]
    · rfl
  rw [h1, h2, h3]

theorem filt_mapRefs (f : Int64 → Int64) (c : Content) :
    filt (c.mapRefs f) = filt c >>= fun y => .ok (y.map (·.mapRefs f)) := by
  cases c with
  | other k bs => rfl
  | data b =>
    show ((mapRefs f b).ToNodes >>= fun ns => (mapRefs f b).ToWays >>= fun ws => (mapRefs f b).ToRelations >>= fun rs =>
        Res.ok (kept ns ws rs)) =
      (b.ToNodes >>= fun ns => b.ToWays >>= fun ws => b.ToRelations >>= fun rs => Res.ok (kept ns ws rs)) >>= _
    rw [mapRefs_toNodes, mapRefs_toWays, mapRefs_toRelations]
    cases b.ToNodes with
    | ok ns =>
      cases b.ToWays with
      | ok ws =>
        cases b.ToRelations with
        | ok rs =>
          show Res.ok _ = Res.ok _
          unfold kept
          rw [List.length_map, mapRefs_asm]
          split <;> rfl
        | _ => rfl
      | _ => rfl
    | _ => rfl

theorem left_mapRefs (f : Int64 → Int64) (ys : List (Option Content)) :
    (ys.map fun y => y.map (·.mapRefs f)).filterMap id = (ys.filterMap id).map (·.mapRefs f) := by
  induction ys with
  | nil => rfl
  | cons y ys ih =>
    cases y with
    | none => exact ih
    | some c => exact congrArg (c.mapRefs f :: ·) ih

theorem filts_mapRefs (f : Int64 → Int64) (cs : List Content) {ys : List (Option Content)} (h : mapRes filt cs = .ok ys) :
    mapRes filt (cs.map (·.mapRefs f)) = .ok (ys.map fun y => y.map (·.mapRefs f)) := by
  rw [mapRes_pre]
  have : (fun c => filt (Content.mapRefs f c)) = fun c => filt c >>= fun y => .ok (y.map (·.mapRefs f)) :=
    funext (filt_mapRefs f)
  rw [this, mapRes_post, h]
  rfl

end Osm.Format
