import Verif.Lemmas.RewritePasses
import Verif.Lemmas.NodeOutput
import Verif.Props.NodeIndex

/-! # Rewriting refs to locations (C46–C48) -/

namespace Osm.Props
open Osm Osm.Pb Osm.T Osm.Pbf Osm.Spec Osm.NodeIndex Osm.Rewrite

/-! ## C46 -/

/-- C46: what becomes of a ref, in terms of the locations the index holds: a non-negative ref whose id has a location
becomes that location; every other ref stays. -/
theorem C46_locate {es : List IndexElement} {locs : List Int64} (wf : WellFormed es locs) (r : Int64) :
    (∀ l, 0 ≤ r.toInt → HasLoc es locs r.toInt.toNat l → locate es locs r = l) ∧
    ((∀ l, ¬ HasLoc es locs r.toInt.toNat l) → locate es locs r = r) ∧
    (r.toInt < 0 → locate es locs r = r) := by
  refine ⟨fun l h hl => ?_, fun h => ?_, fun h => ?_⟩
  · unfold locate
    rw [if_pos (by rw [Int64.le_iff_toInt_le]; simpa using h)]
    cases hk : knownLoc es locs r.toInt.toNat with
    | none => exact absurd hl (knownLoc_none hk l)
    | some l' => exact hasLoc_unique wf (knownLoc_some hk) hl
  · unfold locate
    split
    · cases hk : knownLoc es locs r.toInt.toNat with
      | none => rfl
      | some l' => exact absurd (knownLoc_some hk) (h l')
    · rfl
  · exact locate_neg (by rw [Int64.lt_iff_toInt_lt]; simpa using h)

/-- C46: rewriting the refs of a way. -/
theorem C46_refs {si : SubIdx} (hw : WellFormedSub si) (hint : Int) (hh : 0 ≤ hint) (rs : List Int64) :
    ∃ rs' hint', rewriteRefs si hint rs = .ok (rs', hint') ∧ rs'.length = rs.length ∧
      ∀ (i : Nat) r, rs[i]? = some r → rs'[i]? = some (locate si.element si.locations r) := by
  obtain ⟨hint', _, h⟩ := rewriteRefs_eq hw rs hint hh
  refine ⟨_, hint', h, by simp, fun i r hr => ?_⟩
  rw [List.getElem?_map, hr]
  rfl

/-- C46: whatever the schedule and the number of workers, a completed run delivers what the workers make of the blocks,
in file order; so the writer does what `pass` does. -/
theorem C46_any_schedule (inflate : Inflate) (sched : Block → Sched) (si : SubIdx) (file : List UInt8)
    (hl : file.length < 2 ^ 63) (W : Nat) (got : List Out) (hd : Delivers (rewriteCfg inflate sched si file) W got)
    (inp out : String) (fs : FS) (hin : Holds fs inp file) :
    (pass inflate sched si inp out).exec fs = (output out got).exec fs := by
  obtain ⟨s, hr, hdn, hc, rfl⟩ := hd
  obtain ⟨bs, e1, e2, _⟩ := C55_in_order _ hl rfl W s hr hdn hc
  obtain ⟨pos, hin⟩ := hin
  have e1 : split file = .ok bs := e1
  have e2 : mapRes (rewriteWork inflate sched si) bs = .ok s.got := e2
  unfold pass
  rw [Prog.exec_bind, exec_OsOpen_some hin, Res.ok_bind, Prog.exec_bind, exec_MMapMap]
  dsimp only
  rw [hin]
  dsimp only
  have hne : file ≠ [] := ((split_iff file hl bs).1 e1).1
  rw [if_neg hne, Res.ok_bind, Prog.exec_bind, Prog.exec_lift, e1, Res.ok_bind, Res.ok_bind, Prog.exec_bind, Prog.exec_lift,
    e2, Res.ok_bind, Res.ok_bind]

/-- C46: one pass over a file, with any number of workers, any schedule and any chunking of zlib: the file written
has the same blocks in the same order, with everything in them as it was except that every ref which the
sub-index resolves is replaced by its location. -/
theorem C46_file (inflate : Inflate) (sched : Block → Sched) (hsched : ∀ b, (sched b).pooled.length < 2 ^ 63)
    {si : SubIdx} (hw : WellFormedSub si) (file : List UInt8) (hl : file.length < 2 ^ 63) (cs : List Content)
    (hc : FileHas inflate waysDecoded file cs) (W : Nat) (got : List Out)
    (hd : Delivers (rewriteCfg inflate sched si file) W got) (out : String) (fs : FS) :
    ∃ fs' file', (output out got).exec fs = .ok ((), fs') ∧ Holds fs' out file' ∧
      (file'.length < 2 ^ 63 →
        FileHas inflate waysDecoded file' (cs.map (·.mapRefs (locate si.element si.locations)))) ∧
      ∀ g, g ≠ out → fs' g = fs g := by
  obtain ⟨fs', h1, h2, h3⟩ := output_exec out got fs
  refine ⟨fs', _, h1, h2, fun hlen => ?_, h3⟩
  obtain ⟨s, hr, hdn, hcc, rfl⟩ := hd
  obtain ⟨bs, e1, e2, _⟩ := C55_in_order _ hl rfl W s hr hdn hcc
  have e1 : split file = .ok bs := e1
  have e2 : mapRes (rewriteWork inflate sched si) bs = .ok s.got := e2
  obtain ⟨bs', b1, b2⟩ := hc
  rw [e1] at b1
  cases b1
  obtain ⟨hbne, hb⟩ := split_blocks hl e1
  obtain ⟨m1, m2⟩ := works_content inflate sched hsched hw bs cs _ hb b2 e2
  refine fileOf_has inflate reader ?_ m1 hlen m2
  intro h0
  have := mapRes_len e2
  rw [h0] at this
  exact hbne (List.length_eq_zero_iff.1 this.symm)

/-- C46: if every way fits the writer's 16384 byte buffer whatever its refs are replaced by (see `Small`), no schedule
panics, and with at least one worker every run can be completed from every state. -/
theorem C46_completes (inflate : Inflate) (sched : Block → Sched) (hsched : ∀ b, (sched b).pooled.length < 2 ^ 63)
    {si : SubIdx} (hw : WellFormedSub si) (file : List UInt8) (hl : file.length < 2 ^ 63) (cs : List Content)
    (hc : FileHas inflate waysDecoded file cs) (hsm : SmallFile cs) (W : Nat) :
    (∀ s, Reachable (rewriteCfg inflate sched si file) W s → s.crashed = false) ∧
    (0 < W → (∀ s, Reachable (rewriteCfg inflate sched si file) W s →
        ∃ n s', Steps (rewriteCfg inflate sched si file) n s s' ∧ s'.cancelled = s.cancelled ∧ s'.main = .done) ∧
      ∃ got, Delivers (rewriteCfg inflate sched si file) W got) := by
  obtain ⟨bs, b1, b2⟩ := hc
  refine clean_run (c := rewriteCfg inflate sched si file) hl b1 (fun b hb => ?_) (fun _ => rfl) (fun _ => rfl) W
  obtain ⟨c, hc', hcc⟩ := matches_mem b2 b hb
  exact work_small inflate sched hsched hw ((split_blocks hl b1).2 b hb).1 hcc (by rintro d rfl; exact hsm.1 d hc')

theorem optConcat_none {α : Type} {f : α → Option (List UInt8)} : ∀ {xs : List α} {x : α}, x ∈ xs → f x = none →
    optConcat f xs = none
  | y :: ys, x, h, hx => by
    unfold optConcat
    rcases List.mem_cons.1 h with rfl | h
    · rw [hx]; rfl
    · rw [optConcat_none h hx]
      cases f y <;> rfl

theorem optApp_none (a : Option (List UInt8)) : optApp a none = none := by cases a <;> rfl

/-- C46: the room is needed: a way whose refs, once replaced, take 16384 bytes or more makes the worker panic. -/
theorem C46_large_way {si : SubIdx} (hw : WellFormedSub si) (pb : PrimitiveBlock) (g : T.PrimitiveGroup)
    (hg : g ∈ pb.PrimitiveGroup) (w : Way) (hwg : w ∈ g.Ways)
    (hbig : 16384 ≤ (Pb.EncodeS64PackedDeltaFunc (w.Refs.map (locate si.element si.locations)) []).length) :
    rewriteBlock si pb = .panic := by
  rw [rewriteBlock_eq hw]
  let f := locate si.element si.locations
  let w' : Way := { w with Refs := w.Refs.map f }
  let g' : T.PrimitiveGroup := { g with Ways := g.Ways.map fun w => { w with Refs := w.Refs.map f } }
  have hw' : w' ∈ g'.Ways := List.mem_map_of_mem hwg
  have hg' : g' ∈ (mapRefs f pb).PrimitiveGroup := List.mem_map_of_mem hg
  have h1 : wayBytes w' = none := by
    have hd := embSpec_delta w'.Refs []
    have : Pb.EncodeS64PackedDeltaFunc w'.Refs [] = Pb.deltaVarints 0 w'.Refs := by
      simpa [total, appendRes] using hd
    unfold wayBytes
    rw [show optField Pb.fix2 16384 8 (some (Pb.deltaVarints 0 w'.Refs)) = none from if_neg (by
      rw [← this]; exact Nat.not_lt.2 hbig), optApp_none, optApp_none, optApp_none]
  have h2 : groupBytes g' = none := by
    unfold groupBytes
    rw [if_pos (List.ne_nil_of_mem hw'), optConcat_none hw' (by rw [h1]; rfl)]
    show optApp _ none = none
    exact optApp_none _
  have h3 : blockBytes (mapRefs f pb) = none := by
    unfold blockBytes
    rw [optConcat_none hg' (by rw [h2]; rfl)]
    exact optApp_none _
  unfold Blob.Write Blob.writeRaw
  dsimp only
  rw [embSpec_embed268435456 (block_embSpec _) 1 [], h3]
  rfl

theorem alternating (k : Nat) : (deltaVarints 6 (List.replicate k [-4611686018427387904, 6]).flatten).length = 20 * k := by
  induction k with
  | zero => rfl
  | succ k ih =>
    rw [List.replicate_succ, List.flatten_cons]
    simp only [List.cons_append, List.nil_append, deltaVarints, List.length_append]
    rw [ih, show (EncodeZigZag ((-4611686018427387904 : Int64) - 6)).toNat = 9223372036854775819 by decide +kernel,
      show (EncodeZigZag ((6 : Int64) - -4611686018427387904)).toNat = 9223372036854775820 by decide +kernel]
    simp [leb128]
    omega

/-- A way of 2000 refs of which every other one is known does. -/
example : ∃ si : SubIdx, WellFormedSub si ∧ ∃ refs : List Int64, refs.length = 2000 ∧
    16384 ≤ (Pb.EncodeS64PackedDeltaFunc (refs.map (locate si.element si.locations)) []).length := by
  refine ⟨⟨[⟨5, 1⟩], [-4611686018427387904], 5⟩, ⟨⟨by decide, by decide, by decide, by decide⟩, by unfold TopCovers; decide⟩,
    (List.replicate 1000 [5, 6]).flatten, by rw [List.length_flatten, List.map_replicate, List.sum_replicate_nat]; rfl, ?_⟩
  have h : List.map (locate [⟨5, 1⟩] [-4611686018427387904]) (List.replicate 1000 [5, 6]).flatten =
      [-4611686018427387904, 6] ++ (List.replicate 999 [-4611686018427387904, 6]).flatten := by
    rw [List.map_flatten, List.map_replicate, ← List.flatten_cons, ← List.replicate_succ]
    congr 2
  dsimp only
  rw [h]
  unfold EncodeS64PackedDeltaFunc
  rw [encodeDeltas_eq]
  simp only [List.cons_append, List.nil_append, deltaVarints, List.length_append, alternating]
  omega

/-! ## C47, C48 -/

theorem subs_of {ix : NodeIdx} (wf : WellFormed ix.elements ix.locations) {n : Nat} {subs : List SubIdx}
    (h : mapRes (fun p => ix.SubIndex (UInt64.ofNat p) (UInt64.ofNat n)) (List.range n) = .ok subs) :
    subs.length = n ∧ ∀ (p : Nat) si, subs[p]? = some si → ix.SubIndex (UInt64.ofNat p) (UInt64.ofNat n) = .ok si ∧
      WellFormedSub si ∧ si.locations = ix.locations := by
  have hlen : subs.length = n := by rw [Pbf.mapRes_length h, List.length_range]
  refine ⟨hlen, fun p si hp => ?_⟩
  have hlt : p < n := by
    obtain ⟨h1, _⟩ := List.getElem?_eq_some_iff.1 hp
    omega
  have key : ix.SubIndex (UInt64.ofNat p) (UInt64.ofNat n) = .ok si := by
    have := mapRes_get h p p (by simp [hlt])
    obtain ⟨y, y1, y2⟩ := this
    rw [hp] at y1
    cases y1
    exact y2
  obtain ⟨a, b, _⟩ := subIndex_wf ix wf _ _ si key
  exact ⟨key, a, b⟩

/-- The whole command, for whatever a pass makes (`Hout`) of what it needs (`Hin`). -/
theorem rewritenodes_gen (inflate : Inflate) (scheds : Nat → Block → Sched) {ix : NodeIdx} (wf : WellFormed ix.elements ix.locations)
    (hneg : NegativeLocs ix.locations) (memory : Option UInt64) (n : UInt64) (hn : passCount ix memory = .ok n)
    (hn0 : n ≠ 0) {subs : List SubIdx}
    (hsubs : mapRes (fun p => ix.SubIndex (UInt64.ofNat p) n) (List.range n.toNat) = .ok subs)
    (Hin Hout : List UInt8 → List Content → Prop) (hio : ∀ f cs, Hout f cs → Hin f cs)
    (hpass : ∀ (p : Nat) si, subs[p]? = some si → WellFormedSub si → si.locations = ix.locations →
      ∀ (file : List UInt8) (cs : List Content) (inp out : String) (fs : FS),
      file.length < 2 ^ 63 → Hin file cs → SmallFile cs → Holds fs inp file →
      ∃ fs' file', (pass inflate (scheds p) si inp out).exec fs = .ok ((), fs') ∧ Holds fs' out file' ∧ file'.length < 2 ^ 63 ∧
        Hout file' (cs.map (·.mapRefs (locate si.element si.locations))) ∧ ∀ g, g ≠ out → fs' g = fs g)
    (inp index out : String)
    {cs : List Content} {file ixFile : List UInt8} (hl : file.length < 2 ^ 63) (hc : Hin file cs)
    (hsm : SmallFile cs) (fs : FS) (hin : Holds fs inp file) (hix : Holds fs index ixFile)
    (hload : NewNodeIndex ixFile = .ok ix) :
    ∃ fs' file', (rewritenodes inflate scheds memory inp index out).exec fs = .ok ((), fs') ∧ Holds fs' out file' ∧
      file'.length < 2 ^ 63 ∧
      Hout file' (cs.map (·.mapRefs (locate (subs.flatMap (·.element)) ix.locations))) ∧
      (∀ p, 1 ≤ p → p < n.toNat → fs' (RelIndex.makePassFilename out p n.toNat) = none) ∧
      ∀ g, g ≠ out → (∀ p, 1 ≤ p → p < n.toNat → g ≠ RelIndex.makePassFilename out p n.toNat) → fs' g = fs g := by
  have hne : ∀ p q, p ≠ q → RelIndex.makePassFilename out p n.toNat ≠ RelIndex.makePassFilename out q n.toNat :=
    fun p q h he => h (RelIndex.pass_inj he)
  have hnn : UInt64.ofNat n.toNat = n := UInt64.ofNat_toNat
  obtain ⟨s1, s2⟩ := subs_of wf (n := n.toNat) (subs := subs) (by rw [hnn]; exact hsubs)
  have hpos : n.toNat ≠ 0 := fun h => hn0 (UInt64.toNat_inj.1 (by simpa using h))
  obtain ⟨left, hleft⟩ : ∃ k, n.toNat = k + 1 := ⟨n.toNat - 1, by omega⟩
  obtain ⟨fs1, file', e1, e2, e3, e4, e5, e6, e7⟩ := runPasses_gen inflate scheds hneg inp out subs s1 s2 Hin Hout hio
    (fun p si hp => hpass p si hp (s2 p si hp).2.1 (s2 p si hp).2.2) left 0 fs
    file cs (by omega) (by unfold passInput; rw [if_neg (by omega)]; exact hin) hl hc hsm
  obtain ⟨pos, hix⟩ := hix
  have hixne : ixFile ≠ [] := by
    rintro rfl
    cases hload
  have start : (rewritenodes inflate scheds memory inp index out).exec fs = (removeLast out n.toNat).exec fs1 := by
    unfold rewritenodes
    rw [Prog.exec_bind, exec_OsOpen_some hix, Res.ok_bind, Prog.exec_bind, exec_MMapMap]
    dsimp only
    rw [hix]
    dsimp only
    rw [if_neg hixne, Res.ok_bind, Prog.exec_bind, Prog.exec_lift, hload, Res.ok_bind, Res.ok_bind, Prog.exec_bind,
      Prog.exec_lift, hn, Res.ok_bind, Res.ok_bind, Prog.exec_bind]
    dsimp only
    rw [← hleft] at e1
    rw [e1, Res.ok_bind]
  by_cases h1 : 1 < n.toNat
  · obtain ⟨x, hx⟩ := e6 h1
    refine ⟨(FsOp.remove (RelIndex.makePassFilename out (n.toNat - 1) n.toNat)).run fs1, file', ?_, ?_, e3, ?_, ?_, ?_⟩
    · rw [start]
      unfold removeLast OsRemove
      rw [if_pos h1, Prog.exec_bind, exec_OsOpen_some hx, Res.ok_bind, Prog.exec_emit]
    · obtain ⟨p, e2⟩ := e2
      refine ⟨p, ?_⟩
      rw [← e2]
      exact set_other _ _ (RelIndex.pass_ne_out _ _ _).symm
    · rw [List.drop_zero] at e4
      exact e4
    · intro p p1 p2
      by_cases hp : p = n.toNat - 1
      · subst hp
        exact set_same _ _ _
      · rw [← e5 p p1 (by omega) (by omega)]
        exact set_other _ _ (hne _ _ hp)
    · intro g g1 g2
      rw [← e7 g g1 fun p p1 _ p2 => g2 p p1 p2]
      exact set_other _ _ (g2 _ (by omega) (by omega))
  · refine ⟨fs1, file', ?_, e2, e3, ?_, fun p p1 p2 => by omega, fun g g1 g2 => e7 g g1 fun p p1 _ p2 => g2 p p1 p2⟩
    · rw [start]
      unfold removeLast
      rw [if_neg h1]
      rfl
    · rw [List.drop_zero] at e4
      exact e4

/-- C47, C48: the whole command, with the number of passes computed from the memory target: it succeeds; the output is
the input with the refs replaced by the locations held in the ranges which the passes cover; no pass file remains;
nothing else has changed. -/
theorem rewritenodes_ok (inflate : Inflate) (scheds : Nat → Block → Sched)
    (hsched : ∀ i b, (scheds i b).pooled.length < 2 ^ 63) {ix : NodeIdx} (wf : WellFormed ix.elements ix.locations)
    (hneg : NegativeLocs ix.locations) (memory : Option UInt64) (n : UInt64) (hn : passCount ix memory = .ok n)
    (hn0 : n ≠ 0) {subs : List SubIdx}
    (hsubs : mapRes (fun p => ix.SubIndex (UInt64.ofNat p) n) (List.range n.toNat) = .ok subs)
    (inp index out : String)
    {cs : List Content} {file ixFile : List UInt8} (hl : file.length < 2 ^ 63) (hc : FileHas inflate waysDecoded file cs)
    (hsm : SmallFile cs) (fs : FS) (hin : Holds fs inp file) (hix : Holds fs index ixFile)
    (hload : NewNodeIndex ixFile = .ok ix) :
    ∃ fs' file', (rewritenodes inflate scheds memory inp index out).exec fs = .ok ((), fs') ∧ Holds fs' out file' ∧
      file'.length < 2 ^ 63 ∧
      FileHas inflate waysDecoded file' (cs.map (·.mapRefs (locate (subs.flatMap (·.element)) ix.locations))) ∧
      (∀ p, 1 ≤ p → p < n.toNat → fs' (RelIndex.makePassFilename out p n.toNat) = none) ∧
      ∀ g, g ≠ out → (∀ p, 1 ≤ p → p < n.toNat → g ≠ RelIndex.makePassFilename out p n.toNat) → fs' g = fs g :=
  rewritenodes_gen inflate scheds wf hneg memory n hn hn0 hsubs (FileHas inflate waysDecoded) (FileHas inflate waysDecoded)
    (fun _ _ h => h) (fun p _ _ hw _ _ _ inp' out' fs hl hc hsm hin =>
      pass_ok inflate (scheds p) (hsched p) hw hl hc hsm inp' out' fs hin) inp index out hl hc hsm fs hin hix hload

/-- The files of a run are different files: the input and the index are neither the output nor a pass file. -/
def Distinct (inp index out : String) (n : Nat) : Prop :=
  inp ≠ out ∧ index ≠ out ∧
  ∀ p, 1 ≤ p → p < n → inp ≠ RelIndex.makePassFilename out p n ∧ index ≠ RelIndex.makePassFilename out p n

/-- C47, in exact terms: with any number of passes, the refs that get located are those in the ranges which the passes
cover. -/
theorem C47_exact (inflate : Inflate) (scheds : Nat → Block → Sched)
    (hsched : ∀ i b, (scheds i b).pooled.length < 2 ^ 63) {ix : NodeIdx} (wf : WellFormed ix.elements ix.locations)
    (hneg : NegativeLocs ix.locations) (memory : Option UInt64) (n : UInt64) (hn : passCount ix memory = .ok n)
    (hn0 : n ≠ 0) {subs : List SubIdx}
    (hsubs : mapRes (fun p => ix.SubIndex (UInt64.ofNat p) n) (List.range n.toNat) = .ok subs)
    (inp index out : String) (_ : Distinct inp index out n.toNat)
    {cs : List Content} {file ixFile : List UInt8} (hl : file.length < 2 ^ 63) (hc : FileHas inflate waysDecoded file cs)
    (hsm : SmallFile cs) (fs : FS) (hin : Holds fs inp file) (hix : Holds fs index ixFile)
    (hload : NewNodeIndex ixFile = .ok ix) :
    ∃ fs' file', (rewritenodes inflate scheds memory inp index out).exec fs = .ok ((), fs') ∧ Holds fs' out file' ∧
      FileHas inflate waysDecoded file' (cs.map (·.mapRefs (locate (subs.flatMap (·.element)) ix.locations))) := by
  obtain ⟨fs', file', h1, h2, _, h3, _⟩ := rewritenodes_ok inflate scheds hsched wf hneg memory n hn hn0 hsubs inp index out
    hl hc hsm fs hin hix hload
  exact ⟨fs', file', h1, h2, h3⟩

/-- C47, as far as it holds: if the passes cover the index (C31 says exactly when), the output has the same content
whatever their number: each ref which the whole index resolves is replaced by its location. -/
theorem C47_passes_agree_partial (inflate : Inflate) (scheds : Nat → Block → Sched)
    (hsched : ∀ i b, (scheds i b).pooled.length < 2 ^ 63) {ix : NodeIdx} (wf : WellFormed ix.elements ix.locations)
    (hneg : NegativeLocs ix.locations) (memory : Option UInt64) (n : UInt64) (hn : passCount ix memory = .ok n)
    (hn0 : n ≠ 0) (hcover : PassesCover ix n.toNat)
    (inp index out : String) (hdist : Distinct inp index out n.toNat)
    {cs : List Content} {file ixFile : List UInt8} (hl : file.length < 2 ^ 63) (hc : FileHas inflate waysDecoded file cs)
    (hsm : SmallFile cs) (fs : FS) (hin : Holds fs inp file) (hix : Holds fs index ixFile)
    (hload : NewNodeIndex ixFile = .ok ix) :
    ∃ fs' file', (rewritenodes inflate scheds memory inp index out).exec fs = .ok ((), fs') ∧ Holds fs' out file' ∧
      FileHas inflate waysDecoded file' (cs.map (·.mapRefs (locate ix.elements ix.locations))) := by
  obtain ⟨subs, h1, h2⟩ := hcover
  rw [UInt64.ofNat_toNat] at h1
  rw [← h2]
  exact C47_exact inflate scheds hsched wf hneg memory n hn hn0 h1 inp index out hdist hl hc hsm fs hin hix hload

/-- C47: without a memory target there is one pass, and it covers the index. -/
theorem C47_single_pass (inflate : Inflate) (scheds : Nat → Block → Sched)
    (hsched : ∀ i b, (scheds i b).pooled.length < 2 ^ 63) {ix : NodeIdx} (wf : WellFormed ix.elements ix.locations)
    (hcomplete : Complete ix) (hL : ix.locations.length < 2 ^ 63) (hne : ix.elements ≠ [])
    (hneg : NegativeLocs ix.locations)
    (inp index out : String) (hdist : inp ≠ out ∧ index ≠ out)
    {cs : List Content} {file ixFile : List UInt8} (hl : file.length < 2 ^ 63) (hc : FileHas inflate waysDecoded file cs)
    (hsm : SmallFile cs) (fs : FS) (hin : Holds fs inp file) (hix : Holds fs index ixFile)
    (hload : NewNodeIndex ixFile = .ok ix) :
    ∃ fs' file', (rewritenodes inflate scheds none inp index out).exec fs = .ok ((), fs') ∧ Holds fs' out file' ∧
      FileHas inflate waysDecoded file' (cs.map (·.mapRefs (locate ix.elements ix.locations))) :=
  C47_passes_agree_partial inflate scheds hsched wf hneg none 1 rfl (by decide) (C31_single_pass ix wf hcomplete hL hne)
    inp index out ⟨hdist.1, hdist.2, fun p h1 h2 => absurd h2 (by rw [show (1 : UInt64).toNat = 1 from rfl]; omega)⟩
    hl hc hsm fs hin hix hload

/-- C48: a run on a well-formed index and file succeeds (so no pass misses its input), leaves none of its pass files and
changes nothing but the output. -/
theorem C48_cleaned_up (inflate : Inflate) (scheds : Nat → Block → Sched)
    (hsched : ∀ i b, (scheds i b).pooled.length < 2 ^ 63) {ix : NodeIdx} (wf : WellFormed ix.elements ix.locations)
    (hneg : NegativeLocs ix.locations) (memory : Option UInt64) (n : UInt64) (hn : passCount ix memory = .ok n)
    (hn0 : n ≠ 0) {subs : List SubIdx}
    (hsubs : mapRes (fun p => ix.SubIndex (UInt64.ofNat p) n) (List.range n.toNat) = .ok subs)
    (inp index out : String) (_ : Distinct inp index out n.toNat)
    {cs : List Content} {file ixFile : List UInt8} (hl : file.length < 2 ^ 63) (hc : FileHas inflate waysDecoded file cs)
    (hsm : SmallFile cs) (fs : FS) (hin : Holds fs inp file) (hix : Holds fs index ixFile)
    (hload : NewNodeIndex ixFile = .ok ix) :
    ∃ fs', (rewritenodes inflate scheds memory inp index out).exec fs = .ok ((), fs') ∧ (∃ file', Holds fs' out file') ∧
      (∀ p, 1 ≤ p → p < n.toNat → fs' (RelIndex.makePassFilename out p n.toNat) = none) ∧
      ∀ g, g ≠ out → (∀ p, 1 ≤ p → p < n.toNat → g ≠ RelIndex.makePassFilename out p n.toNat) → fs' g = fs g := by
  obtain ⟨fs', file', h1, h2, _, _, h3, h4⟩ := rewritenodes_ok inflate scheds hsched wf hneg memory n hn hn0 hsubs inp index
    out hl hc hsm fs hin hix hload
  exact ⟨fs', h1, ⟨file', h2⟩, h3, h4⟩

/-- C48: and so does every run that completes, whatever its input and index. -/
theorem C48_any_run (inflate : Inflate) (scheds : Nat → Block → Sched) (memory : Option UInt64) (inp index out : String)
    (fs fs' : FS) (h : (rewritenodes inflate scheds memory inp index out).exec fs = .ok ((), fs')) :
    ∃ ixFile ix n, Holds fs index ixFile ∧ NewNodeIndex ixFile = .ok ix ∧ passCount ix memory = .ok n ∧
      (∀ p, 1 ≤ p → p < n.toNat → fs' (RelIndex.makePassFilename out p n.toNat) = none) ∧
      ∀ g, g ≠ out → (∀ p, 1 ≤ p → p < n.toNat → g ≠ RelIndex.makePassFilename out p n.toNat) → fs' g = fs g := by
  unfold rewritenodes at h
  rw [Prog.exec_bind] at h
  obtain ⟨⟨_, fs1⟩, h1, h⟩ := Res.bind_eq_ok.1 h
  have e1 := RelIndex.only_OsOpen "" index fs _ h1
  dsimp only at e1 h
  rw [e1] at h
  clear e1 h1
  rw [Prog.exec_bind, exec_MMapMap] at h
  obtain ⟨⟨m, fs2⟩, h2, h⟩ := Res.bind_eq_ok.1 h
  cases hm : fs index with
  | none => rw [hm] at h2; cases h2
  | some x =>
    rw [hm] at h2
    dsimp only at h2
    split at h2
    · cases h2
    cases h2
    rw [Prog.exec_bind, Prog.exec_lift] at h
    obtain ⟨r3, h3, h⟩ := Res.bind_eq_ok.1 h
    obtain ⟨ix, hload, h3⟩ := Res.bind_eq_ok.1 h3
    cases h3
    rw [Prog.exec_bind, Prog.exec_lift] at h
    obtain ⟨r4, h4, h⟩ := Res.bind_eq_ok.1 h
    obtain ⟨n, hn, h4⟩ := Res.bind_eq_ok.1 h4
    cases h4
    rw [Prog.exec_bind] at h
    obtain ⟨⟨_, fs5⟩, h5, h⟩ := Res.bind_eq_ok.1 h
    dsimp only at h5 h
    refine ⟨x.data, ix, n, ⟨x.pos, hm⟩, hload, hn, ?_⟩
    obtain ⟨c1, c2⟩ := runPasses_only inflate scheds ix inp out n.toNat n.toNat 0 _ _ (by omega) h5
    have hne : ∀ p q, p ≠ q → RelIndex.makePassFilename out p n.toNat ≠ RelIndex.makePassFilename out q n.toNat :=
      fun p q h he => h (RelIndex.pass_inj he)
    unfold removeLast at h
    split at h
    · next h1n =>
      unfold OsRemove at h
      rw [Prog.exec_bind] at h
      obtain ⟨⟨_, fs6⟩, h6, h⟩ := Res.bind_eq_ok.1 h
      have e6 := RelIndex.only_OsOpen "" _ _ _ h6
      dsimp only at e6 h
      rw [e6] at h
      clear e6 h6
      rw [Prog.exec_emit] at h
      cases h
      constructor
      · intro p p1 p2
        by_cases hp : p = n.toNat - 1
        · subst hp
          exact set_same _ _ _
        · rw [← c1 p p1 (by omega) (by omega) (by omega)]
          exact set_other _ _ (hne _ _ hp)
      · intro g g1 g2
        rw [← c2 g g1 fun p p1 _ p2 => g2 p p1 p2]
        exact set_other _ _ (g2 _ (by omega) (by omega))
    · cases h
      exact ⟨fun p p1 p2 => by omega, fun g g1 g2 => c2 g g1 fun p p1 _ p2 => g2 p p1 p2⟩

/-! ## Examples -/

/-- A block with a string table, a relation (both kept raw) and a way with three refs. -/
def refsBlock (refs : List Int64) : PrimitiveBlock :=
  ⟨some ⟨[10, 1, 97], []⟩, none, [⟨none, none, [⟨7, [1], [1], refs⟩], [], [], [⟨[8, 9], []⟩]⟩], 100, 1000, 0, 0⟩

/-- A file with a header and that block. -/
theorem refsFile (inflate : Inflate) : ∃ file : List UInt8, file.length < 2 ^ 63 ∧
    FileHas inflate waysDecoded file [.other osmHeader [1, 2, 3], .data (refsBlock [1, 200000, -4])] := by
  have hs : BlockShape reader (refsBlock [1, 200000, -4]) := by
    refine ⟨rfl, ?_⟩
    intro g hg
    obtain rfl := List.mem_singleton.1 hg
    exact ⟨rfl, rfl, rfl⟩
  obtain ⟨blob, hb⟩ := small_writes hs ⟨by decide +kernel, by decide +kernel⟩
  obtain ⟨h1, h2⟩ := written_reads inflate hs hb
  have ht : trimBlock (refsBlock [1, 200000, -4]) = refsBlock [1, 200000, -4] := rfl
  rw [ht] at h1
  have hw : ∀ x ∈ [(osmHeader, [1, 2, 3]), (osmData, blob)], Writable x := by
    intro x hx
    rcases List.mem_cons.1 hx with rfl | hx
    · exact ⟨.inl rfl, by decide⟩
    · obtain rfl := List.mem_singleton.1 hx
      exact ⟨.inr rfl, h2⟩
  have hl := fileOf_length _ hw
  simp only [List.length_cons, List.length_nil] at hl
  exact ⟨_, by omega, fileOf_has inflate reader (by simp) hw (by omega) (.cons ⟨rfl, rfl, by decide⟩ (.cons ⟨rfl, h1⟩ .nil))⟩

/-- A range of 131072 ids and one of a single id. -/
def lopsided : NodeIdx := ⟨[⟨1, 131072⟩, ⟨200000, 2199023255553⟩], List.replicate 131073 (-5)⟩

theorem lopsided_wf : WellFormed lopsided.elements lopsided.locations ∧ Complete lopsided ∧ NegativeLocs lopsided.locations := by
  have hL : lopsided.locations.length = 131073 := List.length_replicate
  refine ⟨⟨by decide, by decide, ?_, by decide⟩, ?_, ?_⟩
  · rw [hL]; decide
  · unfold Complete
    rw [hL]
    decide
  · intro l hl _
    obtain rfl := List.eq_of_mem_replicate hl
    decide

/-- With two passes the second range is in neither. -/
theorem lopsided_two : passCount lopsided (some 1) = .ok 2 ∧ ∃ a b, a.element ++ b.element = [⟨1, 131072⟩] ∧
    mapRes (fun p => lopsided.SubIndex (UInt64.ofNat p) 2) (List.range 2) = .ok [a, b] := by
  have hL : lopsided.locations.length = 131073 := List.length_replicate
  constructor
  · unfold passCount NodeIdx.LocationCount
    rw [hL]
    decide
  · refine ⟨⟨[⟨1, 131072⟩], lopsided.locations, 131072⟩, ⟨[], lopsided.locations, 131072⟩, rfl, ?_⟩
    have h0 : lopsided.SubIndex (UInt64.ofNat 0) 2 = .ok ⟨[⟨1, 131072⟩], lopsided.locations, 131072⟩ := by
      unfold NodeIdx.SubIndex
      rw [if_neg (by decide), hL]
      dsimp only
      rfl
    have h1 : lopsided.SubIndex (UInt64.ofNat 1) 2 = .ok ⟨[], lopsided.locations, 131072⟩ := by
      unfold NodeIdx.SubIndex
      rw [if_neg (by decide), hL]
      dsimp only
      rfl
    show mapRes _ [0, 1] = _
    unfold mapRes
    rw [h0, Res.ok_bind]
    unfold mapRes
    rw [h1, Res.ok_bind]
    rfl

theorem knownLoc_lopsided (id : Nat) :
    (131072 < id → knownLoc [⟨1, 131072⟩] lopsided.locations id = none) ∧
    (1 ≤ id → id ≤ 131072 → ∀ es, knownLoc (⟨1, 131072⟩ :: es) lopsided.locations id = some (-5)) ∧
    (id = 200000 → knownLoc lopsided.elements lopsided.locations id = some (-5)) := by
  have f1 : rFirst ⟨1, 131072⟩ = 1 := by decide
  have c1 : rCount ⟨1, 131072⟩ = 131072 := by decide
  have o1 : rOffset ⟨1, 131072⟩ = 0 := by decide
  have f2 : rFirst ⟨200000, 2199023255553⟩ = 200000 := by decide
  have c2 : rCount ⟨200000, 2199023255553⟩ = 1 := by decide
  have o2 : rOffset ⟨200000, 2199023255553⟩ = 131072 := by decide
  have hg : ∀ i : Nat, i < 131073 → lopsided.locations[i]? = some (-5) := by
    intro i hi
    unfold lopsided
    rw [List.getElem?_replicate, if_pos hi]
  have hf : Option.filter (fun x : Int64 => decide (x ≠ 0)) (some (-5)) = some (-5) := by decide
  refine ⟨fun h => ?_, fun h h' es => ?_, fun h => ?_⟩
  · unfold knownLoc
    rw [List.findSome?_cons, f1, c1, if_neg (by omega)]
    rfl
  · unfold knownLoc
    rw [List.findSome?_cons, f1, c1, o1, if_pos (by omega), hg _ (by omega), hf]
  · subst h
    unfold knownLoc
    rw [show lopsided.elements = [⟨1, 131072⟩, ⟨200000, 2199023255553⟩] from rfl, List.findSome?_cons, f1, c1,
      if_neg (by omega)]
    dsimp only
    rw [List.findSome?_cons, f2, c2, o2, if_pos (by omega), hg _ (by omega), hf]

/-- C47 is false of the code: rewriting with this index gives the locations of both refs with one pass, but with a
memory target of 1 MiB (which means two passes) the second ref is left as an id. -/
theorem C47_false (inflate : Inflate) (scheds : Nat → Block → Sched)
    (hsched : ∀ i b, (scheds i b).pooled.length < 2 ^ 63) :
    ∃ file ixFile, ∀ (inp index out : String), (∀ n, Distinct inp index out n) → ∀ fs : FS, Holds fs inp file →
      Holds fs index ixFile →
      (∃ fs1 out1, (rewritenodes inflate scheds none inp index out).exec fs = .ok ((), fs1) ∧ Holds fs1 out out1 ∧
        FileHas inflate waysDecoded out1 [.other osmHeader [1, 2, 3], .data (refsBlock [-5, -5, -4])]) ∧
      ∃ fs2 out2, (rewritenodes inflate scheds (some 1) inp index out).exec fs = .ok ((), fs2) ∧ Holds fs2 out out2 ∧
        FileHas inflate waysDecoded out2 [.other osmHeader [1, 2, 3], .data (refsBlock [-5, 200000, -4])] := by
  obtain ⟨file, hl, hc⟩ := refsFile inflate
  obtain ⟨wf, hcomp, hneg⟩ := lopsided_wf
  have hL : lopsided.locations.length = 131073 := List.length_replicate
  obtain ⟨ixFile, hload⟩ : ∃ f, NewNodeIndex f = .ok lopsided :=
    ⟨_, NodeIndexer.load_file lopsided.elements lopsided.locations (by decide)⟩
  refine ⟨file, ixFile, fun inp index out hd fs hin hix => ?_⟩
  have hsm : SmallFile [.other osmHeader [1, 2, 3], .data (refsBlock [1, 200000, -4])] := by
    refine ⟨fun b hb => ?_, by simp⟩
    simp only [List.mem_cons, reduceCtorEq, Content.data.injEq, List.not_mem_nil, or_false, false_or] at hb
    subst hb
    exact ⟨by decide +kernel, by decide +kernel⟩
  have hmap : ∀ es a b c, locate es lopsided.locations 1 = a → locate es lopsided.locations 200000 = b →
      locate es lopsided.locations (-4) = c →
      [Content.other osmHeader [1, 2, 3], .data (refsBlock [1, 200000, -4])].map
        (·.mapRefs (locate es lopsided.locations)) = [.other osmHeader [1, 2, 3], .data (refsBlock [a, b, c])] := by
    rintro es a b c rfl rfl rfl
    rfl
  obtain ⟨k1, k2, k3⟩ := knownLoc_lopsided 200000
  obtain ⟨_, k4, _⟩ := knownLoc_lopsided 1
  have hl1 : ∀ es, locate (⟨1, 131072⟩ :: es) lopsided.locations 1 = -5 := by
    intro es
    unfold locate
    rw [if_pos (by decide), show (1 : Int64).toInt.toNat = 1 by decide, k4 (by omega) (by omega)]
    rfl
  constructor
  · obtain ⟨fs', file', h1, h2, h3⟩ := C47_single_pass inflate scheds hsched wf hcomp (by rw [hL]; decide) (List.cons_ne_nil _ _)
      hneg inp index out ⟨(hd 0).1, (hd 0).2.1⟩ hl hc hsm fs hin hix hload
    refine ⟨fs', file', h1, h2, ?_⟩
    rw [hmap lopsided.elements (-5) (-5) (-4) (hl1 _) ?_ (locate_neg (by decide))] at h3
    · exact h3
    · unfold locate
      rw [if_pos (by decide), show (200000 : Int64).toInt.toNat = 200000 by decide, k3 rfl]
      rfl
  · obtain ⟨p1, a, b, p2, p3⟩ := lopsided_two
    obtain ⟨fs', file', h1, h2, h3⟩ := C47_exact inflate scheds hsched wf hneg (some 1) 2 p1 (by decide)
      (subs := [a, b]) p3 inp index out (hd _) hl hc hsm fs hin hix hload
    refine ⟨fs', file', h1, h2, ?_⟩
    have : [a, b].flatMap (·.element) = [⟨1, 131072⟩] := by rw [← p2]; simp
    rw [this, hmap _ (-5) 200000 (-4) (hl1 _) ?_ (locate_neg (by decide))] at h3
    · exact h3
    · unfold locate
      rw [if_pos (by decide), show (200000 : Int64).toInt.toNat = 200000 by decide, k1 (by omega)]
      rfl

end Osm.Props
