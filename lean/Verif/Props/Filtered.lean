import Verif.Lemmas.Filtered
import Verif.Props.Content

/-!
# C110: filtering tags does not change the indexes of ways and relations

`src`: a file; `flt`: what tagfilter made of it. The two runs of each index program may be on different disks (`fs1`, `fs2`), with
other schedules.
-/

namespace Osm.Props
open Osm Osm.T Osm.Pbf Osm.Spec Osm.Spec.OsmFormat Osm.Interrupt Osm.Repeat Osm.Content

/-- C110: wayindex. The filtered file must not be empty (no command accepts an empty file). -/
theorem C110_wayindex (inflate : Inflate) (sched0 : Block → Sched) (hsched : ∀ b, (sched0 b).pooled.length < 2 ^ 63)
    {file : List UInt8} (hl : file.length < 2 ^ 63) (hne : file ≠ []) {cs : List Content} (hfew : cs.length ≤ 2 ^ 31)
    (hc : IsOsmContents inflate file cs) (src flt : String) (fs fs0 : FS) (fillers : Nat) (hin : Holds fs src file)
    (hrun : (tagfilter inflate sched0 none src flt).exec fs = .ok (fillers, fs0))
    (file' : List UInt8) (hout : Holds fs0 flt file') (hne' : file' ≠ [])
    (s1 s2 : Block → Sched) (chunks1 chunks2 : Nat → Nat) (shift : Int64) (out : String) (fs1 fs2 : FS) (i1 : Holds fs1 src file)
    (i2 : Holds fs2 flt file') :
    SameRun out ((wayindex inflate s1 none chunks1 never shift src out).exec fs1)
      ((wayindex inflate s2 none chunks2 never shift flt out).exec fs2) := by
  obtain ⟨ys, file'', t1, _, t3, t4, t5, _, _⟩ := Format.tagfilter_done inflate sched0 hsched ⟨hl, hne, hfew, hc⟩ src flt fs fs0
    fillers hin hrun
  obtain rfl := Format.holds_unique hout t3
  obtain ⟨b1, p1, m1⟩ := sound_is_source (C87_source inflate file hl hne _ (Format.contents_blocks hc))
  obtain ⟨b2, p2, m2⟩ := sound_is_source (C87_source inflate file' t5 hne' _ (Format.contents_blocks t4))
  refine Format.process_added (h := Option.toList) none p1 p2 ?_ i1 i2 fun xs ys h => ?_
  · rw [Programs.works_source s1 Programs.wayReader (Programs.wayWork shift) (Programs.wayWork_agrees shift) (matches_handed m1 none),
      Programs.works_source s2 Programs.wayReader (Programs.wayWork shift) (Programs.wayWork_agrees shift) (matches_handed m2 none)]
    show (mapRes _ (cs.map Format.inside) >>= _) = (mapRes _ ((ys.filterMap id).map Format.inside) >>= _)
    cases ha : WayIndex.goShl 1 shift with
    | ok amt =>
      have : Programs.wayWork shift = WayIndexer.work shift amt := by
        funext pb
        unfold Programs.wayWork
        rw [ha, Res.ok_bind]
      rw [this]
      exact Format.dropped (fun c y h => Format.filt_ways h shift amt) t1
    | panic =>
      have : Programs.wayWork shift = fun _ => .panic := by
        funext pb
        unfold Programs.wayWork
        rw [ha]
        rfl
      rw [this, Format.mapRes_panics, Format.mapRes_panics]
      · intro h0
        have : ys.filterMap id = [] := List.map_eq_nil_iff.1 h0
        exact hne' (Format.no_contents (this ▸ t4))
      · intro h0
        have : cs = [] := List.map_eq_nil_iff.1 h0
        exact hne (Format.no_contents (this ▸ hc))
    | hang =>
      have : WayIndex.goShl 1 shift ≠ .hang := by
        unfold WayIndex.goShl
        repeat' split
        all_goals simp
      exact absurd ha this
  · rw [Format.wayOutput_list out shift chunks1 never h, WayIndexer.output_shape, WayIndexer.output_shape]
    exact rel_withHeader out chunks1 chunks2 _ _ (WayIndexer.loopSpec out (out ++ ".loc.tmp") (tmp_ne out) shift ys 0 0) _
      (WayIndexer.header_length shift) (fun _ _ => True) fs1 fs2 trivial

/-- C110: relindex with at least one pass, with the same way index. -/
theorem C110_relindex (inflate : Inflate) (sched0 : Block → Sched) (hsched : ∀ b, (sched0 b).pooled.length < 2 ^ 63)
    {file : List UInt8} (hl : file.length < 2 ^ 63) (hne : file ≠ []) {cs : List Content} (hfew : cs.length ≤ 2 ^ 31)
    (hc : IsOsmContents inflate file cs) (src flt : String) (fs fs0 : FS) (fillers : Nat) (hin : Holds fs src file)
    (hrun : (tagfilter inflate sched0 none src flt).exec fs = .ok (fillers, fs0))
    (file' : List UInt8) (hout : Holds fs0 flt file') (hne' : file' ≠ [])
    (s1 s2 : Block → Sched) (passes : Nat) (hn : 0 < passes) (wayIndex out : String) (fs1 fs2 : FS) (i1 : Holds fs1 src file)
    (i2 : Holds fs2 flt file') (hw : SameData wayIndex fs1 fs2) :
    SameRun out ((relindex inflate s1 none passes src wayIndex out).exec fs1)
      ((relindex inflate s2 none passes flt wayIndex out).exec fs2) := by
  obtain ⟨ys, file'', t1, _, t3, t4, t5, _, _⟩ := Format.tagfilter_done inflate sched0 hsched ⟨hl, hne, hfew, hc⟩ src flt fs fs0
    fillers hin hrun
  obtain rfl := Format.holds_unique hout t3
  obtain ⟨b1, p1, m1⟩ := sound_is_source (C87_source inflate file hl hne _ (Format.contents_blocks hc))
  obtain ⟨b2, p2, m2⟩ := sound_is_source (C87_source inflate file' t5 hne' _ (Format.contents_blocks t4))
  refine Format.process_added (h := fun x : Option (List Int64) => x.getD []) none p1 p2 ?_ i1 i2 fun xs ys h =>
    Format.relindex_list out wayIndex hn h hw
  rw [Programs.works_source s1 Programs.relReader RelIndex.work Programs.relWork_agrees (matches_handed m1 none),
    Programs.works_source s2 Programs.relReader RelIndex.work Programs.relWork_agrees (matches_handed m2 none)]
  exact Format.dropped (fun c y h => Format.filt_rels h) t1

/-- C110: if the file has a header block, what tagfilter writes is not empty. -/
theorem C110_header (inflate : Inflate) (sched0 : Block → Sched) (hsched : ∀ b, (sched0 b).pooled.length < 2 ^ 63)
    {file : List UInt8} (hl : file.length < 2 ^ 63) (hne : file ≠ []) {cs : List Content} (hfew : cs.length ≤ 2 ^ 31)
    (hc : IsOsmContents inflate file cs) (head : List UInt8) (hh : Content.other osmHeader head ∈ cs) (src flt : String) (fs fs0 : FS)
    (fillers : Nat) (hin : Holds fs src file) (hrun : (tagfilter inflate sched0 none src flt).exec fs = .ok (fillers, fs0))
    (file' : List UInt8) (hout : Holds fs0 flt file') : file' ≠ [] := by
  obtain ⟨ys, file'', t1, _, t3, t4, _⟩ := Format.tagfilter_done inflate sched0 hsched ⟨hl, hne, hfew, hc⟩ src flt fs fs0 fillers
    hin hrun
  obtain rfl := Format.holds_unique hout t3
  rintro rfl
  have hy := Format.contents_nil t4
  have : ∀ {cs : List Content} {ys : List (Option Content)}, mapRes Format.filt cs = .ok ys → Content.other osmHeader head ∈ cs →
      some (Content.other osmHeader head) ∈ ys := by
    intro cs
    induction cs with
    | nil => intro ys _ h; cases h
    | cons c cs ih =>
      intro ys e h
      rw [Format.mapRes_cons] at e
      obtain ⟨y, h1, e'⟩ := Res.bind_eq_ok.1 e
      obtain ⟨zs, h2, e''⟩ := Res.bind_eq_ok.1 e'
      cases e''
      rcases List.mem_cons.1 h with rfl | h
      · cases h1
        exact List.mem_cons_self
      · exact List.mem_cons_of_mem _ (ih h2 h)
  have hm : Content.other osmHeader head ∈ ys.filterMap id := List.mem_filterMap.2 ⟨_, this t1 hh, rfl⟩
  rw [hy] at hm
  cases hm

/-! ### The hypotheses are met -/

/-- The file of `Props/Programs.lean` and what tagfilter makes of it (none of its nodes is kept): two different files with the same
way index, for every shift. -/
example (fs fs1 fs2 : FS) (hin : Holds fs "src" tinyFile) (h1 : Holds fs1 "src" tinyFile)
    (h2 : Holds fs2 "flt" (fileOf tinyFiltered)) (shift : Int64) (chunks1 chunks2 : Nat → Nat) :
    SameRun "wix" ((wayindex (fun _ => none) noSched none chunks1 never shift "src" "wix").exec fs1)
        ((wayindex (fun _ => none) noSched none chunks2 never shift "flt" "wix").exec fs2) ∧ tinyFile ≠ fileOf tinyFiltered := by
  have mB : mapRes (TagFilter.filterWork (fun _ => none) noSched)
      [⟨0, ⟨[1, 2, 3], tinyFile.drop 20⟩, osmHeader⟩, ⟨1, ⟨[10, 66] ++ tinyPayload, []⟩, osmData⟩] = .ok tinyFiltered := by
    decide +kernel
  obtain ⟨n, fs0, B1, hB1, _⟩ := one_filter tiny_split mB hin (out := "flt")
  have hw1 : TagFilter.written tinyFiltered = tinyFiltered := by decide +kernel
  rw [hw1] at hB1
  obtain ⟨bs, hc⟩ := tiny_contents (fun _ => none)
  exact ⟨C110_wayindex (fun _ => none) noSched (by simp [noSched]) (by decide +kernel) (by decide +kernel) (by simp) hc "src" "flt" fs
    fs0 n hin B1 _ hB1 (by decide +kernel) noSched noSched chunks1 chunks2 shift "wix" fs1 fs2 h1 h2, by decide +kernel⟩

end Osm.Props
