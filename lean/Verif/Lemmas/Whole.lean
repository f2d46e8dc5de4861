import Verif.Lemmas.Programs
import Verif.Lemmas.RewritePasses
import Verif.Lemmas.Idempotent
import Verif.Spec.Whole

/-!
# Raw sections that read the same wherever they stand

A section which was kept raw and is written as it is reads again as what it read as before, if it reads so on its own.
-/

namespace Osm.T
open Osm Osm.Spec Osm.Pb

theorem dense_alone {p rest : List UInt8} {x : DenseNodes} (h : ReadDenseNodes ⟨p, []⟩ = .ok x) : ReadDenseNodes ⟨p, rest⟩ = .ok x := by
  obtain ⟨y, e, rfl⟩ := grows_dense (s := ⟨p, []⟩) (t := ⟨p, rest⟩) ⟨rfl, rest, rfl⟩ _ h
  exact e

theorem way_alone {p rest : List UInt8} {x : Way} (h : ReadWay ⟨p, []⟩ = .ok x) : ReadWay ⟨p, rest⟩ = .ok x := by
  obtain ⟨y, e, rfl⟩ := grows_way (s := ⟨p, []⟩) (t := ⟨p, rest⟩) ⟨rfl, rest, rfl⟩ _ h
  exact e

theorem relation_alone {p rest : List UInt8} {x : Relation} (h : ReadRelation ⟨p, []⟩ = .ok x) : ReadRelation ⟨p, rest⟩ = .ok x := by
  obtain ⟨y, e, rfl⟩ := grows_relation (s := ⟨p, []⟩) (t := ⟨p, rest⟩) ⟨rfl, rest, rfl⟩ _ h
  exact e

theorem stringTable_alone {p rest : List UInt8} {x : StringTable} (h : ReadStringTable ⟨p, []⟩ = .ok x) :
    ReadStringTable ⟨p, rest⟩ = .ok x := by
  obtain ⟨y, e, rfl⟩ := grows_stringTable (s := ⟨p, []⟩) (t := ⟨p, rest⟩) ⟨rfl, rest, rfl⟩ _ h
  exact e

theorem whole_takes_dense (t : PrimitiveGroup) {x : DenseNodes} {p : List UInt8} (hp : ReadDenseNodes ⟨p, []⟩ = .ok x) :
    TakesSectionQ trimGroup (groupBody readAll) 2 p t { t with Dense := some x } := by
  intro buf n m enc rest hd hs s hst
  refine ⟨{ s with Dense := some x }, by subst hst; rfl, ?_⟩
  unfold groupBody DecodeBytes
  rw [hd]
  simp only [Res.ok_bind]
  rw [if_neg (by decide), if_pos (by trivial), if_neg (by simp [readAll]), hs.read]
  simp only [Res.ok_bind]
  rw [dense_alone hp]; rfl

theorem whole_takes_way (t : PrimitiveGroup) {x : Way} {p : List UInt8} (hp : ReadWay ⟨p, []⟩ = .ok x) :
    TakesSectionQ trimGroup (groupBody readAll) 3 p t { t with Ways := t.Ways ++ [x] } := by
  intro buf n m enc rest hd hs s hst
  refine ⟨{ s with Ways := s.Ways ++ [x] }, by subst hst; rfl, ?_⟩
  unfold groupBody DecodeBytes
  rw [hd]
  simp only [Res.ok_bind]
  rw [if_neg (by decide), if_neg (by decide), if_pos (by trivial), if_neg (by simp [readAll]), hs.read]
  simp only [Res.ok_bind]
  rw [way_alone hp]; rfl

theorem whole_takes_relation (t : PrimitiveGroup) {x : Relation} {p : List UInt8} (hp : ReadRelation ⟨p, []⟩ = .ok x) :
    TakesSectionQ trimGroup (groupBody readAll) 4 p t { t with Relations := t.Relations ++ [x] } := by
  intro buf n m enc rest hd hs s hst
  refine ⟨{ s with Relations := s.Relations ++ [x] }, by subst hst; rfl, ?_⟩
  unfold groupBody DecodeBytes
  rw [hd]
  simp only [Res.ok_bind]
  rw [if_neg (by decide), if_neg (by decide), if_neg (by decide), if_pos (by trivial), if_neg (by simp [readAll]), hs.read]
  simp only [Res.ok_bind]
  rw [relation_alone hp]; rfl

theorem whole_takes_ST (t : PrimitiveBlock) {x : StringTable} {p : List UInt8} (hp : ReadStringTable ⟨p, []⟩ = .ok x) :
    TakesSectionQ trimBlock (blockBody readAll) 1 p t { t with StringTable := some x } := by
  intro buf n m enc rest hd hs s hst
  refine ⟨{ s with StringTable := some x }, by subst hst; rfl, ?_⟩
  unfold blockBody DecodeBytes
  rw [hd]
  simp only [Res.ok_bind]
  rw [if_pos (by trivial), if_neg (by simp [readAll]), hs.read]
  simp only [Res.ok_bind]
  rw [stringTable_alone hp]; rfl

variable (o : PBReader)

theorem whole_runs_ways : ∀ {raws : List Slice} {xs : List Way}, ListParsed ReadWay (raws.map trimSlice) xs →
    ∀ t : PrimitiveGroup, RunsQ trimGroup (groupBody readAll) (raws.flatMap fun w => bufField 3 w.bytes) t
      { t with Ways := t.Ways ++ xs }
  | [], [], _, t => by simpa using runsQ_nil _
  | [], _ :: _, h, _ => h.elim
  | _ :: _, [], h, _ => h.elim
  | r :: rs, x :: xs, h, t => by
    rw [List.flatMap_cons]
    refine runsQ_append (runsQ_bufField (whole_takes_way t h.1)) ?_
    have := whole_runs_ways h.2 { t with Ways := t.Ways ++ [x] }
    simpa using this

theorem whole_runs_relations : ∀ {raws : List Slice} {xs : List Relation}, ListParsed ReadRelation (raws.map trimSlice) xs →
    ∀ t : PrimitiveGroup, RunsQ trimGroup (groupBody readAll) (raws.flatMap fun w => bufField 4 w.bytes) t
      { t with Relations := t.Relations ++ xs }
  | [], [], _, t => by simpa using runsQ_nil _
  | [], _ :: _, h, _ => h.elim
  | _ :: _, [], h, _ => h.elim
  | r :: rs, x :: xs, h, t => by
    rw [List.flatMap_cons]
    refine runsQ_append (runsQ_bufField (whole_takes_relation t h.1)) ?_
    have := whole_runs_relations h.2 { t with Relations := t.Relations ++ [x] }
    simpa using this

theorem whole_group_dense {g full : PrimitiveGroup} (ha : GroupAgrees o (trimGroup g) full) {p : List UInt8}
    (hp : (match g.Dense, g.RawDense with
      | some dn, _ => optField fix4 268435456 2 (denseBytes dn)
      | none, some raw => some (bufField 2 raw.bytes)
      | none, none => some []) = some p) (t : PrimitiveGroup) (ht : t.Dense = none) :
    RunsQ trimGroup (groupBody readAll) p t { t with Dense := full.Dense } := by
  obtain ⟨hd, -, -⟩ := ha
  obtain ⟨t1, t2, t3, t4, t5, t6⟩ := t
  dsimp only at ht
  subst ht
  split at hd
  · obtain ⟨h1, h2⟩ := hd
    rw [show g.Dense = none from h1] at hp
    replace h2 : OptParsed ReadDenseNodes (g.RawDense.map trimSlice) full.Dense := h2
    cases hr : g.RawDense with
    | none =>
      rw [hr] at hp h2
      cases hfd : full.Dense with
      | none => simp at hp; subst hp; exact runsQ_nil _
      | some x => rw [hfd] at h2; exact h2.elim
    | some raw =>
      rw [hr] at hp h2
      cases hfd : full.Dense with
      | none => rw [hfd] at h2; exact h2.elim
      | some x =>
        rw [hfd] at h2
        simp at hp; subst hp
        exact runsQ_bufField (whole_takes_dense _ h2)
  · obtain ⟨h1, h2⟩ := hd
    replace h1 : g.RawDense = none := by
      cases hr : g.RawDense with
      | none => rfl
      | some r => rw [show (trimGroup g).RawDense = g.RawDense.map trimSlice from rfl, hr] at h1; cases h1
    replace h2 : g.Dense = full.Dense := h2
    rw [h1, h2] at hp
    cases hfd : full.Dense with
    | none => rw [hfd] at hp; simp at hp; subst hp; exact runsQ_nil _
    | some dn =>
      rw [hfd] at hp
      simp only [optField_eq_some] at hp
      obtain ⟨q, hq, hl, rfl⟩ := hp
      exact runsQ_fix4 hl (group_takes_dense readAll rfl _ dn q hq)

theorem whole_group_ways {g full : PrimitiveGroup} (ha : GroupAgrees o (trimGroup g) full) {p : List UInt8}
    (hp : (if g.Ways ≠ [] then optConcat (fun w => optField fix2 16384 3 (wayBytes w)) g.Ways
        else some (g.RawWays.flatMap fun w => bufField 3 w.bytes)) = some p) (t : PrimitiveGroup) :
    RunsQ trimGroup (groupBody readAll) p t { t with Ways := t.Ways ++ full.Ways } := by
  obtain ⟨-, hd, -⟩ := ha
  split at hd
  · obtain ⟨h1, h2⟩ := hd
    rw [show g.Ways = [] from h1, if_neg (by simp)] at hp
    cases hp
    exact whole_runs_ways h2 t
  · obtain ⟨h1, h2⟩ := hd
    replace h1 : g.RawWays = [] := by simpa [trimGroup] using h1
    replace h2 : g.Ways = full.Ways := h2
    rw [h1, h2] at hp
    split at hp
    · have := runsQ_optConcat (q := trimGroup) (body := groupBody readAll)
        (fun w => optField fix2 16384 3 (wayBytes w))
        (fun t w => { t with Ways := t.Ways ++ [w] }) full.Ways (by
          intro s w _ p hp
          simp only [optField_eq_some] at hp
          obtain ⟨q, hq, hl, rfl⟩ := hp
          exact runsQ_fix2 hl (group_takes_way readAll rfl s w q hq)) t p hp
      rw [foldl_ways] at this
      exact this
    · next h =>
      simp at h hp
      subst hp
      rw [h]
      simpa using runsQ_nil _

theorem whole_group_relations {g full : PrimitiveGroup} (ha : GroupAgrees o (trimGroup g) full) {p : List UInt8}
    (hp : (if g.Relations ≠ [] then optConcat (fun w => optField fix3 2097152 4 (relationBytes w)) g.Relations
        else some (g.RawRelations.flatMap fun w => bufField 4 w.bytes)) = some p) (t : PrimitiveGroup) :
    RunsQ trimGroup (groupBody readAll) p t { t with Relations := t.Relations ++ full.Relations } := by
  obtain ⟨-, -, hd⟩ := ha
  split at hd
  · obtain ⟨h1, h2⟩ := hd
    rw [show g.Relations = [] from h1, if_neg (by simp)] at hp
    cases hp
    exact whole_runs_relations h2 t
  · obtain ⟨h1, h2⟩ := hd
    replace h1 : g.RawRelations = [] := by simpa [trimGroup] using h1
    replace h2 : g.Relations = full.Relations := h2
    rw [h1, h2] at hp
    split at hp
    · have := runsQ_optConcat (q := trimGroup) (body := groupBody readAll)
        (fun w => optField fix3 2097152 4 (relationBytes w))
        (fun t w => { t with Relations := t.Relations ++ [w] }) full.Relations (by
          intro s w _ p hp
          simp only [optField_eq_some] at hp
          obtain ⟨q, hq, hl, rfl⟩ := hp
          exact runsQ_fix3 hl (group_takes_relation readAll rfl s w q hq)) t p hp
      rw [foldl_relations] at this
      exact this
    · next h =>
      simp at h hp
      subst hp
      rw [h]
      simpa using runsQ_nil _

theorem trimGroup_decoded {g : PrimitiveGroup} (h1 : (trimGroup g).RawDense = none) (h2 : (trimGroup g).RawWays = [])
    (h3 : (trimGroup g).RawRelations = []) : trimGroup g = g := by
  obtain ⟨a, b, c, d, e, f⟩ := g
  simp only [trimGroup, Option.map_eq_none_iff, List.map_eq_nil_iff] at h1 h2 h3
  subst h1 h2 h3
  rfl

/-- A written group reads, in full, as what it stood for. -/
theorem whole_group {g full : PrimitiveGroup} (ha : GroupAgrees o (trimGroup g) full) (hfull : GroupShape readAll full)
    {p : List UInt8} (hp : groupBytes g = some p) (sp : List UInt8) (hf : (Slice.mk p sp).Fits) :
    ReadPrimitiveGroup readAll ⟨p, sp⟩ = .ok full := by
  simp only [groupBytes, optApp_eq_some] at hp
  obtain ⟨p1, _, h1, ⟨p2, p3, h2, h3, rfl⟩, rfl⟩ := hp
  have := runsQ_append (whole_group_dense o ha h1 PrimitiveGroup.zero rfl)
    (runsQ_append (whole_group_ways o ha h2 _) (whole_group_relations o ha h3 _))
  obtain ⟨g', hg', he⟩ := forNext_of_runsQ (s := PrimitiveGroup.zero) (buf := ⟨_, sp⟩) hf this
  obtain ⟨s1, s2, s3⟩ := hfull
  simp only [readAll, Bool.false_eq_true, if_false] at s1 s2 s3
  have e : trimGroup g' = full := by
    rw [hg']
    obtain ⟨a, b, c, d, e, f⟩ := full
    simp only at s1 s2 s3
    subst s1 s2 s3
    simp [PrimitiveGroup.zero]
  have : g' = full := by
    rw [← e]
    exact (trimGroup_decoded (by rw [e]; exact s1) (by rw [e]; exact s2) (by rw [e]; exact s3)).symm
  rw [← this]
  exact he

theorem whole_takes_group (t : PrimitiveBlock) {g full : PrimitiveGroup} (ha : GroupAgrees o (trimGroup g) full)
    (hfull : GroupShape readAll full) {p : List UInt8} (hp : groupBytes g = some p) :
    TakesSectionQ trimBlock (blockBody readAll) 2 p t { t with PrimitiveGroup := t.PrimitiveGroup ++ [full] } := by
  intro buf n m enc rest hd hs s hst
  have he := whole_group o ha hfull hp _ hs.innerFits
  refine ⟨{ s with PrimitiveGroup := s.PrimitiveGroup ++ [full] }, ?_, ?_⟩
  · subst hst
    obtain ⟨s1, s2, s3⟩ := hfull
    simp only [readAll, Bool.false_eq_true, if_false] at s1 s2 s3
    simp only [trimBlock, List.map_append, List.map_cons, List.map_nil]
    have : trimGroup full = full := by
      obtain ⟨a, b, c, d, e, f⟩ := full
      simp only at s1 s2 s3
      subst s1 s2 s3
      rfl
    rw [this]
  unfold blockBody DecodeBytes
  rw [hd]
  simp only [Res.ok_bind]
  rw [if_neg (by decide), if_pos (by trivial), hs.read]
  simp only [Res.ok_bind]
  rw [he]; rfl

theorem whole_runs_groups : ∀ {gs fulls : List PrimitiveGroup}, GroupsAgree o (gs.map trimGroup) fulls →
    (∀ g ∈ fulls, GroupShape readAll g) → ∀ {p : List UInt8} (t : PrimitiveBlock),
    optConcat (fun g => optField fix4 268435456 2 (groupBytes g)) gs = some p →
    RunsQ trimBlock (blockBody readAll) p t { t with PrimitiveGroup := t.PrimitiveGroup ++ fulls }
  | [], [], _, _, p, t, hp => by
    simp [optConcat] at hp; subst hp
    simpa using runsQ_nil _
  | [], _ :: _, h, _, _, _, _ => h.elim
  | _ :: _, [], h, _, _, _, _ => h.elim
  | g :: gs, f :: fs, h, hs, p, t, hp => by
    simp only [optConcat, optApp_eq_some, optField_eq_some] at hp
    obtain ⟨p1, p2, ⟨q, hq, hl, rfl⟩, h2, rfl⟩ := hp
    refine runsQ_append (runsQ_fix4 hl (whole_takes_group o t h.1 (hs f (by simp)) hq)) ?_
    have := whole_runs_groups h.2 (fun g hg => hs g (by simp [hg])) { t with PrimitiveGroup := t.PrimitiveGroup ++ [f] } h2
    simpa using this

/-- A written block reads, in full, as what it stood for. -/
theorem whole_block {b full : PrimitiveBlock} (ha : BlockAgrees o (trimBlock b) full) (hfull : BlockShape readAll full)
    {p : List UInt8} (hp : blockBytes b = some p) (sp : List UInt8) (hf : (Slice.mk p sp).Fits) :
    ReadPrimitiveBlock readAll ⟨p, sp⟩ = .ok full := by
  simp only [blockBytes, optApp_eq_some] at hp
  obtain ⟨p1, _, h1, ⟨p2, p3, h2, h3, rfl⟩, rfl⟩ := hp
  simp only [Option.some.injEq] at h3
  subst h3
  obtain ⟨hst, hgs, e1, e2, e3, e4⟩ := ha
  obtain ⟨hs1, hs2⟩ := hfull
  simp only [readAll, Bool.false_eq_true, if_false] at hs1
  have r1 : RunsQ trimBlock (blockBody readAll) p1 PrimitiveBlock.fresh
      { PrimitiveBlock.fresh with StringTable := full.StringTable } := by
    split at hst
    · obtain ⟨a1, a2⟩ := hst
      rw [show b.StringTable = none from a1] at h1
      replace a2 : OptParsed ReadStringTable (b.StringTableRaw.map trimSlice) full.StringTable := a2
      cases hr : b.StringTableRaw with
      | none =>
        rw [hr] at h1 a2
        cases hfd : full.StringTable with
        | none => simp at h1; subst h1; exact runsQ_nil _
        | some x => rw [hfd] at a2; exact a2.elim
      | some raw =>
        rw [hr] at h1 a2
        cases hfd : full.StringTable with
        | none => rw [hfd] at a2; exact a2.elim
        | some x =>
          rw [hfd] at a2
          simp at h1; subst h1
          exact runsQ_bufField (whole_takes_ST _ a2)
    · obtain ⟨a1, a2⟩ := hst
      replace a1 : b.StringTableRaw = none := by simpa [trimBlock] using a1
      replace a2 : b.StringTable = full.StringTable := a2
      rw [a1, a2] at h1
      cases hfd : full.StringTable with
      | none => rw [hfd] at h1; simp at h1; subst h1; exact runsQ_nil _
      | some st =>
        rw [hfd] at h1
        simp only [optField_eq_some, Option.some.injEq] at h1
        obtain ⟨q, rfl, hl, rfl⟩ := h1
        exact runsQ_fix4 hl (block_takes_ST readAll rfl _ st)
  have r2 := whole_runs_groups o hgs hs2 { PrimitiveBlock.fresh with StringTable := full.StringTable } h2
  have r := runsQ_append r1 (runsQ_append r2 (block_runs_tail readAll _ b rfl rfl rfl rfl))
  obtain ⟨b', hb', he⟩ := forNext_of_runsQ (s := PrimitiveBlock.fresh) (buf := ⟨_, sp⟩) hf r
  have hsh := readBlock_shape readAll ⟨_, sp⟩ b' he
  rw [trim_readAll hsh] at hb'
  have : b' = full := by
    rw [hb', show b.Granularity = full.Granularity from e1, show b.DateGranularity = full.DateGranularity from e2,
      show b.LatOffset = full.LatOffset from e3, show b.LonOffset = full.LonOffset from e4]
    obtain ⟨a, b, c, d, e, f, g⟩ := full
    simp only at hs1
    subst hs1
    simp [PrimitiveBlock.fresh]
  rw [← this]
  exact he

end Osm.T

namespace Osm.Rewrite
open Osm Osm.Pb Osm.T Osm.Pbf Osm.NodeIndex Osm.Spec

/-- A block and its content: with the ways decoded, and in full. -/
def Sound (inflate : Inflate) (kind : GoStr) (bytes : List UInt8) (c : Content) (full : Option PrimitiveBlock) : Prop :=
  match c, full with
  | .other k d, none => kind = k ∧ bytes = d ∧ kind ≠ osmData
  | .data c, some full => kind = osmData ∧ ∃ blob payload part, ReadBlob ⟨bytes, []⟩ = .ok blob ∧ Payload inflate blob payload ∧
      ReadPrimitiveBlock readAll ⟨payload, []⟩ = .ok full ∧ ReadPrimitiveBlock waysDecoded ⟨payload, []⟩ = .ok part ∧
      trimBlock part = c ∧ BlockAgrees waysDecoded c full
  | _, _ => False

theorem sound_content {inflate : Inflate} {kind : GoStr} {bytes : List UInt8} {c : Content} {full : Option PrimitiveBlock}
    (h : Sound inflate kind bytes c full) : HasContent inflate waysDecoded kind bytes c := by
  cases c with
  | other k d =>
    cases full with
    | none => exact h
    | some _ => exact h.elim
  | data c =>
    cases full with
    | none => exact h.elim
    | some full =>
      obtain ⟨hk, blob, p, part, h1, h2, h3, h4, h5, h6⟩ := h
      rw [← h5]
      exact ⟨hk, reads_of_bare h1 h2 h4⟩

theorem agrees_mapRefs {c full : PrimitiveBlock} (f : Int64 → Int64) (h : BlockAgrees waysDecoded c full) :
    BlockAgrees waysDecoded (mapRefs f c) (mapRefs f full) := by
  obtain ⟨h1, h2, h3⟩ := h
  refine ⟨h1, ?_, h3⟩
  have key : ∀ (ps fs : List T.PrimitiveGroup), GroupsAgree waysDecoded ps fs →
      GroupsAgree waysDecoded (ps.map fun g => { g with Ways := g.Ways.map fun w => { w with Refs := w.Refs.map f } })
        (fs.map fun g => { g with Ways := g.Ways.map fun w => { w with Refs := w.Refs.map f } }) := by
    intro ps
    induction ps with
    | nil => intro fs h; cases fs with
      | nil => trivial
      | cons _ _ => exact h.elim
    | cons p ps ih =>
      intro fs h
      cases fs with
      | nil => exact h.elim
      | cons g gs =>
        obtain ⟨⟨a1, a2, a3⟩, a4⟩ := h
        refine ⟨⟨a1, ?_, a3⟩, ih gs a4⟩
        simp only [waysDecoded, Bool.false_eq_true, if_false] at a2 ⊢
        exact ⟨a2.1, by rw [a2.2]⟩
  exact key _ _ h2

theorem shape_mapRefs {b : PrimitiveBlock} (f : Int64 → Int64) (h : BlockShape readAll b) : BlockShape readAll (mapRefs f b) := by
  obtain ⟨h1, h2⟩ := h
  refine ⟨h1, fun g hg => ?_⟩
  obtain ⟨g', hg', rfl⟩ := List.mem_map.1 hg
  obtain ⟨a, b, c⟩ := h2 g' hg'
  exact ⟨a, b, c⟩

theorem noWays_full {c full : PrimitiveBlock} (h : BlockAgrees waysDecoded c full) (f : Int64 → Int64) (hc : totalWays c = 0) :
    mapRefs f full = full := by
  have : totalWays full = 0 := by
    obtain ⟨_, h2, _⟩ := h
    unfold totalWays at *
    have key : ∀ (ps fs : List T.PrimitiveGroup), GroupsAgree waysDecoded ps fs →
        (fs.map fun g => g.Ways.length) = ps.map fun g => g.Ways.length := by
      intro ps
      induction ps with
      | nil => intro fs h; cases fs with
        | nil => rfl
        | cons _ _ => exact h.elim
      | cons p ps ih =>
        intro fs h
        cases fs with
        | nil => exact h.elim
        | cons g gs =>
          obtain ⟨⟨a1, a2, a3⟩, a4⟩ := h
          simp only [waysDecoded, Bool.false_eq_true, if_false] at a2
          rw [List.map_cons, List.map_cons, ih gs a4, a2.2]
    rw [key _ _ h2]
    exact hc
  exact mapRefs_noWays this

/-- The work on one block. -/
theorem work_sound (inflate : Inflate) (sched : Block → Sched) {si : SubIdx} (hw : WellFormedSub si) {b : Block} {c : Content}
    {full : Option PrimitiveBlock} (hc : Sound inflate b.Kind b.Data.bytes c full) {x : Out}
    (hx : rewriteWork inflate sched si b = .ok x) :
    Sound inflate x.1 x.2 (c.mapRefs (locate si.element si.locations)) (full.map (mapRefs (locate si.element si.locations))) := by
  unfold rewriteWork at hx
  cases c with
  | other k d =>
    cases full with
    | some _ => exact hc.elim
    | none =>
      obtain ⟨h1, h2, h3⟩ := hc
      rw [if_pos h3] at hx
      cases hx
      exact ⟨h1, h2, h3⟩
  | data c =>
    cases full with
    | none => exact hc.elim
    | some full =>
      obtain ⟨hk, blob, p, part, h1, h2, h3, h4, h5, h6⟩ := hc
      rw [if_neg (by simp [hk])] at hx
      obtain ⟨i, ⟨bytes, spare⟩, kind⟩ := b
      dsimp only at hk h1
      subst hk
      obtain ⟨blob', g1, g2⟩ := grows_blob (s := ⟨bytes, []⟩) (t := ⟨bytes, spare⟩) ⟨rfl, spare, rfl⟩ _ h1
      obtain ⟨raw, g3, g4, _⟩ := payload_raw (sched ⟨i, ⟨bytes, spare⟩, osmData⟩) (payload_trim g2 h2)
      obtain ⟨pb, g5, g6⟩ := grows_block reader (s := ⟨p, []⟩) (t := raw) ⟨g4, raw.spare, rfl⟩ _ h4
      have e1 : rawOf inflate (sched ⟨i, ⟨bytes, spare⟩, osmData⟩) ⟨i, ⟨bytes, spare⟩, osmData⟩ = .ok raw := by
        unfold rawOf
        dsimp only
        rw [g1]
        exact g3
      rw [e1, Res.ok_bind, g5, Res.ok_bind] at hx
      have e2 : trimBlock pb = c := g6.trans h5
      unfold rewriteDecoded at hx
      by_cases ht : totalWays pb = 0
      · rw [if_pos ht] at hx
        cases hx
        have hcw : totalWays c = 0 := by rw [← e2, totalWays_trim]; exact ht
        refine ⟨rfl, blob, p, part, h1, h2, ?_, h4, ?_, agrees_mapRefs _ h6⟩
        · rw [noWays_full h6 _ hcw]; exact h3
        · rw [mapRefs_noWays hcw]; exact h5
      · rw [if_neg ht] at hx
        obtain ⟨out, k1, hx⟩ := Res.bind_eq_ok.1 hx
        cases hx
        rw [rewriteBlock_eq hw] at k1
        obtain ⟨q, q1, q2, q3, q4⟩ := blob_func_ok (block_embSpec _) k1
        have hfit : (Slice.mk out []).Fits := by unfold Slice.Fits; simp; omega
        obtain ⟨b', q5, q6⟩ := q4 [] hfit
        obtain ⟨r, size, z⟩ := b'
        simp only [blobObs, Prod.mk.injEq] at q6
        obtain ⟨q6, rfl, q8⟩ := q6
        cases r with
        | none => cases q6
        | some r =>
          simp only [Option.map_some, Option.some.injEq] at q6
          have hqf : (Slice.mk q []).Fits := by unfold Slice.Fits; simp; omega
          obtain ⟨part', k2, k3⟩ := block_read waysDecoded _ (mapRefs_shape (readBlock_shape _ _ _ g5)) q q1 [] hqf
          rw [trim_mapRefs, e2] at k2
          refine ⟨rfl, _, q, part', q5, ?_, ?_, k3, k2, agrees_mapRefs _ h6⟩
          · rw [← q6]; exact .raw _ _ _
          · refine whole_block waysDecoded ?_ (shape_mapRefs _ (readBlock_shape _ _ _ h3)) q1 [] hqf
            rw [trim_mapRefs, e2]
            exact agrees_mapRefs _ h6

theorem optParsed_unique {α : Type} {read : Slice → Res α} {r : Option Slice} {x y : Option α} (h1 : OptParsed read r x)
    (h2 : OptParsed read r y) : x = y := by
  cases r <;> cases x <;> cases y <;> simp_all [OptParsed]

theorem listParsed_unique {α : Type} {read : Slice → Res α} : ∀ {rs : List Slice} {xs ys : List α}, ListParsed read rs xs →
    ListParsed read rs ys → xs = ys
  | [], [], [], _, _ => rfl
  | [], _ :: _, _, h, _ => h.elim
  | [], [], _ :: _, _, h => h.elim
  | _ :: _, [], _, h, _ => h.elim
  | _ :: _, _ :: _, [], _, h => h.elim
  | r :: rs, x :: xs, y :: ys, h1, h2 => by
    rw [listParsed_unique h1.2 h2.2]
    have := h1.1.symm.trans h2.1
    cases this
    rfl

theorem groupAgrees_unique {o : PBReader} {c f g : T.PrimitiveGroup} (h1 : GroupAgrees o c f) (h2 : GroupAgrees o c g)
    (s1 : GroupShape readAll f) (s2 : GroupShape readAll g) : f = g := by
  obtain ⟨a1, a2, a3⟩ := h1
  obtain ⟨b1, b2, b3⟩ := h2
  obtain ⟨u1, u2, u3⟩ := s1
  obtain ⟨v1, v2, v3⟩ := s2
  simp only [readAll, Bool.false_eq_true, if_false] at u1 u2 u3 v1 v2 v3
  have e1 : f.Dense = g.Dense := by
    split at a1
    · next h => rw [if_pos h] at b1; exact optParsed_unique a1.2 b1.2
    · next h => rw [if_neg h] at b1; exact a1.2.symm.trans b1.2
  have e2 : f.Ways = g.Ways := by
    split at a2
    · next h => rw [if_pos h] at b2; exact listParsed_unique a2.2 b2.2
    · next h => rw [if_neg h] at b2; exact a2.2.symm.trans b2.2
  have e3 : f.Relations = g.Relations := by
    split at a3
    · next h => rw [if_pos h] at b3; exact listParsed_unique a3.2 b3.2
    · next h => rw [if_neg h] at b3; exact a3.2.symm.trans b3.2
  cases f; cases g; simp_all

theorem groupsAgree_unique {o : PBReader} : ∀ {cs fs gs : List T.PrimitiveGroup}, GroupsAgree o cs fs → GroupsAgree o cs gs →
    (∀ g ∈ fs, GroupShape readAll g) → (∀ g ∈ gs, GroupShape readAll g) → fs = gs
  | [], [], [], _, _, _, _ => rfl
  | [], _ :: _, _, h, _, _, _ => h.elim
  | [], [], _ :: _, _, h, _, _ => h.elim
  | _ :: _, [], _, h, _, _, _ => h.elim
  | _ :: _, _ :: _, [], _, h, _, _ => h.elim
  | c :: cs, f :: fs, g :: gs, h1, h2, s1, s2 => by
    rw [groupAgrees_unique h1.1 h2.1 (s1 f (by simp)) (s2 g (by simp)),
      groupsAgree_unique h1.2 h2.2 (fun x hx => s1 x (by simp [hx])) (fun x hx => s2 x (by simp [hx]))]

theorem blockAgrees_unique {o : PBReader} {c f g : PrimitiveBlock} (h1 : BlockAgrees o c f) (h2 : BlockAgrees o c g)
    (s1 : BlockShape readAll f) (s2 : BlockShape readAll g) : f = g := by
  obtain ⟨a1, a2, a3, a4, a5, a6⟩ := h1
  obtain ⟨b1, b2, b3, b4, b5, b6⟩ := h2
  have e1 : f.StringTable = g.StringTable := by
    split at a1
    · next h => rw [if_pos h] at b1; exact optParsed_unique a1.2 b1.2
    · next h => rw [if_neg h] at b1; exact a1.2.symm.trans b1.2
  have e2 := groupsAgree_unique a2 b2 s1.2 s2.2
  have u1 := s1.1
  have v1 := s2.1
  simp only [readAll, Bool.false_eq_true, if_false] at u1 v1
  cases f; cases g; simp_all

/-- A file whose blocks have the given contents, with complete sections. -/
def SoundHas (inflate : Inflate) (file : List UInt8) (cs : List Content) : Prop :=
  ∃ bs, split file = .ok bs ∧ Matches (fun b c => ∃ full, Sound inflate b.Kind b.Data.bytes c full) bs cs

/-- What a content stands for. -/
def Link : Content → Option PrimitiveBlock → Prop
  | .other _ _, none => True
  | .data c, some full => BlockAgrees waysDecoded c full ∧ BlockShape readAll full
  | _, _ => False

theorem sound_link {inflate : Inflate} {kind : GoStr} {bytes : List UInt8} {c : Content} {full : Option PrimitiveBlock}
    (h : Sound inflate kind bytes c full) : Link c full := by
  cases c with
  | other k d =>
    cases full with
    | none => trivial
    | some _ => exact h.elim
  | data c =>
    cases full with
    | none => exact h.elim
    | some full =>
      obtain ⟨hk, blob, p, part, h1, h2, h3, h4, h5, h6⟩ := h
      exact ⟨h6, readBlock_shape _ _ _ h3⟩

theorem link_unique {c : Content} {f g : Option PrimitiveBlock} (h1 : Link c f) (h2 : Link c g) : f = g := by
  cases c <;> cases f <;> cases g <;> first | rfl | exact h1.elim | exact h2.elim | skip
  exact congrArg some (blockAgrees_unique h1.1 h2.1 h1.2 h2.2)

theorem link_mapRefs {c : Content} {full : Option PrimitiveBlock} (f : Int64 → Int64) (h : Link c full) :
    Link (c.mapRefs f) (full.map (mapRefs f)) := by
  cases c <;> cases full <;> first | exact h.elim | trivial | skip
  exact ⟨agrees_mapRefs f h.1, shape_mapRefs f h.2⟩

theorem sound_source {inflate : Inflate} {bs : List Block} {fulls : List (Option PrimitiveBlock)}
    (h : Matches (SoundBlock inflate) bs fulls) :
    ∃ cs, Matches (fun b c => ∃ full, Sound inflate b.Kind b.Data.bytes c full) bs cs ∧ Matches Link cs fulls := by
  induction h with
  | nil => exact ⟨[], .nil, .nil⟩
  | @cons b full _ _ h _ ih =>
    obtain ⟨cs, h1, h2⟩ := ih
    cases h with
    | other hk => exact ⟨.other b.Kind b.Data.bytes :: cs, .cons ⟨none, rfl, rfl, hk⟩ h1, .cons trivial h2⟩
    | data blob p part full hk hb hp hf hw ha =>
      have hs : Sound inflate b.Kind b.Data.bytes (.data (trimBlock part)) (some full) :=
        ⟨hk, blob, p, part, hb, hp, hf, hw, rfl, ha⟩
      exact ⟨.data (trimBlock part) :: cs, .cons ⟨_, hs⟩ h1, .cons (sound_link hs) h2⟩

theorem source_sound {inflate : Inflate} (f : Int64 → Int64) {cs : List Content} {fulls : List (Option PrimitiveBlock)}
    (hl : Matches Link cs fulls) : ∀ {bs : List Block},
    Matches (fun b c => ∃ full, Sound inflate b.Kind b.Data.bytes c full) bs (cs.map (·.mapRefs f)) →
    Matches (SoundBlock inflate) bs (fulls.map (Option.map (mapRefs f))) := by
  induction hl with
  | nil => intro bs h; cases h; exact .nil
  | @cons c full cs fulls h _ ih =>
    intro bs hm
    rw [List.map_cons] at hm
    cases hm with
    | @cons b _ bs _ hb hm =>
      rw [List.map_cons]
      refine .cons ?_ (ih hm)
      obtain ⟨full', hs⟩ := hb
      have e := link_unique (sound_link hs) (link_mapRefs f h)
      subst e
      cases c with
      | other k d =>
        cases full with
        | none => exact .other b hs.2.2
        | some _ => exact h.elim
      | data c =>
        cases full with
        | none => exact h.elim
        | some full =>
          obtain ⟨hk, blob, p, part, h1, h2, h3, h4, h5, h6⟩ := hs
          exact .data b blob p part _ hk h1 h2 h3 h4 (by rw [h5]; exact h6)

theorem soundHas_has {inflate : Inflate} {file : List UInt8} {cs : List Content} (h : SoundHas inflate file cs) :
    FileHas inflate waysDecoded file cs := by
  obtain ⟨bs, h1, h2⟩ := h
  refine ⟨bs, h1, ?_⟩
  clear h1
  induction h2 with
  | nil => exact .nil
  | cons h _ ih =>
    obtain ⟨full, hs⟩ := h
    exact .cons (sound_content hs) ih

theorem works_sound (inflate : Inflate) (sched : Block → Sched) {si : SubIdx} (hw : WellFormedSub si) {bs : List Block}
    {cs : List Content} (h : Matches (fun b c => ∃ full, Sound inflate b.Kind b.Data.bytes c full) bs cs) : ∀ {xs : List Out},
    mapRes (rewriteWork inflate sched si) bs = .ok xs →
    Matches (fun x c => ∃ full, Sound inflate x.1 x.2 c full) xs (cs.map (·.mapRefs (locate si.element si.locations))) := by
  induction h with
  | nil => intro xs hx; cases hx; exact .nil
  | cons h _ ih =>
    intro xs hx
    unfold mapRes at hx
    obtain ⟨x, e1, hx⟩ := Res.bind_eq_ok.1 hx
    obtain ⟨ys, e2, hx⟩ := Res.bind_eq_ok.1 hx
    cases hx
    obtain ⟨full, hs⟩ := h
    exact .cons ⟨_, work_sound inflate sched hw hs e1⟩ (ih e2)

theorem fileOf_sound (inflate : Inflate) {xs : List Out} {cs : List Content} (hne : xs ≠ [])
    (hw : ∀ x ∈ xs, Writable x) (hlen : (fileOf xs).length < 2 ^ 63)
    (hc : Matches (fun x c => ∃ full, Sound inflate x.1 x.2 c full) xs cs) : SoundHas inflate (fileOf xs) cs := by
  obtain ⟨bs, h1, h2, h3⟩ := Props.C53_round_trip xs hne hw hlen
  refine ⟨bs, h1, ?_⟩
  clear h1 h3 hne hw hlen
  induction bs generalizing xs cs with
  | nil =>
    simp only [List.map_nil] at h2
    subst h2
    cases hc
    exact .nil
  | cons b bs ih =>
    simp only [List.map_cons] at h2
    subst h2
    cases hc with
    | cons ha hb => exact .cons ha (ih hb rfl)

/-- One pass. -/
theorem pass_sound (inflate : Inflate) (sched : Block → Sched) (hsched : ∀ b, (sched b).pooled.length < 2 ^ 63)
    {si : SubIdx} (hw : WellFormedSub si) {file : List UInt8} (hl : file.length < 2 ^ 63) {cs : List Content}
    (hc : SoundHas inflate file cs) (hsm : SmallFile cs) (inp out : String) (fs : FS) (hin : Holds fs inp file) :
    ∃ fs' file', (pass inflate sched si inp out).exec fs = .ok ((), fs') ∧ Holds fs' out file' ∧ file'.length < 2 ^ 63 ∧
      SoundHas inflate file' (cs.map (·.mapRefs (locate si.element si.locations))) ∧
      ∀ g, g ≠ out → fs' g = fs g := by
  have hc' := soundHas_has hc
  obtain ⟨bs, h1, h2⟩ := hc
  obtain ⟨bs', h1', h3⟩ := hc'
  rw [h1] at h1'
  cases h1'
  obtain ⟨hbne, hb⟩ := split_blocks hl h1
  obtain ⟨xs, e3⟩ := mapRes_all (f := rewriteWork inflate sched si) (as := bs) (by
    intro b hb'
    obtain ⟨c, hc', hcc⟩ := matches_mem h3 b hb'
    exact work_small inflate sched hsched hw (hb b hb').1 hcc (by rintro d rfl; exact hsm.1 d hc'))
  obtain ⟨m1, m2⟩ := works_content inflate sched hsched hw bs cs xs hb h3 e3
  obtain ⟨fs3, o1, o2, o3⟩ := output_exec out xs fs
  have hlen : (fileOf xs).length < 2 ^ 63 := by
    have a1 := fileOf_length xs m1
    have a2 := each_length m2
    have a3 := hsm.2
    rw [List.length_map] at a2
    have : xs.length * (2 ^ 31 + 68) ≤ 2 ^ 31 * (2 ^ 31 + 68) := Nat.mul_le_mul_right _ (by omega)
    omega
  refine ⟨fs3, fileOf xs, ?_, o2, hlen, fileOf_sound inflate ?_ m1 hlen (works_sound inflate sched hw h2 e3), o3⟩
  · obtain ⟨pos, hin⟩ := hin
    unfold pass
    rw [Prog.exec_bind, exec_OsOpen_some hin, Res.ok_bind, Prog.exec_bind, exec_MMapMap]
    dsimp only
    rw [hin]
    dsimp only
    have hne : file ≠ [] := ((split_iff file hl bs).1 h1).1
    rw [if_neg hne, Res.ok_bind, Prog.exec_bind, Prog.exec_lift, h1, Res.ok_bind, Res.ok_bind, Prog.exec_bind, Prog.exec_lift,
      e3, Res.ok_bind, Res.ok_bind]
    exact o1
  · rintro rfl
    have := mapRes_len e3
    exact hbne (List.length_eq_zero_iff.1 this.symm)

end Osm.Rewrite
