import Verif.Spec.Args
import Verif.Lemmas.SubIndex
import Verif.Props.Dump
import Verif.Props.Pbf

/-! # C78: a command starts exactly with acceptable arguments, and otherwise says what is wrong -/

namespace Osm.Props
open Osm Osm.Args Osm.Spec

theorem report_run {α : Type} (errors : List String) (a b : α) : report errors a = .run b ↔ errors = [] ∧ a = b := by
  unfold report
  cases errors with
  | nil => simp
  | cons x xs => simp

theorem failure_run {α : Type} (e : Err) (b : α) : (Args.failure e : Start α) ≠ .run b := by
  unfold Args.failure
  split <;> simp

theorem positional_nil (ps : List String) : positionalErrors ps = [] ↔ ps = [] := by
  unfold positionalErrors
  cases ps <;> simp

theorem system_nil (o : SystemOpts) : o.Validate = [] ↔ SystemFits o := by
  unfold SystemOpts.Validate SystemFits
  cases o.MemProfileRate <;> cases o.MemProfile <;> simp

theorem sub_nil {α : Type} [LT α] (lt : α → α → Bool) (hlt : ∀ a b, lt a b = true ↔ a < b) (i c : Option α) :
    subErrors lt i c = [] ↔ SubFits i c := by
  unfold subErrors SubFits
  cases i <;> cases c <;> simp [← hlt]

theorem starts {α : Type} {parse : Parsed α → Start α} {errors : List String → α → List String} {fits : α → Prop}
    (hp : ∀ p, parse p = match p with
      | .failed e => Args.failure e
      | .parsed ps o => report (errors ps o) o)
    (hf : ∀ ps o, errors ps o = [] ↔ ps = [] ∧ fits o) : StartsWhen parse fits := by
  intro p o
  rw [hp]
  cases p with
  | failed e => exact ⟨fun h => absurd h (failure_run e o), fun h => nomatch h.1⟩
  | parsed ps x =>
    dsimp only
    rw [report_run, hf]
    constructor
    · rintro ⟨⟨rfl, h⟩, rfl⟩
      exact ⟨rfl, h⟩
    · rintro ⟨h1, h2⟩
      cases h1
      exact ⟨⟨rfl, h2⟩, rfl⟩

/-- C78: each command starts exactly when parsing succeeded, no word is left over and the options fit together. -/
theorem C78_starts :
    StartsWhen parseCount (fun o => SystemFits o.toSystemOpts) ∧
    StartsWhen parseFind (fun o => SystemFits o.toSystemOpts) ∧
    StartsWhen parseFile (fun o => SystemFits o.toSystemOpts) ∧
    StartsWhen parseTagfilter (fun o => SystemFits o.toSystemOpts) ∧
    StartsWhen parseWayindex (fun o => SystemFits o.toSystemOpts) ∧
    StartsWhen parseRelindex (fun o => SystemFits o.toSystemOpts) ∧
    StartsWhen parseRewritenodes (fun o => SystemFits o.toSystemOpts) ∧
    StartsWhen parseDumpnode (fun o => SystemFits o.toSystemOpts ∧ SubFits o.SubIndexIndex o.SubIndexCount) ∧
    StartsWhen parseDumpway (fun o => SystemFits o.toSystemOpts ∧ SubFits o.SubIndexIndex o.SubIndexCount) := by
  have h1 : ∀ (ps : List String) (s : SystemOpts), positionalErrors ps ++ s.Validate = [] ↔ ps = [] ∧ SystemFits s := by
    intro ps s
    rw [List.append_eq_nil_iff, positional_nil, system_nil]
  have h2 : ∀ (ps : List String) (u : UIOpts) (s : SystemOpts),
      positionalErrors ps ++ u.Validate ++ s.Validate = [] ↔ ps = [] ∧ SystemFits s := by
    intro ps u s
    rw [List.append_eq_nil_iff, List.append_eq_nil_iff, positional_nil, system_nil]
    simp [UIOpts.Validate]
  refine ⟨?_, ?_, ?_, ?_, ?_, ?_, ?_, ?_, ?_⟩
  · exact starts (errors := fun ps o => positionalErrors ps ++ o.toSystemOpts.Validate) (fun p => by cases p <;> rfl)
      fun ps o => h1 ps o.toSystemOpts
  · exact starts (errors := fun ps o => positionalErrors ps ++ o.toSystemOpts.Validate) (fun p => by cases p <;> rfl)
      fun ps o => h1 ps o.toSystemOpts
  · exact starts (errors := fun ps o => positionalErrors ps ++ o.toUIOpts.Validate ++ o.toSystemOpts.Validate)
      (fun p => by cases p <;> rfl) fun ps o => h2 ps o.toUIOpts o.toSystemOpts
  · exact starts (errors := fun ps o => positionalErrors ps ++ o.toSystemOpts.Validate) (fun p => by cases p <;> rfl)
      fun ps o => h1 ps o.toSystemOpts
  · exact starts (errors := fun ps o => positionalErrors ps ++ o.toUIOpts.Validate ++ o.toSystemOpts.Validate)
      (fun p => by cases p <;> rfl) fun ps o => h2 ps o.toUIOpts o.toSystemOpts
  · exact starts (errors := fun ps o => positionalErrors ps ++ o.toUIOpts.Validate ++ o.toSystemOpts.Validate)
      (fun p => by cases p <;> rfl) fun ps o => h2 ps o.toUIOpts o.toSystemOpts
  · exact starts (errors := fun ps o => positionalErrors ps ++ o.toSystemOpts.Validate) (fun p => by cases p <;> rfl)
      fun ps o => h1 ps o.toSystemOpts
  · refine starts (errors := fun ps o => positionalErrors ps ++ o.toSystemOpts.Validate ++
      subErrors (fun a b => decide (a < b)) o.SubIndexIndex o.SubIndexCount) (fun p => by cases p <;> rfl) fun ps o => ?_
    rw [List.append_eq_nil_iff, h1, sub_nil _ (by simp), and_assoc]
  · refine starts (errors := fun ps o => positionalErrors ps ++ o.toSystemOpts.Validate ++
      subErrors (fun a b => decide (a < b)) o.SubIndexIndex o.SubIndexCount) (fun p => by cases p <;> rfl) fun ps o => ?_
    rw [List.append_eq_nil_iff, h1, sub_nil _ (by simp), and_assoc]

theorem exits {α : Type} {parse : Parsed α → Start α} {errors : List String → α → List String}
    (hp : ∀ p, parse p = match p with
      | .failed e => Args.failure e
      | .parsed ps o => report (errors ps o) o) : ExitsProperly parse := by
  intro p code written h
  rw [hp] at h
  cases p with
  | failed e =>
    dsimp only at h
    unfold Args.failure at h
    cases e with
    | other m =>
      cases h
      exact .inr ⟨by simp, rfl, by simp, .inl ⟨_, rfl, by simp⟩⟩
    | flags b m =>
      cases b with
      | true => cases h; exact .inl ⟨⟨m, rfl⟩, rfl, rfl⟩
      | false => cases h; exact .inr ⟨by simp, rfl, by simp, .inl ⟨_, rfl, by simp⟩⟩
  | parsed ps o =>
    dsimp only at h
    unfold report at h
    cases he : errors ps o with
    | nil => rw [he] at h; cases h
    | cons x xs =>
      rw [he] at h
      cases h
      exact .inr ⟨by simp, rfl, by simp, .inr ⟨x, by simp⟩⟩

/-- C78: and otherwise ends with the help or with what is wrong. -/
theorem C78_exits : ExitsProperly parseCount ∧ ExitsProperly parseFind ∧ ExitsProperly parseFile ∧
    ExitsProperly parseTagfilter ∧ ExitsProperly parseWayindex ∧ ExitsProperly parseRelindex ∧
    ExitsProperly parseRewritenodes ∧ ExitsProperly parseDumpnode ∧ ExitsProperly parseDumpway := by
  refine ⟨?_, ?_, ?_, ?_, ?_, ?_, ?_, ?_, ?_⟩
  all_goals
    refine exits (errors := ?_) (fun p => ?_)
    rotate_left
    · cases p with
      | failed e => rfl
      | parsed ps o => rfl

theorem reports {α : Type} {parse : Parsed α → Start α} {errors : List String} {ps : List String} {o : α}
    (hp : parse (.parsed ps o) = report errors o) {s : String} (hs : s ∈ errors) : Reports parse (.parsed ps o) s := by
  have hne : 0 < errors.length := List.length_pos_of_mem hs
  refine ⟨_, by rw [hp]; unfold report; rw [if_pos hne], ?_⟩
  simp [hs]

/-- C78: all faults are reported at once, whichever they are (for the commands with most of them; the others report their
two alike). -/
theorem C78_reports_dumpnode (ps : List String) (o : DumpNodeOpts) :
    (ps ≠ [] → Reports parseDumpnode (.parsed ps o) "no positional arguments allowed") ∧
    (¬ SystemFits o.toSystemOpts → Reports parseDumpnode (.parsed ps o) "mem-profile-rate requires mem-profile") ∧
    ((o.SubIndexIndex = none) ≠ (o.SubIndexCount = none) →
      Reports parseDumpnode (.parsed ps o) "sub-index-count and sub-index-index must be specified together") ∧
    (∀ i c, o.SubIndexIndex = some i → o.SubIndexCount = some c → ¬ i < c →
      Reports parseDumpnode (.parsed ps o) "sub-index-index must be below sub-index-count") := by
  refine ⟨fun h => reports rfl ?_, fun h => reports rfl ?_, fun h => reports rfl ?_, fun i c h1 h2 h => reports rfl ?_⟩
  · simp [positionalErrors, h]
  · rw [← system_nil] at h
    have : o.toSystemOpts.Validate = ["mem-profile-rate requires mem-profile"] := by
      unfold SystemOpts.Validate at h ⊢
      split at h
      · rename_i hc; rw [if_pos hc]
      · exact absurd rfl h
    simp [this]
  · have : (o.SubIndexCount.isSome != o.SubIndexIndex.isSome) = true := by
      cases h1 : o.SubIndexIndex <;> cases h2 : o.SubIndexCount <;> simp [h1, h2] at h ⊢
    simp [subErrors, this]
  · simp [subErrors, h1, h2, h]

/-- C78: the same for the way index. -/
theorem C78_reports_dumpway (ps : List String) (o : DumpWayOpts) :
    (ps ≠ [] → Reports parseDumpway (.parsed ps o) "no positional arguments allowed") ∧
    (¬ SystemFits o.toSystemOpts → Reports parseDumpway (.parsed ps o) "mem-profile-rate requires mem-profile") ∧
    ((o.SubIndexIndex = none) ≠ (o.SubIndexCount = none) →
      Reports parseDumpway (.parsed ps o) "sub-index-count and sub-index-index must be specified together") ∧
    (∀ i c, o.SubIndexIndex = some i → o.SubIndexCount = some c → ¬ i < c →
      Reports parseDumpway (.parsed ps o) "sub-index-index must be below sub-index-count") := by
  refine ⟨fun h => reports rfl ?_, fun h => reports rfl ?_, fun h => reports rfl ?_, fun i c h1 h2 h => reports rfl ?_⟩
  · simp [positionalErrors, h]
  · rw [← system_nil] at h
    have : o.toSystemOpts.Validate = ["mem-profile-rate requires mem-profile"] := by
      unfold SystemOpts.Validate at h ⊢
      split at h
      · rename_i hc; rw [if_pos hc]
      · exact absurd rfl h
    simp [this]
  · have : (o.SubIndexCount.isSome != o.SubIndexIndex.isSome) = true := by
      cases h1 : o.SubIndexIndex <;> cases h2 : o.SubIndexCount <;> simp [h1, h2] at h ⊢
    simp [subErrors, this]
  · simp [subErrors, h1, h2, h]

/-! ## What acceptance is good for -/

/-- C78: dumpnodeindex with accepted arguments for part `i` of `c` of a complete index prints that part (C66) exactly if the
index is not too small for `c` parts: a part has at least one location, and the last range does not begin before the part. -/
theorem C78_dumpnodeindex (p : Parsed DumpNodeOpts) (o : DumpNodeOpts) (h : parseDumpnode p = .run o) (i c : UInt64)
    (hi : o.SubIndexIndex = some i) (hcnt : o.SubIndexCount = some c) (hs : o.StartElement = none) (he : o.EndElement = none)
    (file : List UInt8) (ix : NodeIndex.NodeIdx) (hload : NodeIndex.NewNodeIndex file = .ok ix)
    (wf : WellFormed ix.elements ix.locations) (hc : Complete ix) (hL : ix.locations.length < 2 ^ 63)
    (last : NodeIndex.IndexElement) (hlast : ix.elements.getLast? = some last) :
    ((∃ lines, dumpnodeindex o file = .ok lines) ↔
      0 < ix.locations.length / c.toNat ∧
        ix.locations.length / c.toNat * i.toNat + rCount last ≤ ix.locations.length) ∧
    ∀ lines, dumpnodeindex o file = .ok lines → Dump.NodeLine.mismatch ∉ lines := by
  obtain ⟨_, _, hsub⟩ := (C78_starts.2.2.2.2.2.2.2.1 p o).1 h
  have hlt : i.toNat < c.toNat := by
    rcases hsub with ⟨h1, _⟩ | ⟨i', c', h1, h2, h3⟩
    · rw [hi] at h1; cases h1
    · rw [hi] at h1; rw [hcnt] at h2
      cases h1; cases h2
      exact UInt64.lt_iff_toNat_lt.1 h3
  have hne : ix.elements ≠ [] := by rintro e; rw [e] at hlast; cases hlast
  have hdl : slotCount ix.elements.dropLast + rCount last = ix.locations.length := by
    rw [← hc]
    obtain ⟨ys, hys⟩ := List.getLast?_eq_some_iff.1 hlast
    rw [hys, List.dropLast_concat, NodeIndex.slotCount_append, NodeIndex.slotCount_cons, NodeIndex.slotCount_nil]
    rfl
  have heq := NodeIndex.subIndex_eq ix hc hL i.toNat c.toNat hlt (UInt64.toNat_lt c)
  rw [UInt64.ofNat_toNat, UInt64.ofNat_toNat] at heq
  dsimp only at heq
  have hdump : dumpnodeindex o file =
      Dump.dumpNodes ⟨o.PrintLocations, o.SearchIndex, some (i, c), none, none⟩ file := by
    unfold dumpnodeindex
    rw [hi, hcnt, hs, he]
    rfl
  rw [hdump]
  have ha := NodeIndex.cutAt_lt_iff (ix.locations.length / c.toNat * i.toNat) ix.elements hne
  have hb : 0 < NodeIndex.cutAt (ix.locations.length / c.toNat * (i.toNat + 1)) 0 ix.elements ↔
      0 < ix.locations.length / c.toNat * (i.toNat + 1) := by
    cases hel : ix.elements with
    | nil => exact absurd hel hne
    | cons e es =>
      unfold NodeIndex.cutAt
      split <;> omega
  have hbl := NodeIndex.cutAt_le (ix.locations.length / c.toNat * (i.toNat + 1)) 0 ix.elements
  have hpos : 0 < ix.locations.length / c.toNat * (i.toNat + 1) ↔ 0 < ix.locations.length / c.toNat :=
    ⟨fun h => Nat.pos_of_mul_pos_right h, fun h => Nat.mul_pos h (by omega)⟩
  have hprint : ∀ si, ix.SubIndex i c = .ok si →
      Dump.dumpNodes ⟨o.PrintLocations, o.SearchIndex, some (i, c), none, none⟩ file = .ok
        (si.element.flatMap (rangeLines o.PrintLocations o.SearchIndex ix.locations)) := by
    intro si hsi
    have := C66_nodes ⟨o.PrintLocations, o.SearchIndex, some (i, c), none, none⟩ file ix hload wf i c rfl si hsi 0 rfl _ rfl
    rw [this]
    simp
  have hok : (∃ si, ix.SubIndex i c = .ok si) ↔ 0 < ix.locations.length / c.toNat ∧
        ix.locations.length / c.toNat * i.toNat + rCount last ≤ ix.locations.length := by
    rw [heq]
    constructor
    · rintro ⟨si, h⟩
      split at h
      · rename_i hcond
        exact ⟨hpos.1 (hb.1 hcond.2), by have := ha.1 hcond.1; omega⟩
      · cases h
    · rintro ⟨h1, h2⟩
      have hb' := hb.2 (hpos.2 h1)
      rw [if_pos ⟨ha.2 (by omega), hb'⟩, List.getElem?_eq_getElem (by omega)]
      exact ⟨_, rfl⟩
  constructor
  · rw [← hok]
    constructor
    · rintro ⟨lines, h⟩
      unfold Dump.dumpNodes at h
      rw [hload, Res.ok_bind] at h
      obtain ⟨si, h, _⟩ := Res.bind_eq_ok.1 h
      exact ⟨si, h⟩
    · rintro ⟨si, h⟩
      exact ⟨_, hprint si h⟩
  · intro lines hl
    have hl' := hl
    unfold Dump.dumpNodes at hl'
    rw [hload, Res.ok_bind] at hl'
    obtain ⟨si, hsi, _⟩ := Res.bind_eq_ok.1 hl'
    rw [hprint si hsi] at hl
    cases hl
    exact C66_no_mismatch _ _ _ _

/-- C78: accepted arguments mean what they say: dumpnodeindex prints of the part of the index asked for (all of it by default)
the ranges from the given start up to, but without, the given end, with their locations if and only if these are asked for,
searched for if and only if that is asked for (C66). -/
theorem C78_dumpnodeindex_prints (p : Parsed DumpNodeOpts) (o : DumpNodeOpts) (h : parseDumpnode p = .run o)
    (file : List UInt8) (ix : NodeIndex.NodeIdx) (hload : NodeIndex.NewNodeIndex file = .ok ix)
    (wf : WellFormed ix.elements ix.locations) (si : NodeIndex.SubIdx)
    (hsi : ix.SubIndex (o.SubIndexIndex.getD 0) (o.SubIndexCount.getD 1) = .ok si)
    (hs : 0 ≤ o.StartElement.getD 0) :
    dumpnodeindex o file = .ok (((si.element.take (o.EndElement.getD si.element.length).toNat).drop
      (o.StartElement.getD 0).toNat).flatMap (rangeLines o.PrintLocations o.SearchIndex ix.locations)) := by
  obtain ⟨_, _, hsub⟩ := (C78_starts.2.2.2.2.2.2.2.1 p o).1 h
  unfold dumpnodeindex
  rcases hsub with ⟨h1, h2⟩ | ⟨i, c, h1, h2, h3⟩
  · rw [h1, h2] at hsi
    rw [h1]
    exact C66_nodes ⟨o.PrintLocations, o.SearchIndex, none, o.StartElement, o.EndElement⟩ file ix hload wf 0 1 rfl si hsi
      (o.StartElement.getD 0).toNat (Int.toNat_of_nonneg hs).symm _ rfl
  · rw [h1, h2] at hsi
    rw [h1, h2]
    exact C66_nodes ⟨o.PrintLocations, o.SearchIndex, some (i, c), o.StartElement, o.EndElement⟩ file ix hload wf i c rfl si hsi
      (o.StartElement.getD 0).toNat (Int.toNat_of_nonneg hs).symm _ rfl

/-- C78: likewise dumpwayindex: every way of the index, with its locations if and only if these are asked for, searched for (in
the part asked for, by default all) if and only if that is asked for. -/
theorem C78_dumpwayindex_prints (p : Parsed DumpWayOpts) (o : DumpWayOpts) (h : parseDumpway p = .run o)
    (file : List UInt8) (ix : WayIndex.WayIdx) (hload : WayIndex.NewWayIndex file = .ok ix)
    (hw : WayOrdered ix.Ids ix.Loc ix.AlignmentShift) (si : WayIndex.SubIdx)
    (hsi : ix.SubIndexWithScaledPass (o.SubIndexIndex.getD 0) (o.SubIndexCount.getD 1) = .ok si)
    (stored : UInt64 → List Int64) (hst : ∀ d ∈ ix.Ids, Stored ix.Loc ix.AlignmentShift d = .ok (stored d)) :
    dumpwayindex o file = .ok (ix.Ids.flatMap fun d =>
      wayLines o.PrintLocations o.SearchIndex (si.Ids.contains d) (Int64.ofNat (wId d)) (stored d)) := by
  obtain ⟨_, _, hsub⟩ := (C78_starts.2.2.2.2.2.2.2.2 p o).1 h
  unfold dumpwayindex
  rcases hsub with ⟨h1, h2⟩ | ⟨i, c, h1, h2, h3⟩
  · rw [h1, h2] at hsi
    rw [h1]
    exact C66_ways ⟨o.PrintLocations, o.SearchIndex, none⟩ file ix hload hw 0 1 rfl si hsi stored hst
  · rw [h1, h2] at hsi
    rw [h1, h2]
    exact C66_ways ⟨o.PrintLocations, o.SearchIndex, some (i, c)⟩ file ix hload hw i c rfl si hsi stored hst

/-- C78: accepted arguments of dumpnodeindex never divide by zero; those of dumpwayindex may, since its numbers can be
negative. -/
theorem C78_negative_parts : ∃ o, parseDumpway (.parsed [] o) = .run o ∧ ∀ file lines, dumpwayindex o file ≠ .ok lines := by
  refine ⟨⟨⟨none, none, none, none⟩, "x", true, true, some (-1), some 0⟩, rfl, ?_⟩
  intro file lines h
  unfold dumpwayindex Dump.dumpWays at h
  obtain ⟨q, hq, h⟩ := Res.bind_eq_ok.1 h
  cases hq
  obtain ⟨ix, _, h⟩ := Res.bind_eq_ok.1 h
  obtain ⟨si, h, _⟩ := Res.bind_eq_ok.1 h
  cases h

/-- C78: any number of workers and passes is accepted; but a negative number of workers panics, with none nothing ever
happens (`C56_zero_workers`), and without a pass no output is written. -/
theorem C78_counts_unchecked (o : RelOpts) (ho : SystemFits o.toSystemOpts) :
    parseRelindex (.parsed [] o) = .run o ∧
    (o.Workers.toInt < 0 → startWorkers o.Workers = .panic) ∧
    (o.Passes.toInt ≤ 0 → ∀ (blocks : List (Option (List Int64))) (fs fs' : FS),
      (RelIndex.relindex o.OutputFile o.WayIndex (relPasses o) blocks).exec fs = .ok ((), fs') →
      fs' o.OutputFile = fs o.OutputFile) := by
  refine ⟨(C78_starts.2.2.2.2.2.1 _ o).2 ⟨rfl, ho⟩, fun h => if_pos h, fun h blocks fs fs' hr => ?_⟩
  have h0 : relPasses o = 0 := by unfold relPasses; omega
  rw [h0] at hr
  unfold RelIndex.relindex at hr
  obtain ⟨f1, i1, _, i3⟩ := RelIndex.initOutput_exec (RelIndex.makePassFilename o.OutputFile 0 0) blocks fs
  rw [Prog.exec_bind, i1, Res.ok_bind, Prog.exec_bind, exec_OsOpen] at hr
  dsimp only at hr
  split at hr
  · rw [Res.ok_bind, Prog.exec_bind, exec_MMapMap] at hr
    dsimp only at hr
    split at hr
    · cases hr
    · split at hr
      · cases hr
      · rw [Res.ok_bind, Prog.exec_bind, Prog.exec_lift] at hr
        obtain ⟨⟨ix, f2⟩, e1, hr⟩ := Res.bind_eq_ok.1 hr
        obtain ⟨ix', _, e1⟩ := Res.bind_eq_ok.1 e1
        cases e1
        have hr' := Res.ok.inj hr
        cases hr'
        exact i3 _ (RelIndex.pass_ne_out _ _ _).symm
  · cases hr

/-! ## Examples -/

/-- The second of two parts of an index with two ranges of two nodes. -/
example : ∃ o, parseDumpnode (.parsed [] o) = .run o ∧ o.SubIndexIndex = some 1 ∧ o.SubIndexCount = some 2 ∧
    ∃ file ix last, NodeIndex.NewNodeIndex file = .ok ix ∧ WellFormed ix.elements ix.locations ∧ Complete ix ∧
      ix.elements.getLast? = some last ∧ 0 < ix.locations.length / 2 ∧
      ix.locations.length / 2 * 1 + rCount last ≤ ix.locations.length := by
  refine ⟨⟨⟨none, none, none, none⟩, "x", true, true, some 1, some 2, none, none⟩, rfl, rfl, rfl, _,
    ⟨[⟨5, 2⟩, ⟨10, 0x2000002⟩], [-5, -6, -10, -11]⟩, _, NodeIndexer.load_file _ _ (by decide), ?_, by unfold Complete; decide,
    rfl, by decide, by decide⟩
  exact ⟨by decide, by decide, by decide, by decide⟩

/-- Three faults at once, and the help. -/
example (o : DumpNodeOpts) (h1 : o.SubIndexIndex = some 3) (h2 : o.SubIndexCount = some 3) (h3 : o.MemProfileRate = some 1)
    (h4 : o.MemProfile = none) :
    Reports parseDumpnode (.parsed ["file"] o) "no positional arguments allowed" ∧
    Reports parseDumpnode (.parsed ["file"] o) "mem-profile-rate requires mem-profile" ∧
    Reports parseDumpnode (.parsed ["file"] o) "sub-index-index must be below sub-index-count" ∧
    parseDumpnode (.failed (.flags true "usage")) = .exit 0 [(.stdout, .help)] := by
  obtain ⟨r1, r2, _, r4⟩ := C78_reports_dumpnode ["file"] o
  exact ⟨r1 (by simp), r2 (by unfold SystemFits; simp [h3, h4]), r4 3 3 h1 h2 (by decide), rfl⟩

end Osm.Props
