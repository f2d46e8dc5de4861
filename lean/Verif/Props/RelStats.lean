import Verif.Lemmas.RelStats
import Verif.Lemmas.Stats
import Verif.Props.RelPass
import Verif.Props.RelIndex
import Verif.Props.Text

/-!
# C96: the statistics of relindex say what has become of the ways
-/

namespace Osm.Props
open Osm Osm.T Osm.WayIndex Osm.RelIndex Osm.Spec
open _root_.Osm.NodeIndex (Counter)
open _root_.Osm.Rewrite (bind_ok lift_ok pure_ok Erases)

/-! ## Counting does not change what the program does -/

theorem rewrite_erases (out inp : String) (hne : inp ≠ out) (ix : WayIdx) (pass count : Int64) :
    Erases (rewrite out inp ix pass count) (rewriteC out inp ix pass count) := by
  intro fs fs'
  unfold rewrite rewriteC
  simp only [bind_ok, lift_ok]
  constructor
  · rintro ⟨swi, f1, ⟨h1, rfl⟩, _, f2, h2, _, f3, h3, m, f4, h4, h5⟩
    have e2 := only_OsOpen "" _ _ _ h2
    have e4 := only_MMapMap _ _ _ h4
    dsimp only at e2 e4
    subst e2 e4
    unfold OsCreate at h3
    rw [Prog.exec_emit] at h3
    cases h3
    obtain ⟨rels, ⟨q1, q2⟩, q3, -, -⟩ := rewriteLoop_inv _ _ _ _ _ [] (set_same _ _ _) h5
    refine ⟨(rels.flatMap (·.ways)).flatMap (wayCounts swi), swi, _, ⟨h1, rfl⟩, (), _, h2, (), _, rfl, m, _, h4, (), _, h5, ?_, rfl⟩
    · have := countLoop_run rels q2 q3 ((ByteSliceAsInt64Slice m).length + 1) (by
        rw [q1]
        have := words_length rels
        omega)
      rw [← q1] at this
      exact this
  · rintro ⟨c, swi, f1, ⟨h1, rfl⟩, _, f2, h2, _, f3, h3, m, f4, h4, _, f5, h5, h6, rfl⟩
    exact ⟨swi, _, ⟨h1, rfl⟩, _, f2, h2, _, f3, h3, m, f4, h4, h5⟩

theorem runPasses_erases (out : String) (ix : WayIdx) (n : Nat) :
    ∀ left i, Erases (runPasses out ix n left i) (runPassesC out ix n left i) := by
  have hne : ∀ i, makePassFilename out i n ≠ if i + 1 < n then makePassFilename out (i + 1) n else out := by
    intro i h
    split at h
    · have := pass_inj h
      omega
    · exact pass_ne_out _ _ _ h
  intro left
  induction left with
  | zero =>
    intro i fs fs'
    unfold runPasses runPassesC
    simp only [pure_ok]
    simp
  | succ left ih =>
    intro i fs fs'
    unfold runPasses runPassesC
    simp only [bind_ok, pure_ok]
    constructor
    · rintro ⟨_, f1, h1, _, f2, h2, h3⟩
      obtain ⟨c, hc⟩ := (rewrite_erases _ _ (hne i) _ _ _ _ _).1 h1
      obtain ⟨cs, hcs⟩ := (ih _ _ _).1 h3
      exact ⟨_, c, f1, hc, _, f2, h2, cs, fs', hcs, rfl, rfl⟩
    · rintro ⟨_, c, f1, hc, _, f2, h2, cs, _, hcs, rfl, rfl⟩
      exact ⟨_, f1, (rewrite_erases _ _ (hne i) _ _ _ _ _).2 ⟨c, hc⟩, _, f2, h2, (ih _ _ _).2 ⟨cs, hcs⟩⟩

/-- C96: the program that also returns the increments of its counters does what the program does, on every input. -/
theorem C96_same_run (out wayIndex : String) (n : Nat) (sent : List (Option (List Int64))) (fs fs' : FS) :
    (relindex out wayIndex n sent).exec fs = .ok ((), fs') ↔
      ∃ counts, (relindexC out wayIndex n sent).exec fs = .ok (counts, fs') := by
  unfold relindex relindexC
  simp only [bind_ok, lift_ok]
  constructor
  · rintro ⟨_, f1, h1, _, f2, h2, m, f3, h3, ix, _, ⟨h4, rfl⟩, h5⟩
    obtain ⟨cs, hcs⟩ := (runPasses_erases _ _ _ _ _ _ _).1 h5
    exact ⟨cs, _, f1, h1, _, f2, h2, m, _, h3, ix, _, ⟨h4, rfl⟩, hcs⟩
  · rintro ⟨cs, _, f1, h1, _, f2, h2, m, f3, h3, ix, _, ⟨h4, rfl⟩, h5⟩
    exact ⟨_, f1, h1, _, f2, h2, m, _, h3, ix, _, ⟨h4, rfl⟩, (runPasses_erases _ _ _ _ _ _ _).2 ⟨cs, h5⟩⟩

/-! ## One pass -/

/-- The ways that a pass file does not have the locations of yet. -/
def pendingIds (rels : List PassRel) : List Int64 :=
  (rels.flatMap (·.ways)).filterMap fun
    | .pending w => some (-w)
    | .done _ _ => none

theorem wayCounts_pending {swi : SubIdx} (hw : WayOrderedSub swi) (ws : List PassWay) (hr : ∀ w ∈ ws, WayRuns swi w) :
    ws.flatMap (wayCounts swi) = (ws.filterMap fun
      | .pending w => some (-w)
      | .done _ _ => none).map fun w => wayCounter (passOf swi).1 (passOf swi).2 w.toInt := by
  induction ws with
  | nil => rfl
  | cons w ws ih =>
    rw [List.flatMap_cons, ih fun w h => hr w (by simp [h])]
    cases w with
    | done _ _ => rfl
    | pending w =>
      obtain ⟨r, hr⟩ := hr (.pending w) (by simp)
      have e : wayCounts swi (.pending w) = r.counted := by
        unfold wayCounts
        dsimp only
        rw [hr]
      rw [e, find_counted hw _ hr]
      rfl

/-- C96: whatever its input, a pass that succeeds has looked up exactly the ways without locations in its input, in order, and
has counted each by whether it was found. -/
theorem C96_pass {swi : SubIdx} (hw : WayOrderedSub swi) {ix : WayIdx} {pass count : Int64}
    (hs : ix.SubIndexWithScaledPass pass count = .ok swi) {out inp : String} (hne : inp ≠ out) {fs fs' : FS}
    {file : List UInt8} (hf : Holds fs inp file) (c : List Counter)
    (h : (rewriteC out inp ix pass count).exec fs = .ok (c, fs')) {rels : List PassRel} (hrels : PassFile file rels) :
    c = (pendingIds rels).map fun w => wayCounter (passOf swi).1 (passOf swi).2 w.toInt := by
  have h0 := (rewrite_erases out inp hne ix pass count fs fs').2 ⟨c, h⟩
  obtain ⟨-, rels', h1, h2⟩ := (C94_succeeds_iff hs hne fs hf).1 ⟨fs', h0⟩
  obtain rfl := C94_unique _ _ _ h1 hrels
  obtain ⟨q1, q2⟩ := passFile_iff.1 h1
  unfold rewriteC at h
  simp only [bind_ok, lift_ok] at h
  obtain ⟨swi', f1, ⟨g1, rfl⟩, _, f2, g2, _, f3, g3, m, f4, g4, _, f5, g5, g6, rfl⟩ := h
  rw [hs] at g1
  cases g1
  have e2 := only_OsOpen "" _ _ _ g2
  dsimp only at e2
  subst e2
  unfold OsCreate at g3
  rw [Prog.exec_emit] at g3
  cases g3
  rw [exec_MMapMap] at g4
  obtain ⟨pos, hf⟩ := hf
  rw [show (FsOp.create out).run f2 inp = some ⟨file, pos⟩ by rw [← hf]; exact set_other _ _ hne] at g4
  dsimp only at g4
  split at g4
  · cases g4
  · cases g4
    have hruns : ∀ r ∈ rels', RelRuns swi r := by
      intro r hr w hw
      cases w with
      | pending w => exact h2 r hr w hw
      | done _ _ => trivial
    have := countLoop_run rels' q2 hruns ((ByteSliceAsInt64Slice file).length + 1) (by
      rw [q1]
      have := words_length rels'
      omega)
    rw [← q1, g6] at this
    rw [Res.ok.inj this, wayCounts_pending hw _ (by
      intro w hw
      obtain ⟨r, hr, hw⟩ := List.mem_flatMap.1 hw
      exact hruns r hr w hw)]
    rfl

/-! ## The whole run -/

/-- A relation of the files between the passes. -/
def toPass (r : Int64 × List Member) : PassRel :=
  ⟨r.1, Int64.ofNat r.2.length, r.2.map fun
    | (id, none) => .pending (-id)
    | (id, some ls) => .done id ls⟩

theorem toPass_words (r : Int64 × List Member) : (toPass r).words = encRel r := by
  unfold toPass PassRel.words encRel
  dsimp only
  rw [List.flatMap_map]
  congr 3
  funext m
  obtain ⟨id, o⟩ := m
  cases o <;> rfl

theorem toPass_valid (r : Int64 × List Member) (h : RelOk r) : (toPass r).Valid := by
  refine ⟨?_, ?_⟩
  · show (r.2.map _).length = (Int64.ofNat r.2.length).toInt.toNat
    rw [List.length_map, Int64.toInt_ofNat_of_lt (by have := h.1; omega)]
    rfl
  · intro w hw
    obtain ⟨⟨id, o⟩, hm, rfl⟩ := List.mem_map.1 hw
    obtain ⟨h1, h2⟩ := h.2 _ hm
    cases o with
    | none => exact (toInt_neg_neg id h1).1
    | some ls =>
      refine ⟨?_, by have := h2 ls rfl; omega⟩
      rw [Int64.le_iff_toInt_le]
      show (0 : Int) ≤ id.toInt
      dsimp only at h1
      omega

theorem state_passFile {rs : List (Int64 × List Member)} (h : ∀ r ∈ rs, RelOk r) :
    PassFile (Int64SliceAsByteSlice (rs.flatMap encRel)) (rs.map toPass) := by
  rw [passFile_iff, byteSlice_int64Slice]
  refine ⟨?_, ?_⟩
  · rw [List.flatMap_map]
    congr 1
    funext r
    exact (toPass_words r).symm
  · intro r hr
    obtain ⟨r', hr', rfl⟩ := List.mem_map.1 hr
    exact toPass_valid r' (h r' hr')

theorem state_pending (locs : Int64 → List Int64) (ix : WayIdx) (n i : Nat) (rs : List Relation) :
    pendingIds ((stateAt locs ix n i rs).map toPass) = (rs.flatMap wayMembers).filter fun w => !known ix n i w := by
  unfold pendingIds stateAt
  rw [List.map_map, List.flatMap_map]
  induction rs with
  | nil => rfl
  | cons r rs ih =>
    rw [List.flatMap_cons, List.flatMap_cons, List.filterMap_append, List.filter_append, ih]
    congr 1
    show List.filterMap _ ((List.map _ (wayMembers r)).map _) = _
    generalize wayMembers r = ws
    induction ws with
    | nil => rfl
    | cons w ws ih2 =>
      rw [List.map_cons, List.map_cons, List.filterMap_cons, List.filter_cons]
      cases hk : known ix n i w with
      | true => exact ih2
      | false =>
        show - -w :: _ = w :: _
        rw [ih2, Int64.neg_neg]

theorem has_passOf (si : SubIdx) (w : Int64) : has si w = decide (w.toInt ∈ (passOf si).1) := by
  rw [Bool.eq_iff_iff, decide_eq_true_iff]
  unfold has passOf
  rw [List.any_eq_true, List.mem_map]
  simp

theorem known_filter {ix : WayIdx} {n i : Nat} {si : SubIdx}
    (hs : ix.SubIndexWithScaledPass (Int64.ofNat i) (Int64.ofNat n) = .ok si) (ws : List Int64) :
    (ws.filter fun w => !known ix n i w).filter (fun w => w.toInt ∉ (passOf si).1) = ws.filter fun w => !known ix n (i + 1) w := by
  rw [List.filter_filter]
  refine List.filter_congr fun w _ => ?_
  rw [show known ix n (i + 1) w = (known ix n i w || has si w) by rw [known.eq_def]; dsimp only; rw [hs], has_passOf]
  by_cases h : w.toInt ∈ (passOf si).1 <;> cases known ix n i w <;> simp [h]

theorem runPassesC_eq (out : String) {ix : WayIdx} (hw : WayOrdered ix.Ids ix.Loc ix.AlignmentShift)
    {locs : Int64 → List Int64} {rs : List Relation} (hr : RelationsOk locs rs) (hne : rs ≠ []) {n : Nat} (hn : n < 2 ^ 63)
    (ha : ∀ p < n, ∀ si, ix.SubIndexWithScaledPass (Int64.ofNat p) (Int64.ofNat n) = .ok si →
      ∀ d ∈ si.Ids, Stored ix.Loc ix.AlignmentShift d = .ok (locs (Int64.ofNat (wId d)))) :
    ∀ (left i : Nat) (subs : List SubIdx) (fs fs' : FS) (cs : List (List Counter)), i + left = n →
      mapRes (fun p => ix.SubIndexWithScaledPass (Int64.ofNat p) (Int64.ofNat n)) (List.range' i left) = .ok subs →
      (left ≠ 0 → Holds fs (makePassFilename out i n) (Int64SliceAsByteSlice ((stateAt locs ix n i rs).flatMap encRel))) →
      (runPassesC out ix n left i).exec fs = .ok (cs, fs') →
      cs = wayPassCounts (subs.map passOf) ((rs.flatMap wayMembers).filter fun w => !known ix n i w) := by
  intro left
  induction left with
  | zero =>
    intro i subs fs fs' cs hi hs hin h
    cases hs
    unfold runPassesC at h
    cases h
    rfl
  | succ left ih =>
    intro i subs fs fs' cs hi hs hin h
    have hin := hin (by omega)
    rw [List.range'_succ] at hs
    unfold mapRes at hs
    obtain ⟨si, hsi, hs⟩ := Res.bind_eq_ok.1 hs
    obtain ⟨subs', hs', hs⟩ := Res.bind_eq_ok.1 hs
    cases hs
    have hfn : makePassFilename out i n ≠ if i + 1 < n then makePassFilename out (i + 1) n else out := by
      intro h
      split at h
      · have := pass_inj h
        omega
      · exact pass_ne_out _ _ _ h
    unfold runPassesC at h
    simp only [bind_ok, pure_ok] at h
    obtain ⟨c, f1, h1, _, f2, h2, cs', f3, h3, rfl, e3⟩ := h
    have hc := C96_pass (sub_facts hw hsi).2.2.2 hsi hfn hin c h1 (state_passFile (stateAt_ok hr ix n i))
    rw [state_pending] at hc
    have h0 := (rewrite_erases _ _ hfn _ _ _ _ _).2 ⟨c, h1⟩
    obtain ⟨f1', r1, r2, r3⟩ := rewrite_ok (looks_ok hw hsi (ha i (by omega) si hsi)) ix _ _ hsi _ (makePassFilename out i n)
      hfn _ (stateAt_ok hr ix n i) (by
        intro h0
        exact hne (List.map_eq_nil_iff.1 h0)) fs hin
    rw [h0] at r1
    cases r1
    have hcs := ih (i + 1) subs' f2 f3 cs' (by omega) hs' (by
      intro hl
      rw [if_pos (by omega), not_last hn (by omega), show (!(decide (i + 1 < n))) = false by
        rw [decide_eq_true (by omega)]; rfl, step_state hsi] at r2
      unfold OsRemoveTry at h2
      rw [Prog.exec_emit] at h2
      cases h2
      obtain ⟨pos, r2⟩ := r2
      refine ⟨pos, ?_⟩
      rw [← r2]
      exact set_other _ _ (fun he => by have := pass_inj he; omega)) h3
    rw [hcs, hc, List.map_cons, ← known_filter hsi]
    rfl

/-- C96: the counts of a run, pass by pass, with the conditions of C44: they are those of the way members of the relations of
the source, each looked up in every pass until it is found. -/
theorem C96_run {ix : WayIdx} (hw : WayOrdered ix.Ids ix.Loc ix.AlignmentShift) {stored : Int64 → List Int64}
    (ha : Answers ix stored) (locs : Int64 → List Int64) (n : Nat) (hn : 1 ≤ n) (hn63 : n < 2 ^ 63)
    (hfound : ∀ w, FoundInPass ix n w → locs w = stored w) (hmissing : ∀ w, ¬ FoundInPass ix n w → locs w = [])
    {subs : List SubIdx}
    (hsubs : mapRes (fun p => ix.SubIndexWithScaledPass (Int64.ofNat p) (Int64.ofNat n)) (List.range n) = .ok subs)
    {blocks : List (Option PrimitiveBlock)} (hr : RelationsOk locs (allRelations blocks)) (hne : allRelations blocks ≠ [])
    (out wayIndex : String) (hwi : wayIndex ≠ out ∧ ∀ p < n, wayIndex ≠ makePassFilename out p n)
    (fs : FS) {file : List UInt8} (hf : Holds fs wayIndex file) (hload : NewWayIndex file = .ok ix) :
    ∃ sent fs', mapRes work blocks = .ok sent ∧ (relindex out wayIndex n sent).exec fs = .ok ((), fs') ∧
      (relindexC out wayIndex n sent).exec fs = .ok (wayPassCounts (subs.map passOf) (allWayMembers blocks), fs') := by
  obtain ⟨s, fs', h1, h2, _⟩ := C44_exact hw ha locs n hn hn63 hfound hmissing
    (fun p hp => NodeIndex.mapRes_mem hsubs p (List.mem_range.2 hp)) hr hne out wayIndex hwi fs hf hload
  refine ⟨s, fs', h1, h2, ?_⟩
  obtain ⟨cs, h3⟩ := (C96_same_run _ _ _ _ _ _).1 h2
  rw [h3]
  congr 2
  rw [work_eq blocks hr.lengths] at h1
  cases h1
  unfold relindexC at h3
  simp only [bind_ok, lift_ok] at h3
  obtain ⟨_, f1, g1, _, f2, g2, m, f3, g3, ix', _, ⟨g4, rfl⟩, g5⟩ := h3
  have e2 := only_OsOpen "" _ _ _ g2
  have e3 := only_MMapMap _ _ _ g3
  dsimp only at e2 e3
  subst e2 e3
  obtain ⟨fs1, k1, k2, k3⟩ := initOutput_exec (makePassFilename out 0 n) (blocks.map sent) fs
  rw [k1] at g1
  cases g1
  obtain ⟨pos, hf⟩ := hf
  rw [exec_MMapMap, k3 _ (hwi.2 0 (by omega)), hf] at g3
  dsimp only at g3
  split at g3
  · cases g3
  cases g3
  rw [hload] at g4
  cases g4
  have := runPassesC_eq out hw hr hne hn63 (by
      intro p hp si hs d hd
      rw [hfound _ ⟨p, hp, si, hs, d, hd, ?_⟩]
      · exact ha.present d ((sub_facts hw hs).1.mem hd)
      · rw [Int64.toInt_ofNat_of_lt (by unfold wId; have := d.toNat_lt; omega)])
    n 0 subs _ fs' cs (by omega) (by rw [← List.range_eq_range']; exact hsubs) (by
      intro _
      rw [start_enc, ← sent_flatMap]
      exact k2) g5
  rw [this]
  congr 1
  unfold allWayMembers
  rw [List.filter_eq_self]
  intro w _
  rfl

/-! ## What the numbers mean -/

/-- C96: in every run of passes, the hits of both kinds together are the way members that some pass has: each is found
once, none twice, however many passes there are. -/
theorem C96_hits (ps : List (List Int × Int)) (hps : ∀ p ∈ ps, ∀ i ∈ p.1, i ≤ p.2) : ∀ ws : List Int64,
    (wayPassCounts ps ws).flatten.count .hitHint + (wayPassCounts ps ws).flatten.count .hitDefault =
      ws.countP fun w => decide (∃ p ∈ ps, w.toInt ∈ p.1) := by
  induction ps with
  | nil => intro ws; simp [wayPassCounts]
  | cons p ps ih =>
    intro ws
    obtain ⟨ids, top⟩ := p
    have hp := hps _ (List.mem_cons_self)
    unfold wayPassCounts
    have ih := ih (fun p h => hps p (by simp [h])) (ws.filter fun w => w.toInt ∉ ids)
    rw [List.flatten_cons, List.count_append, List.count_append]
    have key : (ws.map fun w => wayCounter ids top w.toInt).count .hitHint +
        (ws.map fun w => wayCounter ids top w.toInt).count .hitDefault = ws.countP fun w => decide (w.toInt ∈ ids) := by
      clear ih
      induction ws with
      | nil => rfl
      | cons w ws ih =>
        rw [List.map_cons, List.count_cons, List.count_cons, List.countP_cons]
        have : (if wayCounter ids top w.toInt == .hitHint then 1 else 0) +
            (if wayCounter ids top w.toInt == .hitDefault then 1 else 0) = if decide (w.toInt ∈ ids) = true then 1 else 0 := by
          unfold wayCounter
          by_cases h1 : top < w.toInt
          · have : w.toInt ∉ ids := fun h => by have := hp _ h; dsimp only at this; omega
            simp [h1, this]
          · by_cases h2 : ids.head? = some w.toInt
            · have : w.toInt ∈ ids := List.mem_of_head? h2
              simp [h1, h2, this]
            · by_cases h3 : w.toInt ∈ ids
              · simp [h1, h2, h3]
              · simp [h1, h2, h3]
        omega
    have split : (ws.countP fun w => decide (∃ p ∈ (ids, top) :: ps, w.toInt ∈ p.1)) =
        (ws.countP fun w => decide (w.toInt ∈ ids)) +
        ((ws.filter fun w => w.toInt ∉ ids).countP fun w => decide (∃ p ∈ ps, w.toInt ∈ p.1)) := by
      clear ih key
      induction ws with
      | nil => rfl
      | cons w ws ih =>
        rw [List.countP_cons, List.countP_cons, ih]
        by_cases h : w.toInt ∈ ids
        · rw [List.filter_cons_of_neg (by simp [h])]
          simp [h]
          omega
        · rw [List.filter_cons_of_pos (by simp [h]), List.countP_cons,
            if_neg (show ¬ decide (w.toInt ∈ ids) = true by simp [h])]
          have e : (∃ p ∈ (ids, top) :: ps, w.toInt ∈ p.1) ↔ ∃ p ∈ ps, w.toInt ∈ p.1 := by simp [h]
          rw [decide_eq_decide.2 e]
          omega
    omega

/-- C96: the lookups of a pass are the way members that no earlier pass has. -/
theorem C96_lookups : ∀ (ps : List (List Int × Int)) (ws : List Int64) (k : Nat) (c : List Counter),
    (wayPassCounts ps ws)[k]? = some c →
    c.length = ws.countP fun w => decide (∀ p ∈ ps.take k, w.toInt ∉ p.1)
  | [], _, k, c, h => by simp [wayPassCounts] at h
  | (ids, top) :: ps, ws, 0, c, h => by
    unfold wayPassCounts at h
    cases h
    simp
  | (ids, top) :: ps, ws, k + 1, c, h => by
    unfold wayPassCounts at h
    rw [C96_lookups ps _ k c h, List.take_succ_cons, List.countP_filter]
    congr 1
    funext w
    by_cases hw : w.toInt ∈ ids <;> simp [hw]

/-- C96: in a pass, the deferred ways are those after the end of its part of the index, the missing ones those before it that
it does not have. -/
theorem C96_misses (ids : List Int) (top : Int) (ws : List Int64) :
    (ws.map fun w => wayCounter ids top w.toInt).count .missDeferred = ws.countP (fun w => decide (top < w.toInt)) ∧
    (ws.map fun w => wayCounter ids top w.toInt).count .missDefault =
      ws.countP (fun w => decide (w.toInt ≤ top ∧ w.toInt ∉ ids)) := by
  induction ws with
  | nil => exact ⟨rfl, rfl⟩
  | cons w ws ih =>
    rw [List.map_cons, List.count_cons, List.count_cons, List.countP_cons, List.countP_cons, ih.1, ih.2]
    unfold wayCounter
    by_cases h1 : top < w.toInt
    · simp [h1]
    · by_cases h2 : ids.head? = some w.toInt
      · have : w.toInt ∈ ids := List.mem_of_head? h2
        simp [h1, h2, this]
      · by_cases h3 : w.toInt ∈ ids
        · simp [h1, h2, h3]
        · simp [h1, h2, h3]

/-- C96: the whole run at once. If the passes cover the index (C41), the hits are the way members that the index has. -/
theorem C96_found {ix : WayIdx} (hw : WayOrdered ix.Ids ix.Loc ix.AlignmentShift) (n : Nat) {subs : List SubIdx}
    (hsubs : mapRes (fun p => ix.SubIndexWithScaledPass (Int64.ofNat p) (Int64.ofNat n)) (List.range n) = .ok subs)
    (hcover : ∀ d, d ∈ ix.Ids ↔ ∃ s ∈ subs, d ∈ s.Ids) (ws : List Int64) :
    (wayPassCounts (subs.map passOf) ws).flatten.count .hitHint + (wayPassCounts (subs.map passOf) ws).flatten.count .hitDefault =
      ws.countP fun w => decide (∃ d ∈ ix.Ids, (wId d : Int) = w.toInt) := by
  rw [C96_hits]
  · refine List.countP_congr fun w _ => ?_
    rw [decide_eq_true_iff, decide_eq_true_iff]
    constructor
    · rintro ⟨_, hp, hm⟩
      obtain ⟨si, hsi, rfl⟩ := List.mem_map.1 hp
      obtain ⟨d, hd, he⟩ := List.mem_map.1 hm
      exact ⟨d, (hcover d).2 ⟨si, hsi, hd⟩, he⟩
    · rintro ⟨d, hd, he⟩
      obtain ⟨si, hsi, hd⟩ := (hcover d).1 hd
      exact ⟨passOf si, List.mem_map.2 ⟨si, hsi, rfl⟩, List.mem_map.2 ⟨d, hd, he⟩⟩
  · intro p hp i hi
    obtain ⟨si, hsi, rfl⟩ := List.mem_map.1 hp
    obtain ⟨q, _, hq⟩ := mapRes_back hsubs si hsi
    obtain ⟨d, hd, rfl⟩ := List.mem_map.1 hi
    exact (sub_facts hw hq).2.2.2.2 d hd

/-- The counters at the end hold how often they were counted up (modulo 2^64). -/
theorem C96_counters (c : Counter) (counts : List (List Counter)) : counterValue c counts = UInt64.ofNat (counts.flatten.count c) := by
  unfold counterValue
  suffices h : ∀ (l : List Counter) (v : UInt64), l.foldl (fun v x => if x = c then v + 1 else v) v = v + UInt64.ofNat (l.count c) by
    rw [h]
    simp
  intro l
  induction l with
  | nil => intro v; simp
  | cons x l ih =>
    intro v
    rw [List.foldl_cons, ih, List.count_cons]
    by_cases hx : x = c
    · rw [if_pos hx, if_pos (by simpa using hx), UInt64.ofNat_add, UInt64.add_assoc, UInt64.add_comm 1]
      rfl
    · rw [if_neg hx, if_neg (by simpa using hx)]
      rfl

/-- C96, C95: whoever reads the statistics that relindex prints finds how often each counter was counted up in the run (fewer
than 2^64 lookups), and no timing. -/
theorem C96_printed (counts : List (List Counter)) (hl : counts.flatten.length < 2 ^ 64) (low high : Nat → Spec.Text.Text)
    (h : ∀ i, ' ' ∉ low i ∧ '\n' ∉ low i ∧ ' ' ∉ high i ∧ '\n' ∉ high i) (w x y z : Int) (l : List (Int × Int)) :
    Spec.Text.StatsReport (Osm.Text.statsText low high (counterValue .hitHint counts) (counterValue .hitDefault counts)
      (counterValue .missDefault counts) (counterValue .missDeferred counts) []) w x y z l ↔
    w = counts.flatten.count .hitHint ∧ x = counts.flatten.count .hitDefault ∧ y = counts.flatten.count .missDefault ∧
      z = counts.flatten.count .missDeferred ∧ l = [] := by
  have hc : ∀ c, (counterValue c counts).toNat = counts.flatten.count c := by
    intro c
    rw [C96_counters, UInt64.toNat_ofNat']
    have := List.count_le_length (a := c) (l := counts.flatten)
    omega
  rw [C95_stats low high h, hc, hc, hc, hc]
  rfl

/-- Two passes over the ways 3 and 5, then 8: of the members 3, 8, 4, 9, 3 the first pass finds two at the hint, defers two and
misses one; the second finds one and misses or defers the others again. -/
example : wayPassCounts [([3, 5], 5), ([8], 8)] [3, 8, 4, 9, 3] =
    [[.hitHint, .missDeferred, .missDefault, .missDeferred, .hitHint], [.hitHint, .missDefault, .missDeferred]] := by decide

/-- The hypotheses of `C96_run` are met: the example of C44. -/
example (out wayIndex : String) (hwi : wayIndex ≠ out ∧ ∀ n p, wayIndex ≠ makePassFilename out p n) (fs : FS)
    (hf : Holds fs wayIndex fiveFile) :
    ∃ sent fs', mapRes work [some fiveBlock] = .ok sent ∧ (relindex out wayIndex 1 sent).exec fs = .ok ((), fs') ∧
      (relindexC out wayIndex 1 sent).exec fs = .ok ([[.hitHint, .hitDefault, .missDeferred]], fs') := by
  obtain ⟨w1, w2, w3⟩ := fiveWays_ordered
  have hload : NewWayIndex fiveFile = .ok fiveWays := by decide +kernel
  obtain ⟨subs, hs, hcov⟩ := C41_few_passes _ w1 w2 w3 1 (by omega) (by omega) 0xa00000004 rfl (by decide)
  obtain ⟨s, fs', h1, h2, h3⟩ := C96_run w1 fiveWays_answers fiveLocs 1 (by omega) (by omega) (fun _ _ => rfl) (by
      intro w hw
      refine fiveWays_answers.absent w fun d hd he => hw ?_
      obtain ⟨si, hsi, hd⟩ := (hcov d).1 hd
      obtain ⟨q, hq, hq'⟩ := mapRes_back hs si hsi
      exact ⟨q, List.mem_range.1 hq, si, hq', d, hd, he⟩) hs
    (fiveRelations fiveLocs fiveLocs_length) (by decide) out wayIndex ⟨hwi.1, fun p _ => hwi.2 1 p⟩ fs hf hload
  refine ⟨s, fs', h1, h2, ?_⟩
  rw [h3]
  have : wayPassCounts (subs.map passOf) (allWayMembers [some fiveBlock]) = [[.hitHint, .hitDefault, .missDeferred]] := by
    have h : mapRes (fun p => fiveWays.SubIndexWithScaledPass (Int64.ofNat p) (Int64.ofNat 1)) (List.range 1) =
      .ok [⟨fiveWays.Ids, fiveWays.Loc, fiveWays.AlignmentShift, 5⟩] := by decide +kernel
    rw [h] at hs
    cases hs
    decide +kernel
  rw [this]

end Osm.Props
