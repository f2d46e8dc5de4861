import Verif.Lemmas.RelPasses
import Verif.Lemmas.WayOutput
import Verif.Props.WayIndex

/-!
# C43–C45: the relation index
-/

namespace Osm.Props
open Osm Osm.T Osm.WayIndex Osm.RelIndex Osm.Spec

/-! ## C43 -/

/-- C43: what the first pass writes, for any blocks whose relations have as many member types as members: for each
relation of the file in order its id, the number of its way members and their negated ids in member order. -/
theorem C43_stream (f : String) (blocks : List (Option PrimitiveBlock)) (fs : FS)
    (h : ∀ r ∈ allRelations blocks, r.MemIDs.length = r.MemberType.length) :
    ∃ sent fs', mapRes work blocks = .ok sent ∧ (InitOutput f sent).exec fs = .ok ((), fs') ∧
      Holds fs' f (Int64SliceAsByteSlice ((allRelations blocks).flatMap unresolvedEntry)) ∧
      ∀ g, g ≠ f → fs' g = fs g := by
  obtain ⟨fs', h1, h2, h3⟩ := initOutput_exec f (blocks.map sent) fs
  rw [sent_flatMap] at h2
  exact ⟨_, fs', work_eq blocks h, h1, h2, h3⟩

/-- C43: a relation with fewer member types than members panics. -/
theorem C43_missing_types (r : Relation) (h : r.MemberType.length < r.MemIDs.length) : relationWords r = .panic := by
  unfold relationWords
  rw [listWays_short _ _ 0 (by omega) (by omega)]
  rfl

/-- C43: the equal lengths are needed: with more member types than members the count is larger than the number of
ways that follow. -/
theorem C43_extra_types :
    relationWords ⟨7, [], [], [], [10], [1, 1]⟩ = .ok [7, 2, -10] := by decide +kernel

/-- A block with a relation with members of all kinds, and an empty relation. -/
def relBlock : PrimitiveBlock :=
  ⟨none, none, [⟨none, none, [], [], [⟨7, [], [], [], [10, 11, 2, 12, 2], [0, 2, 1, 0, 1]⟩, ⟨8, [], [], [], [], []⟩], []⟩],
    100, 1000, 0, 0⟩

example : (allRelations [none, some relBlock]).flatMap unresolvedEntry = [7, 2, -2, -2, 8, 0] ∧
    ∀ r ∈ allRelations [none, some relBlock], r.MemIDs.length = r.MemberType.length := by decide

/-! ## C44 -/

/-- C44: the exact content of the relation index after `n ≥ 1` passes over a well-formed way index, provided every
pass can be created: every way member in order, with its locations in the way index if one of the passes contains it,
else with count 0. -/
theorem C44_exact {ix : WayIdx} (hw : WayOrdered ix.Ids ix.Loc ix.AlignmentShift) {stored : Int64 → List Int64}
    (ha : Answers ix stored) (locs : Int64 → List Int64) (n : Nat) (hn : 1 ≤ n) (hn63 : n < 2 ^ 63)
    (hfound : ∀ w, FoundInPass ix n w → locs w = stored w) (hmissing : ∀ w, ¬ FoundInPass ix n w → locs w = [])
    (hpass : ∀ p < n, ∃ si, ix.SubIndexWithScaledPass (Int64.ofNat p) (Int64.ofNat n) = .ok si)
    {blocks : List (Option PrimitiveBlock)} (hr : RelationsOk locs (allRelations blocks)) (hne : allRelations blocks ≠ [])
    (out wayIndex : String) (hwi : wayIndex ≠ out ∧ ∀ p < n, wayIndex ≠ makePassFilename out p n)
    (fs : FS) {file : List UInt8} (hf : Holds fs wayIndex file) (hload : NewWayIndex file = .ok ix) :
    ∃ sent fs', mapRes work blocks = .ok sent ∧ (relindex out wayIndex n sent).exec fs = .ok ((), fs') ∧
      Holds fs' out (Int64SliceAsByteSlice ((allRelations blocks).flatMap (relationEntry locs))) := by
  obtain ⟨fs', h1, h2, -, -⟩ := relindex_ok out wayIndex hw hr hne hn hn63 (by
      intro p hp si hs d hd
      rw [hfound _ ⟨p, hp, si, hs, d, hd, ?_⟩]
      · exact ha.present d ((sub_facts hw hs).1.mem hd)
      · rw [Int64.toInt_ofNat_of_lt (by unfold wId; have := d.toNat_lt; omega)])
    hpass (by
      intro w hk
      refine hmissing w fun ⟨p, hp, si, hs, d, hd, he⟩ => ?_
      rw [known_of hs (List.any_eq_true.2 ⟨d, hd, decide_eq_true he⟩) n hp] at hk
      cases hk) fs hf hload (hwi.2 0 (by omega))
  exact ⟨_, fs', work_eq blocks hr.lengths, h1, h2⟩

/-- C44, when the passes cover the way index (see C41): every way member of every relation appears in order with its
locations from the way index, or with count 0 if the way is absent. The content does not mention the number of
passes, so it is independent of it. -/
theorem C44_content_partial {ix : WayIdx} (hw : WayOrdered ix.Ids ix.Loc ix.AlignmentShift) {locs : Int64 → List Int64}
    (ha : Answers ix locs) (n : Nat) (hn : 1 ≤ n) (hn63 : n < 2 ^ 63) (hcover : WayPassesCover ix n)
    {blocks : List (Option PrimitiveBlock)} (hr : RelationsOk locs (allRelations blocks)) (hne : allRelations blocks ≠ [])
    (out wayIndex : String) (hwi : wayIndex ≠ out ∧ ∀ p < n, wayIndex ≠ makePassFilename out p n)
    (fs : FS) {file : List UInt8} (hf : Holds fs wayIndex file) (hload : NewWayIndex file = .ok ix) :
    ∃ sent fs', mapRes work blocks = .ok sent ∧ (relindex out wayIndex n sent).exec fs = .ok ((), fs') ∧
      Holds fs' out (Int64SliceAsByteSlice ((allRelations blocks).flatMap (relationEntry locs))) := by
  obtain ⟨hsub, hall⟩ := cover_known hcover
  refine C44_exact hw ha locs n hn hn63 (fun _ _ => rfl) (fun w hw' => ha.absent w (hall w ?_)) hsub hr hne out wayIndex
    hwi fs hf hload
  cases hk : known ix n n w with
  | false => rfl
  | true =>
    obtain ⟨p, hp, si, hs, hh⟩ := known_sub hk
    obtain ⟨d, hd, he⟩ := List.any_eq_true.1 hh
    exact absurd ⟨p, hp, si, hs, d, hd, of_decide_eq_true he⟩ hw'

/-- C44: an input without relations is not handled: the passes cannot map the empty stream. -/
theorem C44_no_relations (out wayIndex : String) (n : Nat) (hn : 1 ≤ n) (sent : List (Option (List Int64)))
    (hs : sent.flatMap (·.getD []) = []) (fs : FS) : (relindex out wayIndex n sent).exec fs = .panic := by
  obtain ⟨fs1, h1, ⟨pos, h2⟩, h3⟩ := initOutput_exec (makePassFilename out 0 n) sent fs
  rw [hs] at h2
  unfold relindex
  rw [Prog.exec_bind, h1, Res.ok_bind, Prog.exec_bind, exec_OsOpen]
  dsimp only
  split
  · rw [Res.ok_bind, Prog.exec_bind, exec_MMapMap]
    dsimp only
    cases hm : fs1 wayIndex with
    | none => rfl
    | some x =>
      dsimp only
      split
      · rfl
      · rw [Res.ok_bind, Prog.exec_bind, Prog.exec_lift]
        dsimp only
        cases hl : NewWayIndex x.data with
        | panic => rfl
        | hang =>
          exfalso
          unfold NewWayIndex wordAt at hl
          revert hl
          cases (wordsOf x.data)[0 / 8]? with
          | none => intro hl; cases hl
          | some a =>
            cases (wordsOf x.data)[8 / 8]? with
            | none => intro hl; cases hl
            | some b =>
              intro hl
              simp only [Res.ofOption_some, Res.ok_bind] at hl
              split at hl <;> cases hl
        | ok ix =>
          rw [Res.ok_bind, Res.ok_bind]
          dsimp only
          obtain ⟨k, rfl⟩ : ∃ k, n = k + 1 := ⟨n - 1, by omega⟩
          unfold runPasses rewrite
          rw [Prog.exec_bind, Prog.exec_bind, Prog.exec_lift]
          have hnh : ix.SubIndexWithScaledPass (Int64.ofNat 0) (Int64.ofNat (k + 1)) ≠ .hang := by
            have fr : ∀ (t : Int) (ids : List UInt64) (i : Nat), firstReaching ix.AlignmentShift t i ids ≠ .hang := by
              intro t ids
              induction ids with
              | nil => intro i h; cases h
              | cons d ids ih =>
                intro i h
                unfold firstReaching goShl at h
                split at h
                · cases h
                split at h
                · rw [Res.ok_bind] at h
                  split at h
                  · cases h
                  · exact ih _ h
                · rw [Res.ok_bind] at h
                  split at h
                  · cases h
                  · exact ih _ h
            intro h
            unfold WayIdx.SubIndexWithScaledPass at h
            split at h
            · cases h
            revert h
            dsimp only
            generalize hA : firstReaching ix.AlignmentShift _ 0 ix.Ids = A
            cases A with
            | hang => exact absurd hA (fr _ _ _)
            | panic => intro h; cases h
            | ok s =>
              rw [Res.ok_bind]
              generalize hB : firstReaching ix.AlignmentShift _ (s.getD 0) _ = B
              cases B with
              | hang => exact absurd hB (fr _ _ _)
              | panic => intro h; cases h
              | ok e =>
                rw [Res.ok_bind]
                intro h
                split at h
                · cases h
                · revert h
                  cases ix.Ids[e.getD ix.Ids.length - 1]? <;> intro h <;> cases h
          cases hsub : ix.SubIndexWithScaledPass (Int64.ofNat 0) (Int64.ofNat (k + 1)) with
          | hang => exact absurd hsub hnh
          | panic => rfl
          | ok si =>
            rw [Res.ok_bind, Res.ok_bind]
            dsimp only
            rw [Prog.exec_bind, exec_OsOpen_some h2, Res.ok_bind, Prog.exec_bind]
            unfold OsCreate
            rw [Prog.exec_emit, Res.ok_bind, Prog.exec_bind, exec_MMapMap]
            dsimp only
            have : (FsOp.create (if 0 + 1 < k + 1 then makePassFilename out (0 + 1) (k + 1) else out)).run fs1
                (makePassFilename out 0 (k + 1)) = fs1 (makePassFilename out 0 (k + 1)) := by
              refine set_other _ _ ?_
              split
              · intro h; exact absurd (pass_inj h) (by decide)
              · exact pass_ne_out _ _ _
            rw [this, h2]
            rfl
  · rfl

/-- The locations in `fiveWays`. -/
def fiveLocs (w : Int64) : List Int64 :=
  if w = 1 then [1] else if w = 2 then [2] else if w = 3 then [3] else if w = 4 then [4] else if w = 5 then [5] else []

theorem fiveWays_answers : Answers fiveWays fiveLocs where
  present := by
    have : ∀ d ∈ fiveWays.Ids, d = 0x200000000 ∨ d = 0x400000001 ∨ d = 0x600000002 ∨ d = 0x800000003 ∨ d = 0xa00000004 := by
      decide
    intro d hd
    rcases this d hd with rfl | rfl | rfl | rfl | rfl <;> decide +kernel
  absent := by
    intro id h
    have key : ∀ k : Nat, k < 2 ^ 31 → id = Int64.ofNat k → (UInt64.ofNat (k * 2 ^ 33 + (k - 1))) ∈ fiveWays.Ids →
        wId (UInt64.ofNat (k * 2 ^ 33 + (k - 1))) = k → False := by
      intro k hk e h1 h2
      refine h _ h1 ?_
      rw [h2, e, Int64.toInt_ofNat_of_lt (by omega)]
    unfold fiveLocs
    repeat rw [if_neg]
    · intro e; exact key 5 (by decide) e (by decide) (by decide)
    · intro e; exact key 4 (by decide) e (by decide) (by decide)
    · intro e; exact key 3 (by decide) e (by decide) (by decide)
    · intro e; exact key 2 (by decide) e (by decide) (by decide)
    · intro e; exact key 1 (by decide) e (by decide) (by decide)

/-- The way index file with `fiveWays`. -/
def fiveFile : List UInt8 := bytesOf [5, 3] ++ bytesOf fiveWays.Ids ++ fiveWays.Loc

/-- A relation with ways 1, 5 and 9. -/
def fiveBlock : PrimitiveBlock :=
  ⟨none, none, [⟨none, none, [], [], [⟨7, [], [], [], [1, 5, 9], [1, 1, 1]⟩], []⟩], 100, 1000, 0, 0⟩

theorem fiveRelations (locs : Int64 → List Int64) (h : ∀ w, (locs w).length < 2 ^ 62) :
    RelationsOk locs (allRelations [some fiveBlock]) where
  lengths := by decide
  ids := by decide
  memory := by decide
  sizes := h

theorem fiveFound (n : Nat) (w : Int64) : FoundInPass fiveWays n w ↔ known fiveWays n n w = true := by
  constructor
  · rintro ⟨p, hp, si, hs, d, hd, he⟩
    exact known_of hs (List.any_eq_true.2 ⟨d, hd, decide_eq_true he⟩) n hp
  · intro hk
    obtain ⟨p, hp, si, hs, hh⟩ := known_sub hk
    obtain ⟨d, hd, he⟩ := List.any_eq_true.1 hh
    exact ⟨p, hp, si, hs, d, hd, of_decide_eq_true he⟩

theorem fiveLocs_length (w : Int64) : (fiveLocs w).length < 2 ^ 62 := by
  unfold fiveLocs
  (repeat' split) <;> decide

/-- C44 is false of the code for some numbers of passes: on the same input, one pass gives way 5 its location and 16
passes give it none. -/
theorem C44_false (out wayIndex : String) (hwi : wayIndex ≠ out ∧ ∀ n p, wayIndex ≠ makePassFilename out p n) (fs : FS)
    (hf : Holds fs wayIndex fiveFile) :
    ∃ sent fs1 fs16, mapRes work [some fiveBlock] = .ok sent ∧
      (relindex out wayIndex 1 sent).exec fs = .ok ((), fs1) ∧
      Holds fs1 out (Int64SliceAsByteSlice [7, 3, 1, 1, 1, 5, 1, 5, 9, 0]) ∧
      (relindex out wayIndex 16 sent).exec fs = .ok ((), fs16) ∧
      Holds fs16 out (Int64SliceAsByteSlice [7, 3, 1, 1, 1, 5, 0, 9, 0]) := by
  obtain ⟨w1, w2, w3⟩ := fiveWays_ordered
  have hload : NewWayIndex fiveFile = .ok fiveWays := by decide +kernel
  obtain ⟨s1, fs1, a1, a2, a3⟩ := C44_content_partial w1 fiveWays_answers 1 (by omega) (by omega)
    (C41_few_passes _ w1 w2 w3 1 (by omega) (by omega) 0xa00000004 rfl (by decide))
    (fiveRelations fiveLocs fiveLocs_length) (by decide) out wayIndex ⟨hwi.1, fun p _ => hwi.2 1 p⟩ fs hf hload
  have hk5 : known fiveWays 16 16 5 = false := by decide +kernel
  have hk : known fiveWays 16 16 1 = true ∧ known fiveWays 16 16 2 = true ∧ known fiveWays 16 16 3 = true ∧
      known fiveWays 16 16 4 = true := by decide +kernel
  obtain ⟨s16, fs16, b1, b2, b3⟩ := C44_exact w1 fiveWays_answers (fun w => if w = 5 then [] else fiveLocs w) 16
    (by omega) (by omega)
    (by
      intro w hw
      rw [fiveFound] at hw
      rw [if_neg]
      rintro rfl
      rw [hk5] at hw
      cases hw)
    (by
      intro w hw
      rw [fiveFound] at hw
      split
      · rfl
      next h5 =>
        unfold fiveLocs
        rw [if_neg, if_neg, if_neg, if_neg, if_neg h5]
        · rintro rfl; exact hw hk.2.2.2
        · rintro rfl; exact hw hk.2.2.1
        · rintro rfl; exact hw hk.2.1
        · rintro rfl; exact hw hk.1)
    (by
      have : ∀ p < 16, (fiveWays.SubIndexWithScaledPass (Int64.ofNat p) (Int64.ofNat 16)).isOk = true := by decide +kernel
      intro p hp
      have := this p hp
      revert this
      cases fiveWays.SubIndexWithScaledPass (Int64.ofNat p) (Int64.ofNat 16) with
      | ok si => exact fun _ => ⟨si, rfl⟩
      | panic => intro h; cases h
      | hang => intro h; cases h)
    (fiveRelations _ (by
      intro w
      split
      · decide
      · exact fiveLocs_length w)) (by decide) out wayIndex ⟨hwi.1, fun p _ => hwi.2 16 p⟩ fs hf hload
  rw [a1] at b1
  cases b1
  exact ⟨s1, fs1, fs16, a1, a2, a3, b2, b3⟩

/-! ## C45 -/

/-- C45: whatever the relations (at least one) and the way index, as in C44: the command succeeds, so no file it still
needs is removed, all its pass files are gone at the end, and nothing but the output has changed. -/
theorem C45_cleaned_up {ix : WayIdx} (hw : WayOrdered ix.Ids ix.Loc ix.AlignmentShift) {locs : Int64 → List Int64}
    (ha : Answers ix locs) (n : Nat) (hn : 1 ≤ n) (hn63 : n < 2 ^ 63) (hcover : WayPassesCover ix n)
    {blocks : List (Option PrimitiveBlock)} (hr : RelationsOk locs (allRelations blocks)) (hne : allRelations blocks ≠ [])
    (out wayIndex : String) (hwi : wayIndex ≠ out ∧ ∀ p < n, wayIndex ≠ makePassFilename out p n)
    (fs : FS) {file : List UInt8} (hf : Holds fs wayIndex file) (hload : NewWayIndex file = .ok ix) :
    ∃ sent fs', mapRes work blocks = .ok sent ∧ (relindex out wayIndex n sent).exec fs = .ok ((), fs') ∧
      (∀ p < n, fs' (makePassFilename out p n) = none) ∧
      ∀ g, g ≠ out → (∀ p < n, g ≠ makePassFilename out p n) → fs' g = fs g := by
  obtain ⟨hsub, hall⟩ := cover_known hcover
  obtain ⟨fs', h1, -, h2, h3⟩ := relindex_ok out wayIndex hw hr hne hn hn63
    (fun p hp si hs d hd => ha.present d ((sub_facts hw hs).1.mem hd)) hsub (fun w hk => ha.absent w (hall w hk)) fs hf
    hload (hwi.2 0 (by omega))
  exact ⟨_, fs', work_eq blocks hr.lengths, h1, h2, h3⟩

/-- C45: any run that completes, whatever its input (even malformed) and way index, leaves none of its pass files and
has changed nothing but the output. -/
theorem C45_any_run (out wayIndex : String) (n : Nat) (sent : List (Option (List Int64))) (fs fs' : FS) (hn : 1 ≤ n)
    (h : (relindex out wayIndex n sent).exec fs = .ok ((), fs')) :
    (∀ p < n, fs' (makePassFilename out p n) = none) ∧
    ∀ g, g ≠ out → (∀ p < n, g ≠ makePassFilename out p n) → fs' g = fs g := by
  unfold relindex at h
  obtain ⟨fs1, h1, h2, h3⟩ := initOutput_exec (makePassFilename out 0 n) sent fs
  rw [Prog.exec_bind, h1, Res.ok_bind, Prog.exec_bind] at h
  obtain ⟨r2, e2, h⟩ := Res.bind_eq_ok.1 h
  have e2' := only_OsOpen "" wayIndex fs1 r2 e2
  rw [Prog.exec_bind] at h
  obtain ⟨r3, e3, h⟩ := Res.bind_eq_ok.1 h
  have e3' := only_MMapMap wayIndex _ r3 e3
  rw [Prog.exec_bind] at h
  obtain ⟨r4, e4, h⟩ := Res.bind_eq_ok.1 h
  rw [Prog.exec_lift] at e4
  obtain ⟨ix, _, e4⟩ := Res.bind_eq_ok.1 e4
  cases e4
  obtain ⟨c1, c2⟩ := runPasses_only out _ n n 0 (by omega) _ _ h
  refine ⟨fun p hp => c1 p (by omega) hp, fun g g1 g2 => ?_⟩
  rw [c2 g g1 (fun p _ hp => g2 p hp), e3', e2', h3 g (g2 0 (by omega))]

end Osm.Props
