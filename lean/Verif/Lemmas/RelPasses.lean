import Verif.Lemmas.RelIndex

/-! # The passes over the relation index -/

namespace Osm.RelIndex
open Osm Osm.T Osm.WayIndex Osm.Spec

/-! ## File names -/

theorem pad3_inj {a b : Nat} (h : pad3 a = pad3 b) : a = b := by
  unfold pad3 at h
  have h := String.ofList_inj.1 h
  have key : ∀ n, Nat.ofDigitChars 10 (List.replicate (3 - (Nat.toDigits 10 n).length) '0' ++ Nat.toDigits 10 n) 0 = n := by
    intro n
    rw [Nat.ofDigitChars_append, Nat.ofDigitChars_replicate_zero, Nat.mul_zero, Nat.ofDigitChars_ten_toDigits]
  rw [← key a, ← key b, h]

theorem pass_inj {out : String} {p q n : Nat} (h : makePassFilename out p n = makePassFilename out q n) : p = q := by
  unfold makePassFilename at h
  have h := congrArg String.toList h
  simp only [String.toList_append] at h
  have h := List.append_cancel_right h
  have h := List.append_cancel_right h
  have h := List.append_cancel_left h
  exact pad3_inj (String.toList_inj.1 h)

theorem pass_ne_out (out : String) (p n : Nat) : makePassFilename out p n ≠ out := by
  unfold makePassFilename
  intro h
  have := congrArg String.length h
  simp only [String.length_append] at this
  have h6 : ".pass_".length = 6 := by decide
  omega

/-! ## Sub-indexes -/

theorem sub_facts {ix : WayIdx} (hw : WayOrdered ix.Ids ix.Loc ix.AlignmentShift) {p n : Int64} {si : SubIdx}
    (h : ix.SubIndexWithScaledPass p n = .ok si) :
    si.Ids.Sublist ix.Ids ∧ si.Loc = ix.Loc ∧ si.AlignmentShift = ix.AlignmentShift ∧ WayOrderedSub si := by
  unfold WayIdx.SubIndexWithScaledPass at h
  by_cases hn : n = 0
  · rw [if_pos hn] at h; cases h
  rw [if_neg hn] at h
  dsimp only at h
  obtain ⟨s, _, h⟩ := Res.bind_eq_ok.1 h
  obtain ⟨e, _, h⟩ := Res.bind_eq_ok.1 h
  generalize e.getD ix.Ids.length = ei at h
  generalize s.getD 0 = st at h
  by_cases he : ei = 0
  · rw [if_pos he] at h; cases h
  rw [if_neg he] at h
  obtain ⟨last, hl, h⟩ := Res.bind_eq_ok.1 h
  cases h
  rw [Res.ofOption_eq_ok] at hl
  have hsub : ((ix.Ids.take ei).drop st).Sublist ix.Ids := (List.drop_sublist _ _).trans (List.take_sublist _ _)
  refine ⟨hsub, rfl, rfl, ⟨hw.range, hw.memory, fun d hd => hw.starts d (hsub.mem hd), hw.sorted.sublist hsub⟩, ?_⟩
  intro d hd
  dsimp only at hd ⊢
  rw [wayID_eq]
  obtain ⟨hlt, rfl⟩ := List.getElem?_eq_some_iff.1 hl
  obtain ⟨i, hi, rfl⟩ := List.getElem_of_mem (List.drop_subset _ _ hd)
  rw [List.length_take] at hi
  rw [List.getElem_take]
  rcases Nat.lt_or_ge i (ei - 1) with h1 | h1
  · have := List.pairwise_iff_getElem.1 hw.sorted i (ei - 1) (by omega) hlt h1
    omega
  · have : i = ei - 1 := by omega
    subst this
    exact Int.le_refl _

/-- Whether a way is in a sub-index. -/
def has (si : SubIdx) (w : Int64) : Bool := si.Ids.any fun d => decide ((wId d : Int) = w.toInt)

/-- The lookup of a sub-index. -/
def lookOf (locs : Int64 → List Int64) (si : SubIdx) (w : Int64) : Option (List Int64) :=
  if has si w then some (locs w) else none

theorem looks_ok {ix : WayIdx} (hw : WayOrdered ix.Ids ix.Loc ix.AlignmentShift) {locs : Int64 → List Int64}
    {p n : Int64} {si : SubIdx} (h : ix.SubIndexWithScaledPass p n = .ok si)
    (ha : ∀ d ∈ si.Ids, Stored ix.Loc ix.AlignmentShift d = .ok (locs (Int64.ofNat (wId d)))) :
    Looks si (lookOf locs si) := by
  obtain ⟨f1, f2, f3, f4⟩ := sub_facts hw h
  intro id hid
  have hf := find_ok f4 id 0 (by omega)
  unfold lookOf
  by_cases hh : has si id = true
  · rw [if_pos hh]
    unfold has at hh
    obtain ⟨d, hd, he⟩ := List.any_eq_true.1 hh
    have he : (wId d : Int) = id.toInt := of_decide_eq_true he
    obtain ⟨p, c, _, _, hr⟩ := hf.1 d hd he
    have hst := ha d hd
    have : Int64.ofNat (wId d) = id := by
      apply Int64.toInt_inj.1
      rw [Int64.toInt_ofNat_of_lt (by have := Int64.toInt_lt id; omega), he]
    rw [this] at hst
    rw [f2, f3, hst] at hr
    exact ⟨_, hr, rfl, rfl⟩
  · rw [if_neg hh]
    obtain ⟨c, hr⟩ := hf.2 (fun d hd he => hh (List.any_eq_true.2 ⟨d, hd, decide_eq_true he⟩))
    exact ⟨_, hr, rfl⟩

/-! ## The passes -/

/-- Whether a way has been found by one of the first `i` of `n` passes. -/
def known (ix : WayIdx) (n : Nat) : Nat → Int64 → Bool
  | 0, _ => false
  | i + 1, w => known ix n i w || match ix.SubIndexWithScaledPass (Int64.ofNat i) (Int64.ofNat n) with
    | .ok si => has si w
    | _ => false

theorem known_sub {ix : WayIdx} {n : Nat} {w : Int64} : ∀ {i : Nat}, known ix n i w = true →
    ∃ p < i, ∃ si, ix.SubIndexWithScaledPass (Int64.ofNat p) (Int64.ofNat n) = .ok si ∧ has si w = true
  | 0, h => by cases h
  | i + 1, h => by
    unfold known at h
    rcases Bool.or_eq_true_iff.1 h with h | h
    · obtain ⟨p, hp, r⟩ := known_sub h
      exact ⟨p, by omega, r⟩
    · revert h
      cases hs : ix.SubIndexWithScaledPass (Int64.ofNat i) (Int64.ofNat n) with
      | ok si => exact fun h => ⟨i, by omega, si, hs, h⟩
      | panic => intro h; cases h
      | hang => intro h; cases h

theorem known_of {ix : WayIdx} {n : Nat} {w : Int64} {p : Nat} {si : SubIdx}
    (hs : ix.SubIndexWithScaledPass (Int64.ofNat p) (Int64.ofNat n) = .ok si) (hh : has si w = true) :
    ∀ i, p < i → known ix n i w = true := by
  intro i
  induction i with
  | zero => intro h; omega
  | succ i ih =>
    intro h
    unfold known
    rcases Nat.lt_or_ge p i with h1 | h1
    · rw [ih h1]; rfl
    · have : i = p := by omega
      subst this
      rw [hs]
      dsimp only
      rw [hh, Bool.or_true]

/-- The relations after `i` passes. -/
def stateAt (locs : Int64 → List Int64) (ix : WayIdx) (n i : Nat) (rs : List Relation) : List (Int64 × List Member) :=
  rs.map fun r => (r.ID, (wayMembers r).map fun w => (w, if known ix n i w then some (locs w) else none))

theorem stateAt_ok {locs : Int64 → List Int64} {rs : List Relation} (h : RelationsOk locs rs) (ix : WayIdx) (n i : Nat) :
    ∀ r ∈ stateAt locs ix n i rs, RelOk r := by
  intro r hr
  obtain ⟨r, hr', rfl⟩ := List.mem_map.1 hr
  have hr := hr'
  refine ⟨?_, ?_⟩
  · dsimp only
    rw [List.length_map]
    have := h.memory r hr
    have h1 : (wayMembers r).length ≤ r.MemIDs.length := by
      unfold wayMembers
      rw [List.length_map]
      refine Nat.le_trans (List.length_filter_le _ _) ?_
      rw [List.length_zip]
      omega
    omega
  · intro m hm
    obtain ⟨w, hw, rfl⟩ := List.mem_map.1 hm
    refine ⟨h.ids r hr w hw, fun ls hls => ?_⟩
    dsimp only at hls
    split at hls
    · cases hls
      exact h.sizes w
    · cases hls

theorem stepMember_found {look : Int64 → Option (List Int64)} {id : Int64} {ls : List Int64} (h : look id = some ls)
    (last : Bool) : stepMember look last (id, none) = (id, some ls) := by
  unfold stepMember; dsimp only; rw [h]

theorem stepMember_missing {look : Int64 → Option (List Int64)} {id : Int64} (h : look id = none)
    (last : Bool) : stepMember look last (id, none) = if last then (id, some []) else (id, none) := by
  unfold stepMember; dsimp only; rw [h]

theorem step_state {locs : Int64 → List Int64} {ix : WayIdx} {n i : Nat} {si : SubIdx}
    (hs : ix.SubIndexWithScaledPass (Int64.ofNat i) (Int64.ofNat n) = .ok si) (rs : List Relation) :
    (stateAt locs ix n i rs).map (stepRel (lookOf locs si) false) = stateAt locs ix n (i + 1) rs := by
  unfold stateAt
  rw [List.map_map]
  refine List.map_congr_left fun r _ => ?_
  show (r.ID, _) = (r.ID, _)
  congr 1
  dsimp only
  rw [List.map_map]
  refine List.map_congr_left fun w _ => ?_
  dsimp only [Function.comp_apply]
  rw [show known ix n (i + 1) w = (known ix n i w || has si w) by rw [known.eq_def]; dsimp only; rw [hs]]
  cases hk : known ix n i w with
  | true => rfl
  | false =>
    rw [Bool.false_or]
    rw [if_neg (by decide)]
    cases hh : has si w with
    | true => rw [stepMember_found (show lookOf locs si w = _ from if_pos hh)]; rfl
    | false => rw [stepMember_missing (show lookOf locs si w = _ from if_neg (by rw [hh]; decide))]; rfl

/-- The finished relations. -/
def finished (locs : Int64 → List Int64) (rs : List Relation) : List (Int64 × List Member) :=
  rs.map fun r => (r.ID, (wayMembers r).map fun w => (w, some (locs w)))

theorem step_last {locs : Int64 → List Int64} {ix : WayIdx} {n : Nat} {si : SubIdx}
    (hs : ix.SubIndexWithScaledPass (Int64.ofNat n) (Int64.ofNat (n + 1)) = .ok si)
    (hall : ∀ w : Int64, known ix (n + 1) (n + 1) w = false → locs w = []) (rs : List Relation) :
    (stateAt locs ix (n + 1) n rs).map (stepRel (lookOf locs si) true) = finished locs rs := by
  unfold stateAt finished
  rw [List.map_map]
  refine List.map_congr_left fun r _ => ?_
  show (r.ID, _) = (r.ID, _)
  congr 1
  dsimp only
  rw [List.map_map]
  refine List.map_congr_left fun w _ => ?_
  dsimp only [Function.comp_apply]
  have hk2 := hall w
  rw [show known ix (n + 1) (n + 1) w = (known ix (n + 1) n w || has si w) by
    rw [known.eq_def]; dsimp only; rw [hs]] at hk2
  cases hk : known ix (n + 1) n w with
  | true => rfl
  | false =>
    rw [hk, Bool.false_or] at hk2
    rw [if_neg (by decide)]
    cases hh : has si w with
    | true => rw [stepMember_found (show lookOf locs si w = _ from if_pos hh)]
    | false => rw [stepMember_missing (show lookOf locs si w = _ from if_neg (by rw [hh]; decide)), hk2 hh]; rfl

theorem finished_enc (locs : Int64 → List Int64) (rs : List Relation) :
    (finished locs rs).flatMap encRel = rs.flatMap (relationEntry locs) := by
  unfold finished
  rw [List.flatMap_map]
  congr 1
  funext r
  unfold encRel relationEntry
  dsimp only
  rw [List.length_map, List.flatMap_map]
  rfl

theorem start_enc (locs : Int64 → List Int64) (ix : WayIdx) (n : Nat) (rs : List Relation) :
    (stateAt locs ix n 0 rs).flatMap encRel = rs.flatMap unresolvedEntry := by
  unfold stateAt
  rw [List.flatMap_map]
  congr 1
  funext r
  unfold encRel unresolvedEntry
  dsimp only
  rw [List.length_map, List.flatMap_map]
  congr 2
  rw [List.map_eq_flatMap]
  rfl

theorem not_last {i n : Nat} (hn : n < 2 ^ 63) (h : i + 1 ≤ n) :
    (!(decide (Int64.ofNat i + 1 < Int64.ofNat n))) = !(decide (i + 1 < n)) := by
  congr 1
  rw [decide_eq_decide, Int64.lt_iff_toInt_lt, Int64.toInt_ofNat_of_lt hn, show (1 : Int64) = Int64.ofNat 1 from rfl,
    ← Int64.ofNat_add, Int64.toInt_ofNat_of_lt (by omega)]
  omega

theorem runPasses_ok (out : String) {ix : WayIdx} (hw : WayOrdered ix.Ids ix.Loc ix.AlignmentShift)
    {locs : Int64 → List Int64} {rs : List Relation} (hr : RelationsOk locs rs) (hne : rs ≠ [])
    {n : Nat} (hn : n < 2 ^ 63)
    (ha : ∀ p < n, ∀ si, ix.SubIndexWithScaledPass (Int64.ofNat p) (Int64.ofNat n) = .ok si →
      ∀ d ∈ si.Ids, Stored ix.Loc ix.AlignmentShift d = .ok (locs (Int64.ofNat (wId d))))
    (hsub : ∀ p < n, ∃ si, ix.SubIndexWithScaledPass (Int64.ofNat p) (Int64.ofNat n) = .ok si)
    (hall : ∀ w : Int64, known ix n n w = false → locs w = []) :
    ∀ (left i : Nat) (fs : FS), i + (left + 1) = n →
      Holds fs (makePassFilename out i n) (Int64SliceAsByteSlice ((stateAt locs ix n i rs).flatMap encRel)) →
      ∃ fs', (runPasses out ix n (left + 1) i).exec fs = .ok ((), fs') ∧
        Holds fs' out (Int64SliceAsByteSlice (rs.flatMap (relationEntry locs))) ∧
        (∀ p, i ≤ p → p < n → fs' (makePassFilename out p n) = none) ∧
        ∀ g, g ≠ out → (∀ p, i ≤ p → p < n → g ≠ makePassFilename out p n) → fs' g = fs g := by
  intro left
  induction left with
  | zero =>
    intro i fs hi hin
    have hin1 : n = i + 1 := by omega
    subst hin1
    obtain ⟨si, hs⟩ := hsub i (by omega)
    obtain ⟨fs1, h1, h2, h3⟩ := rewrite_ok (looks_ok hw hs (ha i (by omega) si hs)) ix _ _ hs out (makePassFilename out i (i + 1))
      (pass_ne_out _ _ _) _ (stateAt_ok hr ix (i + 1) i) (by
        intro h0
        exact hne (List.map_eq_nil_iff.1 h0)) fs hin
    rw [not_last hn (by omega), show (!(decide (i + 1 < i + 1))) = true by simp, step_last hs hall, finished_enc] at h2
    refine ⟨(FsOp.remove (makePassFilename out i (i + 1))).run fs1, ?_, ?_, ?_, ?_⟩
    · unfold runPasses
      rw [Prog.exec_bind, if_neg (by omega), h1, Res.ok_bind, Prog.exec_bind]
      unfold OsRemoveTry
      rw [Prog.exec_emit, Res.ok_bind]
      rfl
    · obtain ⟨pos, h2⟩ := h2
      refine ⟨pos, ?_⟩
      rw [← h2]
      exact set_other _ _ (pass_ne_out _ _ _).symm
    · intro p h4 h5
      have : p = i := by omega
      subst this
      exact set_same _ _ _
    · intro g h4 h5
      rw [← h3 g h4]
      exact set_other _ _ (h5 i (by omega) (by omega))
  | succ left ih =>
    intro i fs hi hin
    obtain ⟨si, hs⟩ := hsub i (by omega)
    have hneq : ∀ p q, p ≠ q → makePassFilename out p n ≠ makePassFilename out q n := fun p q h he => h (pass_inj he)
    obtain ⟨fs1, h1, h2, h3⟩ := rewrite_ok (looks_ok hw hs (ha i (by omega) si hs)) ix _ _ hs (makePassFilename out (i + 1) n)
      (makePassFilename out i n) (hneq _ _ (by omega)) _ (stateAt_ok hr ix n i) (by
        intro h0
        exact hne (List.map_eq_nil_iff.1 h0)) fs hin
    rw [not_last hn (by omega), show (!(decide (i + 1 < n))) = false by
      rw [decide_eq_true (by omega)]; rfl, step_state hs] at h2
    obtain ⟨fs', e1, e2, e3, e4⟩ := ih (i + 1) ((FsOp.remove (makePassFilename out i n)).run fs1) (by omega) (by
      obtain ⟨pos, h2⟩ := h2
      refine ⟨pos, ?_⟩
      rw [← h2]
      exact set_other _ _ (hneq _ _ (by omega)))
    refine ⟨fs', ?_, e2, ?_, ?_⟩
    · unfold runPasses
      rw [Prog.exec_bind, if_pos (by omega), h1, Res.ok_bind, Prog.exec_bind]
      unfold OsRemoveTry
      rw [Prog.exec_emit, Res.ok_bind]
      exact e1
    · intro p h4 h5
      rcases Nat.lt_or_ge i p with h6 | h6
      · exact e3 p h6 h5
      · have : p = i := by omega
        subst this
        rw [e4 _ (pass_ne_out _ _ _) (fun q h7 _ => hneq _ _ (by omega))]
        exact set_same _ _ _
    · intro g h4 h5
      rw [e4 g h4 (fun p h6 h7 => h5 p (by omega) h7)]
      rw [show (FsOp.remove (makePassFilename out i n)).run fs1 g = fs1 g from
        set_other _ _ (h5 i (by omega) (by omega))]
      exact h3 g (h5 (i + 1) (by omega) (by omega))

theorem cover_known {ix : WayIdx} {n : Nat} (hc : WayPassesCover ix n) :
    (∀ p < n, ∃ si, ix.SubIndexWithScaledPass (Int64.ofNat p) (Int64.ofNat n) = .ok si) ∧
    ∀ w : Int64, known ix n n w = false → ∀ d ∈ ix.Ids, (wId d : Int) ≠ w.toInt := by
  obtain ⟨subs, h1, h2⟩ := hc
  refine ⟨fun p hp => NodeIndex.mapRes_mem h1 p (List.mem_range.2 hp), ?_⟩
  intro w hk d hd he
  obtain ⟨s, hs, hds⟩ := (h2 d).1 hd
  obtain ⟨p, hp, hps⟩ := mapRes_back h1 s hs
  have := known_of (w := w) hps (List.any_eq_true.2 ⟨d, hds, decide_eq_true he⟩) n (List.mem_range.1 hp)
  rw [this] at hk
  cases hk

/-- The whole command. -/
theorem relindex_ok (out wayIndex : String) {ix : WayIdx} (hw : WayOrdered ix.Ids ix.Loc ix.AlignmentShift)
    {locs : Int64 → List Int64} {blocks : List (Option PrimitiveBlock)}
    (hr : RelationsOk locs (allRelations blocks)) (hne : allRelations blocks ≠ [])
    {n : Nat} (hn1 : 1 ≤ n) (hn : n < 2 ^ 63)
    (ha : ∀ p < n, ∀ si, ix.SubIndexWithScaledPass (Int64.ofNat p) (Int64.ofNat n) = .ok si →
      ∀ d ∈ si.Ids, Stored ix.Loc ix.AlignmentShift d = .ok (locs (Int64.ofNat (wId d))))
    (hsub : ∀ p < n, ∃ si, ix.SubIndexWithScaledPass (Int64.ofNat p) (Int64.ofNat n) = .ok si)
    (hall : ∀ w : Int64, known ix n n w = false → locs w = []) (fs : FS) {file : List UInt8}
    (hf : Holds fs wayIndex file) (hload : NewWayIndex file = .ok ix) (hwi0 : wayIndex ≠ makePassFilename out 0 n) :
    ∃ fs', (relindex out wayIndex n (blocks.map sent)).exec fs = .ok ((), fs') ∧
      Holds fs' out (Int64SliceAsByteSlice ((allRelations blocks).flatMap (relationEntry locs))) ∧
      (∀ p < n, fs' (makePassFilename out p n) = none) ∧
      ∀ g, g ≠ out → (∀ p < n, g ≠ makePassFilename out p n) → fs' g = fs g := by
  obtain ⟨fs1, h1, h2, h3⟩ := initOutput_exec (makePassFilename out 0 n) (blocks.map sent) fs
  obtain ⟨left, rfl⟩ : ∃ k, n = k + 1 := ⟨n - 1, by omega⟩
  obtain ⟨fs', e1, e2, e3, e4⟩ := runPasses_ok out hw hr hne hn ha hsub hall left 0 fs1 (by omega) (by
      rw [start_enc, ← sent_flatMap]; exact h2)
  obtain ⟨pos, hf⟩ := hf
  refine ⟨fs', ?_, e2, fun p hp => e3 p (by omega) hp, ?_⟩
  · have hf1 : fs1 wayIndex = some ⟨file, pos⟩ := by rw [h3 _ hwi0, hf]
    unfold relindex
    rw [Prog.exec_bind, h1, Res.ok_bind, Prog.exec_bind,
      exec_OsOpen_some (show ((), fs1).2 wayIndex = _ from hf1), Res.ok_bind, Prog.exec_bind, exec_MMapMap]
    dsimp only
    rw [hf1]
    dsimp only
    rw [if_neg, Res.ok_bind, Prog.exec_bind, Prog.exec_lift, hload, Res.ok_bind]
    · exact e1
    · rintro rfl
      cases hload
  · intro g h4 h5
    rw [e4 g h4 (fun p _ hp => h5 p hp), h3 g (h5 0 (by omega))]

/-! ## What a successful run touches -/

/-- A program which, if it completes, has changed at most the file `f`. -/
def Only {α : Type} (f : String) (p : Prog α) : Prop :=
  ∀ fs r, p.exec fs = .ok r → ∀ g, g ≠ f → r.2 g = fs g

theorem only_OsOpen (_ : String) (g : String) (fs : FS) (r : Unit × FS) (h : (OsOpen g).exec fs = .ok r) : r.2 = fs := by
  rw [exec_OsOpen] at h
  split at h
  · cases h; rfl
  · cases h

theorem only_MMapMap (g : String) (fs : FS) (r : List UInt8 × FS) (h : (MMapMap g).exec fs = .ok r) : r.2 = fs := by
  rw [exec_MMapMap] at h
  split at h
  · cases h
  · split at h
    · cases h
    · cases h; rfl

theorem only_bind {α β : Type} {f : String} {p : Prog α} {q : α → Prog β} (hp : Only f p) (hq : ∀ a, Only f (q a)) :
    Only f (p >>= q) := by
  intro fs r h g hg
  rw [Prog.exec_bind] at h
  obtain ⟨r1, h1, h⟩ := Res.bind_eq_ok.1 h
  rw [hq _ _ _ h g hg, hp _ _ h1 g hg]

theorem only_lift {α : Type} (f : String) (x : Res α) : Only f (Prog.lift x) := by
  intro fs r h g hg
  rw [Prog.exec_lift] at h
  obtain ⟨a, _, h⟩ := Res.bind_eq_ok.1 h
  cases h
  rfl

theorem only_write (f : String) (xs : List Int64) : Only f (FWriteSliceI64 f xs) := by
  intro fs r h g hg
  unfold FWriteSliceI64 at h
  rw [Prog.exec_emit] at h
  cases h
  exact set_other _ _ hg

theorem only_pure {α : Type} (f : String) (a : α) : Only f (Prog.pure a) := by
  intro fs r h g hg
  cases h
  rfl

theorem rewriteLoop_only (swi : SubIdx) (last : Bool) (f : String) : ∀ (fuel : Nat) (o u : List Int64),
    Only f (rewriteLoop swi last f fuel o u) := by
  intro fuel
  induction fuel with
  | zero => intro o u; exact only_lift _ _
  | succ fuel ih =>
    intro o u
    cases u with
    | nil =>
      unfold rewriteLoop
      split
      · exact only_write _ _
      · exact only_pure _ _
    | cons w u =>
      unfold rewriteLoop
      refine only_bind (only_lift _ _) fun r => ?_
      dsimp only
      split
      · exact only_bind (only_write _ _) fun _ => ih _ _
      · exact ih _ _

theorem rewrite_only (outF inF : String) (ix : WayIdx) (pass count : Int64) :
    Only outF (rewrite outF inF ix pass count) := by
  unfold rewrite
  refine only_bind (only_lift _ _) fun si => only_bind (fun fs r h g _ => by rw [only_OsOpen "" _ _ _ h]) fun _ =>
    only_bind ?_ fun _ => only_bind (fun fs r h g _ => by rw [only_MMapMap _ _ _ h]) fun m => rewriteLoop_only _ _ _ _ _ _
  intro fs r h g hg
  unfold OsCreate at h
  rw [Prog.exec_emit] at h
  cases h
  exact set_other _ _ hg

theorem runPasses_only (out : String) (ix : WayIdx) (n : Nat) : ∀ (left i : Nat), i + left = n → ∀ (fs fs' : FS),
    (runPasses out ix n left i).exec fs = .ok ((), fs') →
    (∀ p, i ≤ p → p < n → fs' (makePassFilename out p n) = none) ∧
    ∀ g, g ≠ out → (∀ p, i ≤ p → p < n → g ≠ makePassFilename out p n) → fs' g = fs g := by
  intro left
  induction left with
  | zero =>
    intro i hi fs fs' h
    cases h
    exact ⟨fun p _ _ => by omega, fun _ _ _ => rfl⟩
  | succ left ih =>
    intro i hi fs fs' h
    unfold runPasses at h
    rw [Prog.exec_bind] at h
    obtain ⟨r1, e1, h⟩ := Res.bind_eq_ok.1 h
    rw [Prog.exec_bind] at h
    unfold OsRemoveTry at h
    rw [Prog.exec_emit, Res.ok_bind] at h
    obtain ⟨c1, c2⟩ := ih (i + 1) (by omega) _ _ h
    have e1 := rewrite_only _ _ _ _ _ _ _ e1
    refine ⟨?_, ?_⟩
    · intro p hp hpn
      rcases Nat.lt_or_ge i p with h6 | h6
      · exact c1 p h6 hpn
      · have : p = i := by omega
        subst this
        rw [c2 _ (pass_ne_out _ _ _) (fun q h7 _ he => absurd (pass_inj he) (by omega))]
        exact set_same _ _ _
    · intro g hg1 hg2
      rw [c2 g hg1 (fun p h6 h7 => hg2 p (by omega) h7)]
      dsimp only
      rw [show (FsOp.remove (makePassFilename out i n)).run r1.2 g = r1.2 g from
        set_other _ _ (hg2 i (by omega) (by omega))]
      refine e1 g ?_
      split
      · exact hg2 (i + 1) (by omega) (by omega)
      · exact hg1

end Osm.RelIndex
