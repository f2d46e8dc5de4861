import Verif.Lemmas.Interrupt
import Verif.Lemmas.RewritePasses
import Verif.Lemmas.WayIndexer

/-! # Cancelled runs of rewritenodes -/

namespace Osm.Interrupt
open Osm Osm.T Osm.Pbf Osm.Spec Osm.NodeIndex Osm.Rewrite
open Osm.RelIndex (pass_ne_out pass_inj)

theorem cutLength_le : ∀ (cs : List (Option Nat)) (n : Nat), cutLength cs n ≤ n
  | [], n => Nat.le_refl n
  | none :: cs, n => cutLength_le cs n
  | some k :: cs, n => Nat.le_trans (cutLength_le cs (min k n)) (Nat.min_le_right _ _)

theorem handed_length {α : Type} (c : Option Nat) (xs : List α) : (handed c xs).length = cutLength [c] xs.length := by
  cases c with
  | none => rfl
  | some k => simp [handed, cutLength]

theorem handed_cut {α : Type} (c : Option Nat) (cs : List (Option Nat)) (xs : List α) :
    (handed c xs).take (cutLength cs (handed c xs).length) = xs.take (cutLength (c :: cs) xs.length) := by
  cases c with
  | none => rfl
  | some k =>
    show (xs.take k).take (cutLength cs (xs.take k).length) = xs.take (cutLength cs (min k xs.length))
    have := cutLength_le cs (min k xs.length)
    rw [List.length_take, List.take_take, Nat.min_eq_left (by omega)]

theorem matches_handed {α β : Type} {R : α → β → Prop} {as : List α} {bs : List β} (h : Matches R as bs) (c : Option Nat) :
    Matches R (handed c as) (handed c bs) := by
  cases c with
  | none => exact h
  | some n =>
    show Matches R (as.take n) (bs.take n)
    induction h generalizing n with
    | nil => simp only [List.take_nil]; exact .nil
    | cons h1 _ ih =>
      cases n with
      | zero => exact .nil
      | succ n => exact .cons h1 (ih n)

theorem mem_handed {α : Type} {c : Option Nat} {xs : List α} {x : α} (h : x ∈ handed c xs) : x ∈ xs := by
  cases c with
  | none => exact h
  | some k => exact List.mem_of_mem_take h

theorem handed_le {α : Type} (c : Option Nat) (xs : List α) : (handed c xs).length ≤ xs.length := by
  rw [handed_length]; exact cutLength_le _ _

theorem smallFile_handed {cs : List Content} (h : SmallFile cs) (c : Option Nat) : SmallFile (handed c cs) :=
  ⟨fun b hb => h.1 b (mem_handed hb), by have := handed_le c cs; have := h.2; omega⟩

/-- A pass, cancelled or not. -/
theorem rewritePass_cut (inflate : Inflate) (sched : Block → Sched) (hsched : ∀ b, (sched b).pooled.length < 2 ^ 63)
    (cut : Option Nat) {si : SubIdx} (hw : WellFormedSub si) {file : List UInt8} (hl : file.length < 2 ^ 63)
    {cs : List Content} (hc : FileHas inflate reader file cs) (hsm : SmallFile cs) (inp out : String) (fs : FS)
    (hin : Holds fs inp file) :
    ∃ fs' file', (rewritePass inflate sched cut si inp out).exec fs = .ok ((), fs') ∧ Holds fs' out file' ∧
      file'.length < 2 ^ 63 ∧
      (handed cut cs = [] → file' = []) ∧
      (handed cut cs ≠ [] →
        FileHas inflate reader file' ((handed cut cs).map (·.mapRefs (locate si.element si.locations)))) ∧
      ∀ g, g ≠ out → fs' g = fs g := by
  obtain ⟨bs, h1, h2⟩ := hc
  obtain ⟨hbne, hb⟩ := split_blocks hl h1
  have h2' := matches_handed h2 cut
  have hsm' := smallFile_handed hsm cut
  obtain ⟨xs, e3⟩ := mapRes_all (f := rewriteWork inflate sched si) (as := handed cut bs) (by
    intro b hb'
    obtain ⟨c, hc', hcc⟩ := matches_mem h2' b hb'
    exact work_small inflate sched hsched hw (hb b (mem_handed hb')).1 hcc (by rintro d rfl; exact hsm'.1 d hc'))
  obtain ⟨m1, m2⟩ := works_content inflate sched hsched hw (handed cut bs) (handed cut cs) xs
    (fun b hb' => hb b (mem_handed hb')) h2' e3
  obtain ⟨fs3, o1, o2, o3⟩ := output_exec out xs fs
  have a2 := each_length m2
  rw [List.length_map] at a2
  have hlen : (fileOf xs).length < 2 ^ 63 := by
    have a1 := fileOf_length xs m1
    have a3 := hsm'.2
    have : xs.length * (2 ^ 31 + 68) ≤ 2 ^ 31 * (2 ^ 31 + 68) := Nat.mul_le_mul_right _ (by omega)
    omega
  refine ⟨fs3, fileOf xs, ?_, o2, hlen, ?_, ?_, o3⟩
  · unfold rewritePass
    have := process_run cut (rewriteWork inflate sched si) inp (output out) h1 e3 fs hin
    unfold Prog.exec at o1 ⊢
    rw [this]
    exact o1
  · intro h0
    rw [h0] at a2
    rw [List.length_eq_zero_iff.1 a2]
    rfl
  · intro h0
    refine fileOf_has inflate reader ?_ m1 hlen m2
    rintro rfl
    exact h0 (List.length_eq_zero_iff.1 a2.symm)

/-- The next pass after one that wrote nothing panics. -/
theorem rewritePass_empty (inflate : Inflate) (sched : Block → Sched) (cut : Option Nat) (si : SubIdx) (inp out : String)
    (fs : FS) (hin : Holds fs inp []) : (rewritePass inflate sched cut si inp out).exec fs = .panic := by
  obtain ⟨pos, hin⟩ := hin
  unfold rewritePass process
  rw [Prog.exec_bind, exec_OsOpen_some hin, Res.ok_bind, Prog.exec_bind, exec_MMapMap]
  dsimp only
  rw [hin]
  rfl

/-- All passes. -/
theorem rewritePasses_cut (inflate : Inflate) (scheds : Nat → Block → Sched)
    (hsched : ∀ i b, (scheds i b).pooled.length < 2 ^ 63) (cuts : Nat → Option Nat) {ix : NodeIdx}
    (hneg : NegativeLocs ix.locations) (inp out : String) {n : Nat} (subs : List SubIdx) (hlen : subs.length = n)
    (hsub : ∀ (p : Nat) si, subs[p]? = some si → ix.SubIndex (UInt64.ofNat p) (UInt64.ofNat n) = .ok si ∧ WellFormedSub si ∧
      si.locations = ix.locations) :
    ∀ (left i : Nat) (fs : FS) (file : List UInt8) (cs : List Content), i + (left + 1) = n →
      Holds fs (passInput inp out n i) file → file.length < 2 ^ 63 → FileHas inflate reader file cs → SmallFile cs →
      (cutLength ((List.range' i (left + 1)).map cuts) cs.length = 0 ∧
        (rewritePasses inflate scheds cuts ix inp out n (left + 1) i).exec fs = .panic) ∨
      ∃ fs' file', (rewritePasses inflate scheds cuts ix inp out n (left + 1) i).exec fs = .ok ((), fs') ∧
        Holds fs' out file' ∧ file'.length < 2 ^ 63 ∧
        (cutLength ((List.range' i (left + 1)).map cuts) cs.length = 0 → file' = []) ∧
        (cutLength ((List.range' i (left + 1)).map cuts) cs.length ≠ 0 →
          FileHas inflate reader file' ((cs.take (cutLength ((List.range' i (left + 1)).map cuts) cs.length)).map
            (·.mapRefs (locate ((subs.drop i).flatMap (·.element)) ix.locations)))) ∧
        (1 < n → ∃ x, fs' (RelIndex.makePassFilename out (n - 1) n) = some x) := by
  have hneq : ∀ p q, p ≠ q → RelIndex.makePassFilename out p n ≠ RelIndex.makePassFilename out q n := fun p q h he => h (pass_inj he)
  intro left
  induction left with
  | zero =>
    intro i fs file cs hi hin hl hc hsm
    obtain ⟨fs0, z1, z2, z3⟩ := removeOld_exec out n i fs
    have hi1 : i < subs.length := by omega
    obtain ⟨s1, s2, s3⟩ := hsub i subs[i] (List.getElem?_eq_getElem hi1)
    have hin0 : passInput inp out n i = RelIndex.makePassFilename out i n ∧ 1 ≤ i ∨ passInput inp out n i = inp ∧ i = 0 := by
      unfold passInput
      split
      · exact .inl ⟨rfl, by omega⟩
      · exact .inr ⟨rfl, by omega⟩
    have hin1 : Holds fs0 (passInput inp out n i) file := by
      obtain ⟨pos, hin⟩ := hin
      refine ⟨pos, ?_⟩
      rw [z3, hin]
      intro h2
      rcases hin0 with ⟨h, _⟩ | ⟨_, h⟩
      · rw [h]; exact hneq _ _ (by omega)
      · omega
    obtain ⟨fs1, file', h1, h2, h3, h4, h4', h5⟩ := rewritePass_cut inflate (scheds i) (hsched i) (cuts i) s2 hl hc hsm
      (passInput inp out n i) (passOutput out n i) fs0 hin1
    have hout : passOutput out n i = out := by unfold passOutput; rw [if_neg (by omega)]
    rw [hout] at h1 h2 h5
    have hm : (handed (cuts i) cs).length = cutLength ((List.range' i (0 + 1)).map cuts) cs.length := handed_length _ _
    refine Or.inr ⟨fs1, file', ?_, h2, h3, fun h => h4 (List.length_eq_zero_iff.1 (hm.trans h)), fun h => ?_, ?_⟩
    · unfold rewritePasses
      rw [Prog.exec_bind, z1, Res.ok_bind, Prog.exec_bind, Prog.exec_lift, s1, Res.ok_bind, Res.ok_bind, Prog.exec_bind,
        hout]
      dsimp only
      rw [h1]
      rfl
    · have hh : handed (cuts i) cs = cs.take (cutLength ((List.range' i (0 + 1)).map cuts) cs.length) := by
        have := handed_cut (cuts i) [] cs
        rw [show cutLength [] (handed (cuts i) cs).length = (handed (cuts i) cs).length from rfl, List.take_length] at this
        exact this
      rw [List.drop_eq_getElem_cons hi1, List.drop_eq_nil_of_le (by omega)]
      simp only [List.flatMap_cons, List.flatMap_nil, List.append_nil]
      rw [← s3, ← hh]
      exact h4' fun h0 => h (by rw [← hm, h0]; rfl)
    · intro hn
      rw [h5 _ (pass_ne_out _ _ _)]
      rcases hin0 with ⟨h, _⟩ | ⟨_, h⟩
      · obtain ⟨pos, hh⟩ := hin1
        rw [h, show i = n - 1 by omega] at hh
        exact ⟨_, hh⟩
      · omega
  | succ left ih =>
    intro i fs file cs hi hin hl hc hsm
    obtain ⟨fs0, z1, z2, z3⟩ := removeOld_exec out n i fs
    have hi1 : i < subs.length := by omega
    obtain ⟨s1, s2, s3⟩ := hsub i subs[i] (List.getElem?_eq_getElem hi1)
    have hin0 : passInput inp out n i = RelIndex.makePassFilename out i n ∧ 1 ≤ i ∨ passInput inp out n i = inp ∧ i = 0 := by
      unfold passInput
      split
      · exact .inl ⟨rfl, by omega⟩
      · exact .inr ⟨rfl, by omega⟩
    have hin1 : Holds fs0 (passInput inp out n i) file := by
      obtain ⟨pos, hin⟩ := hin
      refine ⟨pos, ?_⟩
      rw [z3, hin]
      intro h2
      rcases hin0 with ⟨h, _⟩ | ⟨_, h⟩
      · rw [h]; exact hneq _ _ (by omega)
      · omega
    obtain ⟨fs1, file1, h1, h2, h3, h4, h4', h5⟩ := rewritePass_cut inflate (scheds i) (hsched i) (cuts i) s2 hl hc hsm
      (passInput inp out n i) (passOutput out n i) fs0 hin1
    have hout : passOutput out n i = RelIndex.makePassFilename out (i + 1) n := by unfold passOutput; rw [if_pos (by omega)]
    have hinp : passInput inp out n (i + 1) = RelIndex.makePassFilename out (i + 1) n := by unfold passInput; rw [if_pos (by omega)]
    rw [hout] at h1 h2 h5
    have hr : List.range' i (left + 1 + 1) = i :: List.range' (i + 1) (left + 1) := rfl
    rw [hr, List.map_cons]
    have hexec : (rewritePasses inflate scheds cuts ix inp out n (left + 1 + 1) i).exec fs =
        (rewritePasses inflate scheds cuts ix inp out n (left + 1) (i + 1)).exec fs1 := by
      rw [rewritePasses.eq_def]
      dsimp only
      rw [Prog.exec_bind, z1, Res.ok_bind, Prog.exec_bind, Prog.exec_lift, s1, Res.ok_bind, Res.ok_bind, Prog.exec_bind,
        hout]
      dsimp only
      rw [h1, Res.ok_bind]
    rw [hexec]
    by_cases h0 : handed (cuts i) cs = []
    · left
      have hz : cutLength (cuts i :: (List.range' (i + 1) (left + 1)).map cuts) cs.length = 0 := by
        have e := congrArg List.length (handed_cut (cuts i) ((List.range' (i + 1) (left + 1)).map cuts) cs)
        have hle := cutLength_le (cuts i :: (List.range' (i + 1) (left + 1)).map cuts) cs.length
        rw [h0, List.take_nil, List.length_nil, List.length_take] at e
        omega
      refine ⟨hz, ?_⟩
      obtain ⟨fs2, y1, y2, y3⟩ := removeOld_exec out n (i + 1) fs1
      have hi2 : i + 1 < subs.length := by omega
      obtain ⟨t1, t2, t3⟩ := hsub (i + 1) subs[i + 1] (List.getElem?_eq_getElem hi2)
      have hin2 : Holds fs2 (passInput inp out n (i + 1)) [] := by
        obtain ⟨pos, h2⟩ := h2
        rw [h4 h0] at h2
        refine ⟨pos, ?_⟩
        rw [hinp, y3 _ fun _ => hneq _ _ (by omega), h2]
      rw [rewritePasses.eq_def]
      dsimp only
      rw [Prog.exec_bind, y1, Res.ok_bind, Prog.exec_bind, Prog.exec_lift, t1, Res.ok_bind, Res.ok_bind, Prog.exec_bind]
      dsimp only
      rw [rewritePass_empty _ _ _ _ _ _ _ hin2]
      rfl
    · have hcut : cutLength ((List.range' (i + 1) (left + 1)).map cuts)
          ((handed (cuts i) cs).map (·.mapRefs (locate subs[i].element subs[i].locations))).length =
          cutLength (cuts i :: (List.range' (i + 1) (left + 1)).map cuts) cs.length := by
        rw [List.length_map, handed_length]
        cases cuts i <;> rfl
      have hstep := ih (i + 1) fs1 file1 _ (by omega) (by rw [hinp]; exact h2) h3 (h4' h0)
        (smallFile_map _ (smallFile_handed hsm _))
      rw [hcut] at hstep
      rcases hstep with h | ⟨fs', file', e1, e2, e3, e4, e5, e6⟩
      · exact Or.inl h
      · refine Or.inr ⟨fs', file', e1, e2, e3, e4, fun hm => ?_, e6⟩
        have e5 := e5 hm
        rw [← List.map_take, List.map_map] at e5
        have hfun : ((fun c : Content => c.mapRefs (locate ((subs.drop (i + 1)).flatMap (·.element)) ix.locations)) ∘
            fun c : Content => c.mapRefs (locate subs[i].element subs[i].locations)) =
            fun c => c.mapRefs (locate ((subs.drop i).flatMap (·.element)) ix.locations) := by
          funext c
          rw [Function.comp_apply, content_mapRefs_comp, List.drop_eq_getElem_cons hi1, List.flatMap_cons, s3]
          congr 1
          funext r
          exact locate_comp hneg _ _ r
        rw [hfun] at e5
        have := handed_cut (cuts i) ((List.range' (i + 1) (left + 1)).map cuts) cs
        rw [show cutLength ((List.range' (i + 1) (left + 1)).map cuts) (handed (cuts i) cs).length =
          cutLength (cuts i :: (List.range' (i + 1) (left + 1)).map cuts) cs.length from by
            rw [← hcut, List.length_map]] at this
        rw [this] at e5
        exact e5

/-- A run that ended normally got through its parts. -/
theorem process_back {α O : Type} (cut : Option Nat) (work : Block → Res O) (inp : String) (output : List O → Prog α)
    {file : List UInt8} {bs : List Block} (hs : split file = .ok bs) (fs : FS) (hin : Holds fs inp file) {r : α × FS}
    (h : (process cut work inp output).exec fs = .ok r) :
    ∃ xs, mapRes work (handed cut bs) = .ok xs ∧ (output xs).exec fs = .ok r := by
  cases hx : mapRes work (handed cut bs) with
  | ok xs =>
    refine ⟨xs, rfl, ?_⟩
    have := process_run cut work inp output hs hx fs hin
    unfold Prog.exec at h ⊢
    rw [← this]
    exact h
  | _ =>
    exfalso
    obtain ⟨pos, hin⟩ := hin
    have hne : file ≠ [] := by
      rintro rfl
      cases hs
    unfold process at h
    rw [Prog.exec_bind, exec_OsOpen_some hin, Res.ok_bind, Prog.exec_bind, exec_MMapMap] at h
    dsimp only at h
    rw [hin] at h
    dsimp only at h
    rw [if_neg hne, Res.ok_bind, Prog.exec_bind, Prog.exec_lift, hs, Res.ok_bind, Res.ok_bind, Prog.exec_bind,
      Prog.exec_lift, hx] at h
    cases h

theorem search_ends (es : List IndexElement) (id : UInt64) : ∀ (fuel lo hi : Nat), hi - lo < fuel →
    search es id fuel lo hi = .panic ∨ ∃ p, search es id fuel lo hi = .ok p := by
  intro fuel
  induction fuel with
  | zero => intro lo hi h; omega
  | succ fuel ih =>
    intro lo hi h
    unfold search
    split
    · dsimp only
      cases es[(lo + hi) / 2]? with
      | none => exact Or.inl rfl
      | some e =>
        rw [show Res.ofOption (some e) = .ok e from rfl, Res.ok_bind]
        split
        · exact ih _ _ (by omega)
        · split
          · exact Or.inr ⟨_, rfl⟩
          · exact ih _ _ (by omega)
    · exact Or.inr ⟨_, rfl⟩

/-- In an index without locations nothing is found. -/
theorem findNode_nowhere (sub : List IndexElement) (top id : UInt64) (hint : Int) :
    SubIdx.findNode ⟨sub, [], top⟩ id hint = .panic ∨
      ∃ r, SubIdx.findNode ⟨sub, [], top⟩ id hint = .ok r ∧ r.ok = false := by
  have hl : ∀ o, locAt [] o = .panic := by
    intro o
    unfold locAt
    simp [Res.ofOption]
  have ho : ∀ (e : IndexElement) (f : Int64 → Res Found), (do
      let o ← e.OffsetForID id
      let loc ← locAt [] o
      f loc) = .panic := by
    intro e f
    unfold IndexElement.OffsetForID
    split
    · rfl
    · rw [Res.ok_bind, hl]; rfl
  have hb : ∀ lo hi, hi ≤ sub.length → (SubIdx.findBetween ⟨sub, [], top⟩ id hint lo hi = .panic ∨
      ∃ r, SubIdx.findBetween ⟨sub, [], top⟩ id hint lo hi = .ok r ∧ r.ok = false) := by
    intro lo hi h
    unfold SubIdx.findBetween
    dsimp only
    rcases search_ends sub id (sub.length + 1) lo hi (by omega) with h1 | ⟨p, h1⟩
    · rw [h1]; exact Or.inl rfl
    · rw [h1, Res.ok_bind]
      cases sub[p]? with
      | none => exact Or.inr ⟨_, rfl, rfl⟩
      | some e =>
        dsimp only
        split
        · exact Or.inr ⟨_, rfl, rfl⟩
        · exact Or.inl (ho e _)
  unfold SubIdx.findNode
  dsimp only
  split
  · exact Or.inr ⟨_, rfl, rfl⟩
  · split
    · split
      · exact Or.inl rfl
      · cases sub[hint.toNat]? with
        | none => exact Or.inl rfl
        | some e =>
          rw [show Res.ofOption (some e) = .ok e from rfl, Res.ok_bind]
          split
          · exact hb _ _ (by omega)
          · split
            · exact Or.inl (ho e _)
            · exact hb _ _ (Nat.le_refl _)
    · exact hb _ _ (Nat.le_refl _)

/-- The same for the way index. -/
theorem waySearch_ends (es : List UInt64) (id : Int64) : ∀ (fuel lo hi : Nat), hi - lo < fuel →
    WayIndex.search es id fuel lo hi = .panic ∨ ∃ p, WayIndex.search es id fuel lo hi = .ok p := by
  intro fuel
  induction fuel with
  | zero => intro lo hi h; omega
  | succ fuel ih =>
    intro lo hi h
    unfold WayIndex.search
    split
    · dsimp only
      cases es[(lo + hi) / 2]? with
      | none => exact Or.inl rfl
      | some e =>
        rw [show Res.ofOption (some e) = .ok e from rfl, Res.ok_bind]
        split
        · exact ih _ _ (by omega)
        · split
          · exact Or.inr ⟨_, rfl⟩
          · exact ih _ _ (by omega)
    · exact Or.inr ⟨_, rfl⟩

/-- In a way index without locations nothing is found. -/
theorem findLocations_nowhere (ids : List UInt64) (shift top id : Int64) (hint : Int) :
    WayIndex.SubIdx.FindLocations ⟨ids, [], shift, top⟩ id hint = .panic ∨
      ∃ r, WayIndex.SubIdx.FindLocations ⟨ids, [], shift, top⟩ id hint = .ok r ∧ r.ok = false := by
  have hd : ∀ d, WayIndex.SubIdx.decodeAt ⟨ids, [], shift, top⟩ d = .panic := by
    intro d
    unfold WayIndex.SubIdx.decodeAt
    dsimp only
    cases h : WayIndex.goShl (WayIndex.Offset d) shift with
    | ok o =>
      rw [Res.ok_bind]
      split
      · simp only [List.drop_nil]
        rfl
      · rfl
    | panic => rfl
    | _ => unfold WayIndex.goShl at h; split at h <;> (try split at h) <;> cases h
  have hb : ∀ lo hi, hi ≤ ids.length → (WayIndex.SubIdx.findBetween ⟨ids, [], shift, top⟩ id hint lo hi = .panic ∨
      ∃ r, WayIndex.SubIdx.findBetween ⟨ids, [], shift, top⟩ id hint lo hi = .ok r ∧ r.ok = false) := by
    intro lo hi h
    unfold WayIndex.SubIdx.findBetween
    dsimp only
    rcases waySearch_ends ids id (ids.length + 1) lo hi (by omega) with h1 | ⟨p, h1⟩
    · rw [h1]; exact Or.inl rfl
    · rw [h1, Res.ok_bind]
      cases ids[p]? with
      | none => exact Or.inr ⟨_, rfl, rfl⟩
      | some e =>
        dsimp only
        split
        · exact Or.inr ⟨_, rfl, rfl⟩
        · rw [hd]; exact Or.inl rfl
  unfold WayIndex.SubIdx.FindLocations
  dsimp only
  split
  · exact Or.inr ⟨_, rfl, rfl⟩
  · split
    · split
      · exact Or.inl rfl
      · cases ids[hint.toNat]? with
        | none => exact Or.inl rfl
        | some e =>
          rw [show Res.ofOption (some e) = .ok e from rfl, Res.ok_bind]
          split
          · exact hb _ _ (by omega)
          · split
            · rw [hd]; exact Or.inl rfl
            · exact hb _ _ (Nat.le_refl _)
    · exact hb _ _ (Nat.le_refl _)

theorem entries_wayIds (shift : Int64) : ∀ (ws : List Way) (k : Nat), k + waysBlocks shift ws ≤ 2 ^ 33 →
    (∀ w ∈ ws, 0 ≤ w.ID.toInt ∧ w.ID.toInt < 2 ^ 31) → (WayIndexer.entries shift k ws).map WayIndex.WayID = ws.map (·.ID)
  | [], _, _, _ => rfl
  | w :: ws, k, hk, hid => by
    rw [WayIndexer.waysBlocks_cons] at hk
    have hpos := WayIndexer.wayBlocks_pos shift w
    obtain ⟨i0, i1⟩ := hid w (by simp)
    unfold WayIndexer.entries
    rw [List.map_cons, List.map_cons, entries_wayIds shift ws _ (by omega) (fun x hx => hid x (by simp [hx]))]
    congr 1
    apply Int64.toInt_inj.1
    rw [WayIndex.wayID_eq, WayIndexer.entry_id _ _ i1 (by omega)]
    omega

end Osm.Interrupt
