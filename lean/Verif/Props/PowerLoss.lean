import Verif.Lemmas.PowerLoss
import Verif.Props.NodeIndexer
import Verif.Props.WayIndex

/-!
# C100: what a power failure leaves of an index

A file that is accepted has its header; whether it has anything else is another matter.
-/

namespace Osm.Props
open Osm Osm.Spec

section Nodes
open Osm.NodeIndex Osm.NodeIndexer

/-- C100: a node index that is accepted after a power failure was complete before it, and its first page is still as it was. -/
theorem C100_header (page : Nat) (hpage : 16 ≤ page) (out : String) (sched : Nat → Nat) (cancelled : Nat → Bool)
    (bs : List (Option ElementBatch)) (fs : FS) (hnew : fs out = none) (left : List UInt8)
    (hp : AfterPowerLoss page (Output out sched cancelled bs fs).1 fs out left) (ix : NodeIdx) (hix : NewNodeIndex left = .ok ix) :
    ∃ fs' final, (Output out sched cancelled bs).exec fs = .ok ((), fs') ∧ Holds fs' out final ∧
      ∀ i, i < page → i < left.length → left[i]? = final[i]? := by
  have hspec := loopSpec out (out ++ ".loc.tmp") (tmp_ne out) bs 0 0
  rw [output_shape] at hp ⊢
  rcases PowerLoss.first_page page hpage out sched cancelled (PowerLoss.addsP_nodeBatches bs 0 0) hspec header header_length fs
    hnew hp with hz | ⟨final, h1, h2, h3⟩
  · rw [load_noHeader hz] at hix
    cases hix
  · obtain ⟨hl, _⟩ := PowerLoss.bytes_left page out sched cancelled (PowerLoss.addsP_nodeBatches bs 0 0) hspec header header_length
      fs hnew h1 h2 hp
    refine ⟨_, final, ?_, h2, fun i hi hi' => ?_⟩
    · unfold Prog.exec
      rcases hw : withHeader out (twoFile out sched cancelled (writeBatches out (out ++ ".loc.tmp") 0 0 bs)) header fs with ⟨ops, r⟩
      rw [hw] at h1
      have h1 : r = .ok () := h1
      subst h1
      rfl
    · rw [h3 i hi hi', List.getD_eq_getElem?_getD, List.getElem?_eq_getElem (show i < final.length by omega)]
      rfl

/-- C100: nothing else can be in it than what was written, or zeros. -/
theorem C100_bytes (page : Nat) (out : String) (sched : Nat → Nat) (cancelled : Nat → Bool)
    (bs : List (Option ElementBatch)) (fs fs' : FS) (hnew : fs out = none) (left final : List UInt8)
    (hrun : (Output out sched cancelled bs).exec fs = .ok ((), fs')) (hfin : Holds fs' out final)
    (hp : AfterPowerLoss page (Output out sched cancelled bs fs).1 fs out left) :
    left.length ≤ final.length ∧ ∀ i, i < left.length → left[i]? = some 0 ∨ left[i]? = final[i]? := by
  have hspec := loopSpec out (out ++ ".loc.tmp") (tmp_ne out) bs 0 0
  rw [output_shape] at hp hrun
  unfold Prog.exec at hrun
  rcases hw : withHeader out (twoFile out sched cancelled (writeBatches out (out ++ ".loc.tmp") 0 0 bs)) header fs with ⟨ops, r⟩
  rw [hw] at hrun
  cases r with
  | ok u =>
    cases hrun
    exact PowerLoss.bytes_left page out sched cancelled (PowerLoss.addsP_nodeBatches bs 0 0) hspec header header_length
      fs hnew (by rw [hw]) (by rw [hw]; exact hfin) hp
  | panic => cases hrun
  | hang => cases hrun

/-- C100: had the file been synchronised before its header was written, an index that is accepted would be complete. -/
theorem C100_synced (page : Nat) (hpage : 16 ≤ page) (out : String) (sched : Nat → Nat) (cancelled : Nat → Bool)
    (bs : List (Option ElementBatch)) (fs : FS) (hnew : fs out = none) (left : List UInt8)
    (hp : AfterPowerLossSynced page (Output out sched cancelled bs fs).1 fs out left) (ix : NodeIdx)
    (hix : NewNodeIndex left = .ok ix) : Holds (runOps (Output out sched cancelled bs fs).1 fs) out left := by
  have hspec := loopSpec out (out ++ ".loc.tmp") (tmp_ne out) bs 0 0
  rw [output_shape] at hp ⊢
  rcases PowerLoss.synced page hpage out sched cancelled (PowerLoss.addsP_nodeBatches bs 0 0) hspec header header_length fs
    hnew hp with hz | h
  · rw [load_noHeader hz] at hix
    cases hix
  · exact h


theorem hit_from {si : SubIdx} {e : IndexElement} (he : e ∈ si.element) (h1 : 1 ≤ rCount e) (h2 : rFirst e + rCount e ≤ 2 ^ 64)
    {id o : UInt64} {loc : Int64} (ho : e.OffsetForID id = .ok o) (hl : locAt si.locations o = .ok loc) (hz : loc ≠ 0) :
    HasLoc si.element si.locations id.toNat loc := by
  have hc : e.contains id = true := by
    unfold IndexElement.OffsetForID at ho
    cases hb : e.contains id with
    | true => rfl
    | false => rw [hb] at ho; cases ho
  have hh := (contains_eq e id h1 h2).1 hc
  obtain ⟨o', ho', hv⟩ := offsetForID_eq e id h1 h2 hh
  rw [ho] at ho'
  obtain rfl := Res.ok.inj ho'
  refine ⟨e, he, hh, ?_, hz⟩
  rw [← hv]
  unfold locAt at hl
  cases hg : si.locations[o.toNat]? with
  | none => rw [hg] at hl; cases hl
  | some l => rw [hg] at hl; rw [Res.ok.inj hl]

/-- An answer comes from a range that contains the id. -/
theorem findNode_from {si : SubIdx} (hne : ∀ e ∈ si.element, 1 ≤ rCount e ∧ rFirst e + rCount e ≤ 2 ^ 64) {id : UInt64} {hint : Int}
    {r : Found} (h : si.findNode id hint = .ok r) (hok : r.ok = true) : HasLoc si.element si.locations id.toNat r.loc := by
  have hbet : ∀ lo hi, si.findBetween id hint lo hi = .ok r → HasLoc si.element si.locations id.toNat r.loc := by
    intro lo hi h
    unfold SubIdx.findBetween at h
    obtain ⟨p, _, h⟩ := (Res.bind_eq_ok ..).1 h
    cases hp : si.element[p]? with
    | none => rw [hp] at h; cases h; cases hok
    | some e =>
      rw [hp] at h
      dsimp only at h
      have hmem := List.mem_of_getElem? hp
      split at h
      · cases h; cases hok
      · obtain ⟨o, ho, h⟩ := (Res.bind_eq_ok ..).1 h
        obtain ⟨loc, hl, h⟩ := (Res.bind_eq_ok ..).1 h
        cases h
        exact hit_from hmem (hne e hmem).1 (hne e hmem).2 ho hl (by simpa using hok)
  unfold SubIdx.findNode at h
  split at h
  · cases h; cases hok
  split at h
  · split at h
    · cases h
    · obtain ⟨e, he, h⟩ := (Res.bind_eq_ok ..).1 h
      split at h
      · exact hbet _ _ h
      split at h
      · obtain ⟨o, ho, h⟩ := (Res.bind_eq_ok ..).1 h
        obtain ⟨loc, hl, h⟩ := (Res.bind_eq_ok ..).1 h
        cases h
        cases hg : si.element[hint.toNat]? with
        | none => rw [hg] at he; cases he
        | some e' =>
          rw [hg] at he
          obtain rfl := Res.ok.inj he
          have hmem := List.mem_of_getElem? hg
          exact hit_from hmem (hne _ hmem).1 (hne _ hmem).2 ho hl (by simpa using hok)
      · exact hbet _ _ h
  · exact hbet _ _ h

theorem pairsOf_length : ∀ l : List UInt64, (pairsOf l).length = l.length / 2
  | [] => rfl
  | [_] => by simp [pairsOf]
  | a :: b :: l => by
    show (pairsOf l).length + 1 = (l.length + 2) / 2
    rw [pairsOf_length l]
    omega

theorem twice_even (s : Int64) : (s * 2).toInt % 2 = 0 := by
  rw [Int64.toInt_mul, show (2 : Int64).toInt = 2 from rfl]
  unfold Int.bmod
  dsimp only
  split <;> omega

theorem newNodeIndex_words {file : List UInt8} {ix : NodeIdx} (h : NewNodeIndex file = .ok ix) :
    ∃ v s : UInt64, (wordsOf file)[0]? = some v ∧ (wordsOf file)[1]? = some s ∧
      (s.toInt64 * 2).toInt = 2 * (ix.elements.length : Int) ∧
      2 + 2 * ix.elements.length ≤ (wordsOf file).length ∧
      ix.elements = (pairsOf (((wordsOf file).drop 2).take (2 * ix.elements.length))).map (fun p => ⟨p.1, p.2⟩) ∧
      ix.locations = (((wordsOf file).drop 2).drop (2 * ix.elements.length)).map (·.toInt64) := by
  unfold NewNodeIndex at h
  obtain ⟨v, hv, h⟩ := (Res.bind_eq_ok ..).1 h
  split at h
  · cases h
  unfold NewNodeIndex.newNodeIndexBody at h
  obtain ⟨s, hs, h⟩ := (Res.bind_eq_ok ..).1 h
  dsimp only at h
  split at h
  case isFalse => cases h
  case isTrue hn =>
    have he := twice_even s.toInt64
    have e1 : ∀ {o : Option UInt64} {a}, Res.ofOption o = .ok a → o = some a := by
      intro o a h
      cases o with
      | none => cases h
      | some b => rw [Res.ok.inj h]
    have hv := e1 hv
    have hs := e1 hs
    have h1 : 1 < (wordsOf file).length := by
      rcases Nat.lt_or_ge 1 (wordsOf file).length with h | h
      · exact h
      · rw [List.getElem?_eq_none h] at hs; cases hs
    obtain ⟨n, hn'⟩ : ∃ n, (s.toInt64 * 2).toInt = n := ⟨_, rfl⟩
    rw [hn'] at he hn h
    obtain ⟨hn0, hn1⟩ := hn
    rw [List.length_drop] at hn1
    have hl : ix.elements.length = n.toNat / 2 := by
      rw [← Res.ok.inj h]
      dsimp only
      rw [List.length_map, pairsOf_length, List.length_take, List.length_drop]
      omega
    have h2 : 2 * ix.elements.length = n.toNat := by omega
    refine ⟨v, s, hv, hs, by rw [hn']; omega, by omega, ?_, ?_⟩
    · rw [h2, ← Res.ok.inj h]
    · rw [h2, ← Res.ok.inj h]

/-- C100: if header and ranges are all there and every location is there or zero, then an answer, if there is one, is right.
Missing: without the ranges answers are wrong (`C100_lost_range`, `C100_false`). -/
theorem C100_locations_partial (left final : List UInt8) (ix ix' : NodeIdx) (hix : NewNodeIndex final = .ok ix)
    (hwf : WellFormed ix.elements ix.locations) (hix' : NewNodeIndex left = .ok ix')
    (hr : ∀ i, i < 2 + 2 * ix.elements.length → (wordsOf left)[i]? = (wordsOf final)[i]?)
    (hl : ∀ (i : Nat) (w : UInt64), (wordsOf left)[i]? = some w → w = 0 ∨ (wordsOf final)[i]? = some w)
    (p n : UInt64) (si : SubIdx) (hsi : ix'.SubIndex p n = .ok si) (id : UInt64) (hint : Int) (r : Found)
    (h : si.findNode id hint = .ok r) (hok : r.ok = true) : HasLoc ix.elements ix.locations id.toNat r.loc := by
  obtain ⟨v, s, _, h1, h2, h3, h4, h5⟩ := newNodeIndex_words hix
  obtain ⟨v', s', _, h1', h2', h3', h4', h5'⟩ := newNodeIndex_words hix'
  have hs := hr 1 (by omega)
  rw [h1, h1'] at hs
  obtain rfl := Option.some.inj hs
  have hlen : ix'.elements.length = ix.elements.length := by omega
  have hels : ix'.elements = ix.elements := by
    rw [h4, h4', hlen]
    congr 2
    apply List.ext_getElem?
    intro i
    rw [List.getElem?_take, List.getElem?_take]
    split
    · rw [List.getElem?_drop, List.getElem?_drop]
      exact hr _ (by omega)
    · rfl
  have hlocs : ∀ (i : Nat) (l : Int64), ix'.locations[i]? = some l → l ≠ 0 → ix.locations[i]? = some l := by
    intro i l hi hz
    rw [h5', hlen, List.getElem?_map, List.getElem?_drop, List.getElem?_drop] at hi
    rw [h5, List.getElem?_map, List.getElem?_drop, List.getElem?_drop]
    generalize 2 + (2 * ix.elements.length + i) = j at *
    cases hw : (wordsOf left)[j]? with
    | none => rw [hw] at hi; cases hi
    | some w =>
      rw [hw] at hi
      have hi : w.toInt64 = l := Option.some.inj hi
      rcases hl j w hw with rfl | h
      · exact absurd hi.symm hz
      · rw [h, ← hi]; rfl
  have hsub : si.locations = ix'.locations ∧ ∀ e ∈ si.element, e ∈ ix'.elements := by
    unfold NodeIdx.SubIndex at hsi
    split at hsi
    · cases hsi
    · dsimp only at hsi
      split at hsi
      · cases hsi
      · obtain ⟨last, _, hsi⟩ := (Res.bind_eq_ok ..).1 hsi
        rw [← Res.ok.inj hsi]
        exact ⟨rfl, fun e he => List.mem_of_mem_take (List.mem_of_mem_drop he)⟩
  obtain ⟨e, he, hh, hg, hz⟩ := findNode_from (fun e he => by
    have := hsub.2 e he
    rw [hels] at this
    exact ⟨hwf.nonempty e this, hwf.ids e this⟩) h hok
  refine ⟨e, hels ▸ hsub.2 e he, hh, hlocs _ _ (hsub.1 ▸ hg) hz, hz⟩

/-- One range with two locations, of which the first is lost. -/
example : NewNodeIndex (bytesOf [1, 1, 10, 2, 5, 6]) = .ok ⟨[⟨10, 2⟩], [5, 6]⟩ ∧
    NewNodeIndex (bytesOf [1, 1, 10, 2, 0, 6]) = .ok ⟨[⟨10, 2⟩], [0, 6]⟩ ∧ WellFormed [⟨10, 2⟩] [5, 6] ∧
    (∀ i : Fin 4, (wordsOf (bytesOf [1, 1, 10, 2, 0, 6]))[i]? = (wordsOf (bytesOf [1, 1, 10, 2, 5, 6]))[i]?) ∧
    (SubIdx.mk [⟨10, 2⟩] [0, 6] 11).findNode 11 0 = .ok ⟨6, 0, true, [.hitHint]⟩ ∧
    (SubIdx.mk [⟨10, 2⟩] [0, 6] 11).findNode 10 0 = .ok ⟨0, 0, false, [.hitHint]⟩ := by
  refine ⟨by decide +kernel, by decide +kernel, ⟨by decide, by decide, by decide, by decide⟩, by decide +kernel, by decide +kernel,
    by decide +kernel⟩

/-- C100: if the range in the middle was lost, an id that is not in the first range or before it has the location whose number
is the id, whoever that belongs to. -/
theorem C100_lost_range (si : SubIdx) (e : IndexElement) (h0 : si.element[0]? = some e)
    (hm : si.element[si.element.length / 2]? = some ⟨0, 0⟩) (id : UInt64) (hid : e.LastID < id) (hid0 : e.FirstID ≤ id)
    (htop : id ≤ si.Top) :
    si.findNode id 0 = (locAt si.locations id >>= fun loc =>
      .ok ⟨loc, (si.element.length / 2 : Nat), loc ≠ 0, [.hitDefault]⟩) := by
  have hl : 0 < si.element.length := by
    rcases Nat.eq_zero_or_pos si.element.length with h | h
    · rw [List.getElem?_eq_none (by omega)] at h0; cases h0
    · exact h
  have hz : (⟨0, 0⟩ : IndexElement).LastID = -1 := by decide
  have hle : id ≤ (-1 : UInt64) := by
    rw [UInt64.le_iff_toNat_le]
    have := id.toNat_lt
    rw [show (-1 : UInt64).toNat = 2 ^ 64 - 1 from rfl]
    omega
  have hc : (⟨0, 0⟩ : IndexElement).contains id = true := by
    unfold IndexElement.contains
    rw [hz]
    simp only [IndexElement.FirstID, Bool.and_eq_true, decide_eq_true_eq, ge_iff_le]
    exact ⟨UInt64.zero_le, hle⟩
  have hcmp : (⟨0, 0⟩ : IndexElement).compareId id = 0 := by
    unfold IndexElement.compareId
    rw [hz, if_neg (by rw [IndexElement.FirstID, UInt64.not_lt]; exact UInt64.zero_le), if_neg (by rw [gt_iff_lt, UInt64.not_lt]; exact hle)]
  have ho : (⟨0, 0⟩ : IndexElement).OffsetForID id = .ok id := by
    unfold IndexElement.OffsetForID
    rw [hc]
    simp [IndexElement.Offset, IndexElement.FirstID, coOffset]
  have hs : search si.element id (si.element.length + 1) 0 si.element.length = .ok (si.element.length / 2) := by
    unfold search
    rw [if_pos hl]
    dsimp only
    rw [Nat.zero_add, hm]
    show (if (⟨0, 0⟩ : IndexElement).compareId id < 0 then _ else if (⟨0, 0⟩ : IndexElement).compareId id = 0 then _ else _) = _
    rw [hcmp]
    rfl
  have hb : si.findBetween id 0 0 si.element.length = (locAt si.locations id >>= fun loc =>
      .ok ⟨loc, (si.element.length / 2 : Nat), loc ≠ 0, [.hitDefault]⟩) := by
    unfold SubIdx.findBetween
    rw [hs]
    show (match si.element[si.element.length / 2]? with | none => _ | some e => _) = _
    rw [hm]
    dsimp only
    rw [hc, ho]
    rfl
  unfold SubIdx.findNode
  rw [if_neg (by rw [gt_iff_lt, UInt64.not_lt]; exact htop), if_pos (by omega), if_neg (by omega)]
  have h0' : si.element[(0 : Int).toNat]? = some e := h0
  rw [h0']
  have hce : e.compareId id = 1 := by
    unfold IndexElement.compareId
    rw [if_neg (by rw [UInt64.not_lt]; exact hid0), if_pos hid]
  show (if e.compareId id = -1 then _ else if e.compareId id = 0 then _ else _) = _
  rw [hce]
  exact hb

/-- Nodes 10, 13, 16, …, 217: seventy ranges. -/
def seventyIds : List Int64 := (List.range 70).map fun k => Int64.ofNat (10 + 3 * k)
/-- A file with these nodes. -/
def seventyInput : List (Option T.PrimitiveBlock) := [some (exampleBlock seventyIds)]
/-- The ranges of the index. -/
def seventyElems : List IndexElement := seventyIds.mapIdx fun i id => ⟨id.toUInt64, (UInt64.ofNat i <<< 24) ||| 1⟩
/-- Its locations. -/
def seventyLocs : List Int64 := seventyIds.map fun i => locVal (exampleBlock []) ⟨i, i * 1000, i * 2000⟩
/-- What the workers make of it. -/
def seventyBatches : List (Option ElementBatch) := [some ⟨seventyIds.map fun i => ⟨i.toUInt64, i.toUInt64⟩, seventyLocs⟩]
/-- The complete index. -/
def seventyFile : List UInt8 := header 70 ++ bytesOf (elemWords seventyElems) ++ Int64SliceAsByteSlice seventyLocs
/-- The ranges that are left without a page. -/
def seventyLeft : List IndexElement := seventyElems.mapIdx fun i e => if 31 ≤ i ∧ i < 63 then ⟨0, 0⟩ else e
/-- What a lookup in the whole index answers. -/
def answer (file : List UInt8) (id : UInt64) : Res (Int64 × Bool) := do
  let ix ← NewNodeIndex file
  let si ← ix.SubIndex 0 1
  let r ← si.findNode id 0
  .ok (r.loc, r.ok)

theorem seventy_runs (out : String) (sched : Nat → Nat) (fs : FS) :
    ∃ fs', (Output out sched never seventyBatches).exec fs = .ok ((), fs') ∧ Holds fs' out seventyFile := by
  have hspec := loopSpec out (out ++ ".loc.tmp") (tmp_ne out) seventyBatches 0 0
  obtain ⟨r1, -, -⟩ := withHeader_exec out sched never _ _ hspec header header_length fs
  have hb : batches 0 0 seventyBatches = .ok (70, elemWords seventyElems, seventyLocs) := by
    have hw : batchWords 0 (seventyIds.map fun i => ⟨i.toUInt64, i.toUInt64⟩) = .ok (elemWords seventyElems, 70) := by decide +kernel
    show (batchWords 0 _ >>= fun ws => _) = _
    rw [hw]
    show Res.ok _ = _
    rw [show (0 : UInt64) + UInt64.ofNat (seventyIds.map fun i => (⟨i.toUInt64, i.toUInt64⟩ : IndexRange)).length = 70 from by decide +kernel]
    simp only [List.append_nil]
  obtain ⟨fs', m, e1, ⟨pos, e2⟩, -, -, e5, -⟩ := r1 70 _ _ (by unfold batchBytes; rw [hb]; rfl)
  rw [List.take_of_length_le (e5 fun _ => rfl)] at e2
  exact ⟨fs', e1, pos, e2⟩

theorem seventy_left : PowerLoss.losePage 512 1 seventyFile =
    header (UInt64.ofNat seventyLeft.length) ++ bytesOf (elemWords seventyLeft) ++ Int64SliceAsByteSlice seventyLocs := by
  unfold seventyFile header Int64SliceAsByteSlice
  rw [← bytesOf_append, ← bytesOf_append, ← bytesOf_append, ← bytesOf_append, show 512 = 8 * 64 from rfl,
    PowerLoss.losePage_words 64 1]
  refine congrArg bytesOf ?_
  have h1 : PowerLoss.loseWords 64 1 ([1, 70] ++ elemWords seventyElems) =
    [1, UInt64.ofNat seventyLeft.length] ++ elemWords seventyLeft := by decide +kernel
  have hl : ([1, 70] ++ elemWords seventyElems).length = 142 := by decide +kernel
  rw [← h1]
  generalize [1, 70] ++ elemWords seventyElems = A at hl
  generalize seventyLocs.map (·.toUInt64) = L
  unfold PowerLoss.loseWords
  rw [List.mapIdx_append, hl]
  rw [List.append_cancel_left_eq]
  apply List.ext_getElem?
  intro i
  rw [List.getElem?_mapIdx]
  cases L[i]? with
  | none => rfl
  | some w => simp only [Option.map_some]; rw [if_neg (by omega)]

/-- C100 fails: after a power failure in which one page of the ranges was lost, the index is accepted, and node 13 is at the
place of node 49. -/
theorem C100_false (out : String) (sched : Nat → Nat) (fs : FS) :
    mapRes work seventyInput = .ok seventyBatches ∧
    ∃ fs' left, (Output out sched never seventyBatches).exec fs = .ok ((), fs') ∧ Holds fs' out seventyFile ∧
      AfterPowerLoss 512 (Output out sched never seventyBatches fs).1 fs out left ∧ left ≠ seventyFile ∧
      answer seventyFile 13 = .ok (locVal (exampleBlock []) ⟨13, 13000, 26000⟩, true) ∧
      answer seventyFile 49 = .ok (locVal (exampleBlock []) ⟨49, 49000, 98000⟩, true) ∧
      answer left 13 = .ok (locVal (exampleBlock []) ⟨49, 49000, 98000⟩, true) := by
  refine ⟨by decide +kernel, ?_⟩
  obtain ⟨fs', h1, h2⟩ := seventy_runs out sched fs
  have hf := load_file seventyElems seventyLocs (by decide +kernel)
  rw [show UInt64.ofNat seventyElems.length = 70 from by decide +kernel] at hf
  have hf : NewNodeIndex seventyFile = _ := hf
  have hl := load_file seventyLeft seventyLocs (by decide +kernel)
  rw [← seventy_left] at hl
  have a1 : answer seventyFile 13 = .ok (locVal (exampleBlock []) ⟨13, 13000, 26000⟩, true) := by
    unfold answer
    rw [hf]
    decide +kernel
  have a2 : answer seventyFile 49 = .ok (locVal (exampleBlock []) ⟨49, 49000, 98000⟩, true) := by
    unfold answer
    rw [hf]
    decide +kernel
  have a3 : answer (PowerLoss.losePage 512 1 seventyFile) 13 = .ok (locVal (exampleBlock []) ⟨49, 49000, 98000⟩, true) := by
    unfold answer
    rw [hl]
    decide +kernel
  refine ⟨fs', PowerLoss.losePage 512 1 seventyFile, h1, h2, PowerLoss.lost_page ?_ ?_ 1, ?_, a1, a2, a3⟩
  · obtain ⟨pos, h2⟩ := h2
    refine ⟨_, [], pos, (List.append_nil _).symm, ?_⟩
    unfold Prog.exec at h1
    rcases hw : Output out sched never seventyBatches fs with ⟨ops, r⟩
    rw [hw] at h1
    cases r with
    | ok u => cases h1; exact h2
    | panic => cases h1
    | hang => cases h1
  · rw [output_shape]
    exact PowerLoss.created out sched never (PowerLoss.addsP_nodeBatches _ 0 0) header fs
  · intro h
    rw [h, a1] at a3
    exact absurd (Res.ok.inj a3) (by decide +kernel)

end Nodes

section Ways
open Osm.WayIndex Osm.WayIndexer

/-- C100: a way index of which some pass can be taken after a power failure was complete before it, and its first page is still as
it was. -/
theorem C100_header_ways (page : Nat) (hpage : 16 ≤ page) (out : String) (shift : Int64) (sched : Nat → Nat)
    (cancelled : Nat → Bool) (bs : List (Option IndexElement)) (fs : FS) (hnew : fs out = none) (left : List UInt8)
    (hp : AfterPowerLoss page (Output out shift sched cancelled bs fs).1 fs out left) (p n : Int64) (si : SubIdx)
    (hix : (NewWayIndex left >>= fun ix => ix.SubIndexWithScaledPass p n) = .ok si) :
    ∃ fs' final, (Output out shift sched cancelled bs).exec fs = .ok ((), fs') ∧ Holds fs' out final ∧
      ∀ i, i < page → i < left.length → left[i]? = final[i]? := by
  have hspec := loopSpec out (out ++ ".loc.tmp") (tmp_ne out) shift bs 0 0
  rw [output_shape] at hp ⊢
  rcases PowerLoss.first_page page hpage out sched cancelled (PowerLoss.addsP_wayBatches shift bs 0 0) hspec (header shift)
    (header_length shift) fs hnew hp with hz | ⟨final, h1, h2, h3⟩
  · rw [load_noHeader hz] at hix
    cases hix
  · obtain ⟨hl, _⟩ := PowerLoss.bytes_left page out sched cancelled (PowerLoss.addsP_wayBatches shift bs 0 0) hspec (header shift)
      (header_length shift) fs hnew h1 h2 hp
    refine ⟨_, final, ?_, h2, fun i hi hi' => ?_⟩
    · unfold Prog.exec
      rcases hw : withHeader out (twoFile out sched cancelled (writeBatches out (out ++ ".loc.tmp") shift 0 0 bs)) (header shift) fs
        with ⟨ops, r⟩
      rw [hw] at h1
      have h1 : r = .ok () := h1
      subst h1
      rfl
    · rw [h3 i hi hi', List.getD_eq_getElem?_getD, List.getElem?_eq_getElem (show i < final.length by omega)]
      rfl

/-- C100: nothing else can be in it than what was written, or zeros. -/
theorem C100_bytes_ways (page : Nat) (out : String) (shift : Int64) (sched : Nat → Nat) (cancelled : Nat → Bool)
    (bs : List (Option IndexElement)) (fs fs' : FS) (hnew : fs out = none) (left final : List UInt8)
    (hrun : (Output out shift sched cancelled bs).exec fs = .ok ((), fs')) (hfin : Holds fs' out final)
    (hp : AfterPowerLoss page (Output out shift sched cancelled bs fs).1 fs out left) :
    left.length ≤ final.length ∧ ∀ i, i < left.length → left[i]? = some 0 ∨ left[i]? = final[i]? := by
  have hspec := loopSpec out (out ++ ".loc.tmp") (tmp_ne out) shift bs 0 0
  rw [output_shape] at hp hrun
  unfold Prog.exec at hrun
  rcases hw : withHeader out (twoFile out sched cancelled (writeBatches out (out ++ ".loc.tmp") shift 0 0 bs)) (header shift) fs
    with ⟨ops, r⟩
  rw [hw] at hrun
  cases r with
  | ok u =>
    cases hrun
    exact PowerLoss.bytes_left page out sched cancelled (PowerLoss.addsP_wayBatches shift bs 0 0) hspec (header shift)
      (header_length shift) fs hnew (by rw [hw]) (by rw [hw]; exact hfin) hp
  | panic => cases hrun
  | hang => cases hrun

/-- C100: had the file been synchronised before its header was written, an index of which a pass can be taken would be complete. -/
theorem C100_synced_ways (page : Nat) (hpage : 16 ≤ page) (out : String) (shift : Int64) (sched : Nat → Nat)
    (cancelled : Nat → Bool) (bs : List (Option IndexElement)) (fs : FS) (hnew : fs out = none) (left : List UInt8)
    (hp : AfterPowerLossSynced page (Output out shift sched cancelled bs fs).1 fs out left) (p n : Int64) (si : SubIdx)
    (hix : (NewWayIndex left >>= fun ix => ix.SubIndexWithScaledPass p n) = .ok si) :
    Holds (runOps (Output out shift sched cancelled bs fs).1 fs) out left := by
  have hspec := loopSpec out (out ++ ".loc.tmp") (tmp_ne out) shift bs 0 0
  rw [output_shape] at hp ⊢
  rcases PowerLoss.synced page hpage out sched cancelled (PowerLoss.addsP_wayBatches shift bs 0 0) hspec (header shift)
    (header_length shift) fs hnew hp with hz | h
  · rw [load_noHeader hz] at hix
    cases hix
  · exact h

/-- A pass does not look at the locations. -/
theorem sub_other_loc {ids : List UInt64} {loc loc' : List UInt8} {shift : Int64} (hl : loc'.length = loc.length) {p n : Int64}
    {si : SubIdx} (h : WayIdx.SubIndexWithScaledPass ⟨ids, loc, shift⟩ p n = .ok si) (hsl : si.Loc = loc) :
    WayIdx.SubIndexWithScaledPass ⟨ids, loc', shift⟩ p n = .ok { si with Loc := loc' } := by
  unfold WayIdx.SubIndexWithScaledPass at h ⊢
  split at h
  · cases h
  · rename_i hn
    rw [if_neg hn]
    dsimp only at h ⊢
    rw [hl]
    obtain ⟨s, h1, h⟩ := (Res.bind_eq_ok ..).1 h
    obtain ⟨e, h2, h⟩ := (Res.bind_eq_ok ..).1 h
    rw [h1, Res.ok_bind, h2, Res.ok_bind]
    split at h
    · cases h
    · rename_i hz
      rw [if_neg hz]
      obtain ⟨last, h3, h⟩ := (Res.bind_eq_ok ..).1 h
      rw [h3, Res.ok_bind, ← Res.ok.inj h]

/-- C100 fails for ways: if the entries fill the first page and the locations are in the next, which was lost, then the index is
accepted and every way is found, with nothing in it. -/
theorem C100_false_ways (shift : Int64) (blocks : List (Option T.PrimitiveBlock)) (h : WaysIndexable shift (allWays blocks))
    (hne : allWays blocks ≠ []) (hloc : waysBlocks shift (allWays blocks) * 2 ^ shift.toInt.toNat ≤ 16 + 8 * (allWays blocks).length)
    (out : String) (sched : Nat → Nat) (fs : FS) :
    ∃ batches fs' final left si, workAll shift blocks = .ok batches ∧
      (Output out shift sched never batches).exec fs = .ok ((), fs') ∧ Holds fs' out final ∧
      AfterPowerLoss (16 + 8 * (allWays blocks).length) (Output out shift sched never batches fs).1 fs out left ∧
      left.length = final.length ∧ (NewWayIndex left >>= fun ix => ix.SubIndexWithScaledPass 0 1) = .ok si ∧
      ∀ w ∈ allWays blocks, ∀ hint : Int, 0 ≤ hint → ∃ r, si.FindLocations w.ID hint = .ok r ∧ r.ok = true ∧ r.locs = [] := by
  have hsp := h.space
  have hwork := workAll_ok shift blocks h
  have hb := batches_ok shift h.range.1 (blocks.map waysOf) 0 0 (by rw [← allWays_eq]; omega)
    (by rw [← allWays_eq]; exact h.ids)
  rw [← allWays_eq, Nat.zero_add] at hb
  generalize (blocks.map waysOf).map (elementOf shift) = bs at hwork hb
  have hspec := loopSpec out (out ++ ".loc.tmp") (tmp_ne out) shift bs 0 0
  obtain ⟨r1, -, -⟩ := withHeader_exec out sched never _ _ hspec (header shift) (header_length shift) fs
  obtain ⟨fs', m, e1, ⟨pos, e2⟩, -, -, e5, -⟩ := r1 (Int64.ofNat (allWays blocks).length)
    (bytesOf (entries shift 0 (allWays blocks))) (locData shift (allWays blocks)) (by
      unfold batchBytes
      rw [show (0 : Int64) = Int64.ofNat 0 from rfl, hb]; rfl)
  rw [List.take_of_length_le (e5 fun _ => rfl)] at e2
  rw [← output_shape] at e1
  have hlen := entries_length shift (allWays blocks) 0
  generalize hz : List.replicate (locData shift (allWays blocks)).length (0 : UInt8) = zs
  have hzl : zs.length = (locData shift (allWays blocks)).length := by rw [← hz, List.length_replicate]
  have hload := load_file (entries shift 0 (allWays blocks)) zs shift (by
    have := length_le_blocks shift (allWays blocks)
    omega)
  rw [hlen] at hload
  obtain ⟨si, s1, s2, s3, s4, s5⟩ := single_pass shift (allWays blocks) h hne
  have hsub := sub_other_loc hzl s1 s3
  obtain ⟨m1, m2⟩ := entries_mem shift (allWays blocks) h.ids 0 [] (by simp) (by omega)
  have hlost := PowerLoss.losePage_second (page := 16 + 8 * (allWays blocks).length)
    (a := header shift (Int64.ofNat (allWays blocks).length) ++ bytesOf (entries shift 0 (allWays blocks)))
    (b := locData shift (allWays blocks)) (by omega)
    (by rw [List.length_append, header_length, bytesOf_length, hlen]) (by rw [locData_length]; exact hloc)
  rw [hz] at hlost
  refine ⟨bs, fs', _, PowerLoss.losePage (16 + 8 * (allWays blocks).length) 1 (header shift (Int64.ofNat (allWays blocks).length) ++
    bytesOf (entries shift 0 (allWays blocks)) ++ locData shift (allWays blocks)), { si with Loc := zs }, hwork, e1, ⟨pos, e2⟩,
    PowerLoss.lost_page ?_ ?_ 1, ?_, ?_, ?_⟩
  · refine ⟨_, [], pos, (List.append_nil _).symm, ?_⟩
    unfold Prog.exec at e1
    rcases hw : Output out shift sched never bs fs with ⟨ops, r⟩
    rw [hw] at e1
    cases r with
    | ok u => cases e1; exact e2
    | panic => cases e1
    | hang => cases e1
  · rw [output_shape]
    exact PowerLoss.created out sched never (PowerLoss.addsP_wayBatches shift _ 0 0) (header shift) fs
  · unfold PowerLoss.losePage
    rw [List.length_mapIdx]
  · rw [hlost, hload]
    exact hsub
  · intro w hw hint hh
    obtain ⟨d, hd, hid⟩ := m2 w hw
    obtain ⟨w', _, _, _, q3, _⟩ := m1 d hd
    have hst : wStart shift d < zs.length := by
      rw [hzl]
      unfold wStart
      rw [locData_length]
      have := wayBlocks_pos shift w'
      exact Nat.mul_lt_mul_of_pos_right (by omega) (Nat.two_pow_pos _)
    have hord : WayOrderedSub { si with Loc := zs } :=
      ⟨⟨s5.1.range, by have := s5.1.memory; rw [s3, ← hzl] at this; exact this,
        fun d hd => by have := s5.1.starts d hd; rw [s3, ← hzl] at this; exact this, s5.1.sorted⟩, s5.2⟩
    have hstored : Stored zs shift d = .ok [] := by
      unfold Stored
      have : zs.drop (wStart shift d) = 0 :: List.replicate (zs.length - wStart shift d - 1) 0 := by
        rw [← hz, List.drop_replicate]
        rw [hzl] at hst
        rw [List.length_replicate]
        obtain ⟨k, hk⟩ : ∃ k, (locData shift (allWays blocks)).length - wStart shift d = k + 1 :=
          ⟨_, (Nat.sub_add_cancel (by omega)).symm⟩
        rw [hk]
        rfl
      rw [this]
      exact C05_delta_zero_decode (List.replicate (zs.length - wStart shift d - 1) 0) [] []
    obtain ⟨r, a, b, c, _⟩ := C38_present hord w.ID hint hh d (by show d ∈ si.Ids; rw [s2]; exact hd) hid [] (by
      show Stored zs si.AlignmentShift d = _
      rw [s4]; exact hstored)
    exact ⟨r, a, b, c⟩

/-- Sixty-two ways whose entries fill a page of 512 bytes; their locations fit in the next. -/
def sixtyTwo : List (Option T.PrimitiveBlock) := [some (exampleWayBlock ((List.range 62).map fun k => Int64.ofNat (k + 1)))]

example : WaysIndexable 3 (allWays sixtyTwo) ∧ 16 + 8 * (allWays sixtyTwo).length = 512 ∧
    waysBlocks 3 (allWays sixtyTwo) * 2 ^ (3 : Int64).toInt.toNat ≤ 512 ∧ (∀ w ∈ allWays sixtyTwo, indexedRefs w ≠ []) :=
  ⟨⟨by decide, by decide +kernel, by decide +kernel, by decide +kernel, by decide +kernel⟩, by decide +kernel, by decide +kernel,
    by decide +kernel⟩

end Ways
end Osm.Props
