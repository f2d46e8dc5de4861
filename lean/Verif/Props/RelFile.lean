import Verif.Spec.RelFile
import Verif.Props.RelIndex

/-!
# C92: the relation index can be read, in only one way
-/

namespace Osm.Props
open Osm Osm.T Osm.WayIndex Osm.RelIndex Osm.Spec

theorem words_unique {f : List UInt8} {xs : List Int64} (h : IsWords f xs) : ∀ {ys}, IsWords f ys → xs = ys := by
  induction h with
  | nil =>
    intro ys h
    generalize hn : ([] : List UInt8) = n at h
    cases h with
    | nil => rfl
    | cons h1 _ _ =>
      have := congrArg List.length hn
      rw [List.length_append, h1] at this
      simp at this
      omega
  | @cons w rest x xs h1 h2 _ ih =>
    intro ys h
    generalize hn : w ++ rest = n at h
    cases h with
    | nil =>
      have := congrArg List.length hn
      rw [List.length_append, h1] at this
      simp at this
    | @cons w' rest' y ys g1 g2 g3 =>
      obtain ⟨rfl, rfl⟩ := List.append_inj hn (by omega)
      rw [ih g3]
      congr 1
      apply Int64.toInt_inj.1
      have a1 := Int64.le_toInt x
      have a2 := Int64.toInt_lt x
      have b1 := Int64.le_toInt y
      have b2 := Int64.toInt_lt y
      omega

theorem le64_value (x : UInt64) : (le64 x).length = 8 ∧ leValue (le64 x) = x.toNat := by
  refine ⟨rfl, ?_⟩
  unfold le64
  simp only [leValue, UInt64.toNat_toUInt8, UInt64.toNat_shiftRight, Nat.shiftRight_eq_div_pow]
  have := x.toNat_lt
  simp
  omega

theorem toUInt64_value (x : Int64) : x.toUInt64.toNat = (x.toInt % 2 ^ 64).toNat := by
  have h1 := Int64.le_toInt x
  have h2 := Int64.toInt_lt x
  have h3 := x.toUInt64.toNat_lt
  have : x.toInt = (x.toUInt64.toNat : Int).bmod (2 ^ 64) := by
    rw [← Int64.toInt_toBitVec, BitVec.toInt_eq_toNat_bmod]; rfl
  rw [this, Int.bmod_def]
  split <;> omega

theorem written_words (xs : List Int64) : IsWords (Int64SliceAsByteSlice xs) xs := by
  induction xs with
  | nil => exact .nil
  | cons x xs ih =>
    exact .cons (le64_value _).1 (by rw [(le64_value _).2, toUInt64_value]) ih

theorem ofNat_inj {a b : Nat} (ha : a < 2 ^ 63) (hb : b < 2 ^ 63) (h : Int64.ofNat a = Int64.ofNat b) : a = b := by
  have := congrArg Int64.toInt h
  rw [Int64.toInt_ofNat_of_lt ha, Int64.toInt_ofNat_of_lt hb] at this
  omega

theorem ways_unique : ∀ (ws ws' : List (Int64 × List Int64)) (r r' : List Int64), ws.length = ws'.length →
    (∀ w ∈ ws, w.2.length < 2 ^ 63) → (∀ w ∈ ws', w.2.length < 2 ^ 63) →
    ws.flatMap wayRow ++ r = ws'.flatMap wayRow ++ r' → ws = ws' ∧ r = r' := by
  intro ws
  induction ws with
  | nil =>
    intro ws' r r' hl _ _ h
    obtain rfl : ws' = [] := List.length_eq_zero_iff.1 hl.symm
    exact ⟨rfl, h⟩
  | cons w ws ih =>
    intro ws' r r' hl h1 h2 h
    cases ws' with
    | nil => cases hl
    | cons w' ws' =>
      rw [List.flatMap_cons, List.flatMap_cons, List.append_assoc, List.append_assoc] at h
      unfold wayRow at h
      obtain ⟨e1, h⟩ := List.cons.inj h
      obtain ⟨e2, h⟩ := List.cons.inj h
      have e3 := ofNat_inj (h1 w List.mem_cons_self) (h2 w' List.mem_cons_self) e2
      obtain ⟨e4, h⟩ := List.append_inj h e3
      obtain ⟨rfl, rfl⟩ := ih ws' r r' (by simpa using hl) (fun x hx => h1 x (List.mem_cons_of_mem _ hx))
        (fun x hx => h2 x (List.mem_cons_of_mem _ hx)) h
      exact ⟨by rw [show w = w' from Prod.ext e1 e4], rfl⟩

/-- C92: a file is the index of at most one list of relations. -/
theorem C92_unique (file : List UInt8) (gs gs' : List RelGeo) (h : IsRelIndex file gs) (h' : IsRelIndex file gs') :
    gs = gs' := by
  obtain ⟨hw, hs⟩ := h
  obtain ⟨hw', hs'⟩ := h'
  have he := words_unique hw hw'
  clear hw hw'
  induction gs generalizing gs' with
  | nil =>
    cases gs' with
    | nil => rfl
    | cons g gs' => rw [List.flatMap_cons] at he; cases he
  | cons g gs ih =>
    cases gs' with
    | nil => rw [List.flatMap_cons] at he; cases he
    | cons g' gs' =>
      rw [List.flatMap_cons, List.flatMap_cons] at he
      unfold RelGeo.row at he
      obtain ⟨e1, he⟩ := List.cons.inj he
      obtain ⟨e2, he⟩ := List.cons.inj he
      obtain ⟨s1, s2⟩ := hs g List.mem_cons_self
      obtain ⟨t1, t2⟩ := hs' g' List.mem_cons_self
      obtain ⟨e3, he⟩ := ways_unique _ _ _ _ (ofNat_inj s1 t1 e2) s2 t2 he
      rw [ih gs' (fun x hx => hs x (List.mem_cons_of_mem _ hx)) (fun x hx => hs' x (List.mem_cons_of_mem _ hx)) he]
      rw [show g = g' by cases g; cases g'; cases e1; cases e3; rfl]

/-- What the index should say of a relation. -/
def geoOf (locs : Int64 → List Int64) (r : Relation) : RelGeo := ⟨r.ID, (wayMembers r).map fun w => (w, locs w)⟩

theorem row_geoOf (locs : Int64 → List Int64) (r : Relation) : (geoOf locs r).row = relationEntry locs r := by
  unfold geoOf RelGeo.row relationEntry
  rw [List.length_map, List.flatMap_map]
  rfl

theorem wayMembers_length (r : Relation) : (wayMembers r).length ≤ r.MemIDs.length := by
  unfold wayMembers
  rw [List.length_map]
  refine Nat.le_trans (List.length_filter_le _ _) ?_
  rw [List.length_zip]
  omega

/-- C92: relindex writes the index of the relations of the source, in order, each with its ways in member order, each of these
with the locations of the way index (as far as the passes cover it, C44). -/
theorem C92_written {ix : WayIdx} (hw : WayOrdered ix.Ids ix.Loc ix.AlignmentShift) {stored : Int64 → List Int64}
    (ha : Answers ix stored) (locs : Int64 → List Int64) (n : Nat) (hn : 1 ≤ n) (hn63 : n < 2 ^ 63)
    (hfound : ∀ w, FoundInPass ix n w → locs w = stored w) (hmissing : ∀ w, ¬ FoundInPass ix n w → locs w = [])
    (hpass : ∀ p < n, ∃ si, ix.SubIndexWithScaledPass (Int64.ofNat p) (Int64.ofNat n) = .ok si)
    {blocks : List (Option PrimitiveBlock)} (hr : RelationsOk locs (allRelations blocks)) (hne : allRelations blocks ≠ [])
    (out wayIndex : String) (hwi : wayIndex ≠ out ∧ ∀ p < n, wayIndex ≠ makePassFilename out p n)
    (fs : FS) {file : List UInt8} (hf : Holds fs wayIndex file) (hload : NewWayIndex file = .ok ix) :
    ∃ sent fs' file', mapRes work blocks = .ok sent ∧ (relindex out wayIndex n sent).exec fs = .ok ((), fs') ∧
      Holds fs' out file' ∧ IsRelIndex file' ((allRelations blocks).map fun r =>
        ⟨r.ID, (wayMembers r).map fun w => (w, locs w)⟩) ∧
      file'.length = 8 * ((allRelations blocks).map fun r =>
        2 + ((wayMembers r).map fun w => 2 + (locs w).length).sum).sum := by
  obtain ⟨sent, fs', h1, h2, h3⟩ := C44_exact hw ha locs n hn hn63 hfound hmissing hpass hr hne out wayIndex hwi fs hf hload
  have heq : ((allRelations blocks).map (geoOf locs)).flatMap RelGeo.row = (allRelations blocks).flatMap (relationEntry locs) := by
    rw [List.flatMap_map]
    congr 1
    funext r
    exact row_geoOf locs r
  refine ⟨sent, fs', _, h1, h2, h3, ⟨?_, ?_⟩, ?_⟩
  · have := written_words ((allRelations blocks).flatMap (relationEntry locs))
    rw [← heq] at this ⊢
    exact this
  · intro g hg
    obtain ⟨r, hr', rfl⟩ := List.mem_map.1 hg
    refine ⟨?_, ?_⟩
    · have h1 := hr.memory r hr'
      have h2 := wayMembers_length r
      show ((wayMembers r).map _).length < _
      rw [List.length_map]
      omega
    · intro w hw'
      obtain ⟨w', _, rfl⟩ := List.mem_map.1 hw'
      have := hr.sizes w'
      show (locs w').length < _
      omega
  · have : ∀ rs : List Relation, (Int64SliceAsByteSlice (rs.flatMap (relationEntry locs))).length = 8 * (rs.map fun r =>
        2 + ((wayMembers r).map fun w => 2 + (locs w).length).sum).sum := by
      intro rs
      unfold Int64SliceAsByteSlice
      rw [bytesOf_length, List.length_map, List.length_flatMap]
      congr 2
      apply List.map_congr_left
      intro r _
      unfold relationEntry
      rw [List.length_cons, List.length_cons, List.length_flatMap]
      rw [Nat.add_assoc, Nat.add_comm _ 2]
      congr 2
      apply List.map_congr_left
      intro w _
      simp only [List.length_cons]
      omega
    exact this _

/-- C92: so what a reader of the format finds in the file is just that. -/
theorem C92_read {ix : WayIdx} (hw : WayOrdered ix.Ids ix.Loc ix.AlignmentShift) {locs : Int64 → List Int64}
    (ha : Answers ix locs) (n : Nat) (hn : 1 ≤ n) (hn63 : n < 2 ^ 63) (hcover : WayPassesCover ix n)
    {blocks : List (Option PrimitiveBlock)} (hr : RelationsOk locs (allRelations blocks)) (hne : allRelations blocks ≠ [])
    (out wayIndex : String) (hwi : wayIndex ≠ out ∧ ∀ p < n, wayIndex ≠ makePassFilename out p n)
    (fs : FS) {file : List UInt8} (hf : Holds fs wayIndex file) (hload : NewWayIndex file = .ok ix) :
    ∃ sent fs', mapRes work blocks = .ok sent ∧ (relindex out wayIndex n sent).exec fs = .ok ((), fs') ∧
      ∀ file' gs, Holds fs' out file' → IsRelIndex file' gs →
        gs = (allRelations blocks).map fun r => ⟨r.ID, (wayMembers r).map fun w => (w, locs w)⟩ := by
  obtain ⟨hsub, hall⟩ := cover_known hcover
  obtain ⟨sent, fs', file', h1, h2, ⟨p, h3⟩, h4, -⟩ := C92_written hw ha locs n hn hn63 (fun _ _ => rfl)
    (fun w hw' => ha.absent w (hall w (by
      cases hk : known ix n n w with
      | false => rfl
      | true =>
        obtain ⟨p, hp, si, hs, hh⟩ := known_sub hk
        obtain ⟨d, hd, he⟩ := List.any_eq_true.1 hh
        exact absurd ⟨p, hp, si, hs, d, hd, of_decide_eq_true he⟩ hw'))) hsub hr hne out wayIndex hwi fs hf hload
  refine ⟨sent, fs', h1, h2, fun f gs ⟨q, hq⟩ hg => ?_⟩
  rw [h3] at hq
  cases hq
  exact C92_unique _ _ _ hg h4

/-- The index of `C44_false`, one pass, read. -/
example (f : List UInt8) (hf : f = Int64SliceAsByteSlice [7, 3, 1, 1, 1, 5, 1, 5, 9, 0]) (gs : List RelGeo) :
    IsRelIndex f gs ↔ gs = [⟨7, [(1, [1]), (5, [5]), (9, [])]⟩] := by
  have h : IsRelIndex f [⟨7, [(1, [1]), (5, [5]), (9, [])]⟩] := by
    refine ⟨?_, by decide⟩
    rw [hf]
    exact written_words _
  exact ⟨fun h' => C92_unique f _ _ h' h, fun e => e ▸ h⟩

end Osm.Props
