import Verif.Lemmas.RelPass
import Verif.Lemmas.Iunsafe
import Verif.Props.RelFile

/-!
# C94: a pass of relindex reads the file of the pass before it in the only way it can be read, or not at all
-/

namespace Osm.Props
open Osm Osm.T Osm.WayIndex Osm.RelIndex Osm.Spec

theorem words_split : ∀ (n : Nat) (file : List UInt8), file.length ≤ n → ∃ body tail, file = body ++ tail ∧
    tail.length < 8 ∧ IsWords body (ByteSliceAsInt64Slice file) := by
  intro n
  induction n using Nat.strongRecOn with
  | _ n ih =>
    intro file hn
    match file with
    | b0 :: b1 :: b2 :: b3 :: b4 :: b5 :: b6 :: b7 :: rest =>
      simp only [List.length_cons] at hn
      obtain ⟨body, tail, h1, h2, h3⟩ := ih (n - 8) (by omega) rest (by omega)
      refine ⟨[b0, b1, b2, b3, b4, b5, b6, b7] ++ body, tail, by rw [List.append_assoc, ← h1]; rfl, h2, ?_⟩
      refine IsWords.cons rfl ?_ h3
      rw [← toUInt64_value]
      have hl := (le64_value (leWord b0 b1 b2 b3 b4 b5 b6 b7)).2
      rw [Iunsafe.le64_leWord] at hl
      rw [hl]
      rfl
    | [] => exact ⟨[], [], rfl, by simp, .nil⟩
    | [a] => exact ⟨[], [a], rfl, by simp, .nil⟩
    | [a, b] => exact ⟨[], [a, b], rfl, by simp, .nil⟩
    | [a, b, c] => exact ⟨[], [a, b, c], rfl, by simp, .nil⟩
    | [a, b, c, d] => exact ⟨[], [a, b, c, d], rfl, by simp, .nil⟩
    | [a, b, c, d, e] => exact ⟨[], [a, b, c, d, e], rfl, by simp, .nil⟩
    | [a, b, c, d, e, f] => exact ⟨[], [a, b, c, d, e, f], rfl, by simp, .nil⟩
    | [a, b, c, d, e, f, g] => exact ⟨[], [a, b, c, d, e, f, g], rfl, by simp, .nil⟩

theorem isWords_length {f : List UInt8} {xs : List Int64} (h : IsWords f xs) : f.length = 8 * xs.length := by
  induction h with
  | nil => rfl
  | cons h1 _ _ ih => rw [List.length_append, List.length_cons]; omega

/-- The file is read as words in one way. -/
theorem words_of {file body tail : List UInt8} {words : List Int64} (h : file = body ++ tail) (ht : tail.length < 8)
    (hw : IsWords body words) : words = ByteSliceAsInt64Slice file := by
  obtain ⟨body', tail', h', ht', hw'⟩ := words_split _ file (Nat.le_refl _)
  have l1 := isWords_length hw
  have l2 := isWords_length hw'
  have e : body ++ tail = body' ++ tail' := h.symm.trans h'
  have l3 := congrArg List.length e
  rw [List.length_append, List.length_append] at l3
  obtain ⟨rfl, rfl⟩ := List.append_inj e (by omega)
  exact words_unique hw hw'

theorem passFile_iff {file : List UInt8} {rels : List PassRel} :
    PassFile file rels ↔ ReadsAs (ByteSliceAsInt64Slice file) rels := by
  constructor
  · rintro ⟨body, tail, words, h1, h2, h3, h4⟩
    rw [← words_of h1 h2 h3]
    exact h4
  · intro h
    obtain ⟨body, tail, h1, h2, h3⟩ := words_split _ file (Nat.le_refl _)
    exact ⟨body, tail, _, h1, h2, h3, h⟩

/-- A file can be read as the file of a pass in at most one way. -/
theorem C94_unique (file : List UInt8) (rels rels' : List PassRel) (h : PassFile file rels)
    (h' : PassFile file rels') : rels = rels' :=
  reads_unique (passFile_iff.1 h) (passFile_iff.1 h')

/-- The pass from its start to the loop. -/
theorem rewrite_start {swi : SubIdx} {ix : WayIdx} {pass count : Int64}
    (hs : ix.SubIndexWithScaledPass pass count = .ok swi) {out inp : String} (hne : inp ≠ out) {fs : FS}
    {file : List UInt8} (hf : Holds fs inp file) :
    (rewrite out inp ix pass count).exec fs = if file = [] then .panic else
      (rewriteLoop swi (!(decide (pass + 1 < count))) out ((ByteSliceAsInt64Slice file).length + 1) []
        (ByteSliceAsInt64Slice file)).exec ((FsOp.create out).run fs) := by
  obtain ⟨pos, hin⟩ := hf
  unfold rewrite
  rw [hs, Prog.exec_bind, Prog.exec_lift, Res.ok_bind, Res.ok_bind, Prog.exec_bind,
    exec_OsOpen_some (show (swi, fs).2 inp = _ from hin), Res.ok_bind, Prog.exec_bind]
  unfold OsCreate
  rw [Prog.exec_emit, Res.ok_bind, Prog.exec_bind, exec_MMapMap]
  have : (FsOp.create out).run fs inp = some ⟨file, pos⟩ := by
    rw [← hin]
    exact set_other _ _ hne
  dsimp only
  rw [this]
  dsimp only
  split
  · rfl
  · rfl

/-- Whatever the file holds, a pass succeeds exactly if the file is not empty, is made of whole relations, and no
lookup of a way it still has to find panics. -/
theorem C94_succeeds_iff {swi : SubIdx} {ix : WayIdx} {pass count : Int64}
    (hs : ix.SubIndexWithScaledPass pass count = .ok swi) {out inp : String} (hne : inp ≠ out) (fs : FS)
    {file : List UInt8} (hf : Holds fs inp file) :
    (∃ fs', (rewrite out inp ix pass count).exec fs = .ok ((), fs')) ↔
      file ≠ [] ∧ ∃ rels, PassFile file rels ∧ ∀ r ∈ rels, ∀ w, PassWay.pending w ∈ r.ways →
        ∃ a, swi.FindLocations (-w) 0 = .ok a := by
  rw [rewrite_start hs hne hf]
  constructor
  · rintro ⟨fs', h⟩
    split at h
    · cases h
    · rename_i hne'
      obtain ⟨rels, h1, h2, -, -⟩ := rewriteLoop_inv _ _ _ _ _ [] (set_same _ _ _) h
      exact ⟨hne', rels, passFile_iff.2 h1, fun r hr w hw => h2 r hr _ hw⟩
  · rintro ⟨hne', rels, h1, h2⟩
    rw [if_neg hne']
    obtain ⟨e, hv⟩ := passFile_iff.1 h1
    rw [e]
    refine rewriteLoop_run rels hv (fun r hr w hw => ?_) _ _ _ (by have := passRels_length rels; omega)
    cases w with
    | pending w => exact h2 r hr w hw
    | done _ _ => trivial

theorem settle_congr {swi : SubIdx} {look : Int64 → Option (List Int64)} {rels : List PassRel} {last : Bool}
    (hrun : ∀ r ∈ rels, RelRuns swi r)
    (hl : ∀ r ∈ rels, ∀ w, PassWay.pending w ∈ r.ways → ∀ a, swi.FindLocations (-w) 0 = .ok a →
      look (-w) = if a.ok then some a.locs else none) :
    rels.map (PassRel.settle (answer swi) last) = rels.map (PassRel.settle look last) := by
  apply List.map_congr_left
  intro r hr
  unfold PassRel.settle
  congr 1
  apply List.map_congr_left
  intro w hw
  cases w with
  | done _ _ => rfl
  | pending w =>
    obtain ⟨a, ha⟩ := hrun r hr _ hw
    have h1 : answer swi (-w) = if a.ok then some a.locs else none := by unfold answer; rw [ha]
    unfold PassWay.settle
    dsimp only
    rw [h1, hl r hr w hw a ha]

/-- What a pass that succeeds writes: every relation it read, in order, each way it found with its locations, a way
done before unchanged, a way not found unchanged (in the last pass: without locations). No other file changes. -/
theorem C94_writes {swi : SubIdx} {ix : WayIdx} {pass count : Int64}
    (hs : ix.SubIndexWithScaledPass pass count = .ok swi) {out inp : String} (hne : inp ≠ out) {fs fs' : FS}
    {file : List UInt8} (hf : Holds fs inp file) (h : (rewrite out inp ix pass count).exec fs = .ok ((), fs'))
    {rels : List PassRel} (hrels : PassFile file rels) {look : Int64 → Option (List Int64)}
    (hl : ∀ r ∈ rels, ∀ w, PassWay.pending w ∈ r.ways → ∀ a, swi.FindLocations (-w) 0 = .ok a →
      look (-w) = if a.ok then some a.locs else none) :
    (∃ file', Holds fs' out file' ∧
      IsWords file' ((rels.map (PassRel.settle look (!decide (pass + 1 < count)))).flatMap PassRel.words)) ∧
    ∀ g, g ≠ out → fs' g = fs g := by
  rw [rewrite_start hs hne hf] at h
  split at h
  · cases h
  · obtain ⟨rels', h1, h2, h3, h4⟩ := rewriteLoop_inv _ _ _ _ _ [] (set_same _ _ _) h
    obtain rfl := reads_unique h1 (passFile_iff.1 hrels)
    rw [List.nil_append, List.nil_append, settle_congr h2 hl] at h3
    exact ⟨⟨_, h3, written_words _⟩, fun g hg => (h4 g hg).trans (set_other _ _ hg)⟩

/-- A file that ends in the middle of a relation makes the pass fail. -/
theorem C94_cut {swi : SubIdx} {ix : WayIdx} {pass count : Int64}
    (hs : ix.SubIndexWithScaledPass pass count = .ok swi) {out inp : String} (hne : inp ≠ out) (fs : FS)
    {file body tail : List UInt8} (hf : Holds fs inp file) (hb : file = body ++ tail) (ht : tail.length < 8)
    {rels : List PassRel} (hv : ∀ r ∈ rels, r.Valid) {r : PassRel} (hr : r.Valid) {p q : List Int64} (hp : p ≠ [])
    (hq : q ≠ []) (e : r.words = p ++ q) (hw : IsWords body (rels.flatMap PassRel.words ++ p)) :
    ∀ fs', (rewrite out inp ix pass count).exec fs ≠ .ok ((), fs') := by
  intro fs' h
  obtain ⟨-, rels', h1, -⟩ := (C94_succeeds_iff hs hne fs hf).1 ⟨fs', h⟩
  obtain ⟨h1, hv'⟩ := passFile_iff.1 h1
  rw [← words_of hb ht hw] at h1
  exact reads_cut hv hv' hr hp hq e h1

theorem settle_valid {look : Int64 → Option (List Int64)} (hlook : ∀ id ls, look id = some ls → ls.length < 2 ^ 63)
    {w : PassWay} (hv : w.Valid) (hmin : ∀ x, w = .pending x → x.toInt ≠ -2 ^ 63) (last : Bool) :
    (w.settle look last).Valid := by
  cases w with
  | done _ _ => exact hv
  | pending x =>
    have hx : x < 0 := hv
    have hneg : 0 ≤ -x := by
      have h1 := hmin x rfl
      have h2 := Int64.le_toInt x
      have h3 := Int64.toInt_lt x
      rw [Int64.lt_iff_toInt_lt, show (0 : Int64).toInt = 0 from rfl] at hx
      rw [Int64.le_iff_toInt_le, show (0 : Int64).toInt = 0 from rfl, Int64.toInt_neg, Int.bmod_def]
      split <;> omega
    unfold PassWay.settle
    dsimp only
    cases h : look (-x) with
    | some ls => exact ⟨hneg, hlook _ _ h⟩
    | none =>
      dsimp only
      cases last
      · exact hv
      · exact ⟨hneg, by simp⟩

theorem settled_valid {look : Int64 → Option (List Int64)} (hlook : ∀ id ls, look id = some ls → ls.length < 2 ^ 63)
    {r : PassRel} (hv : r.Valid) (hmin : ∀ x, PassWay.pending x ∈ r.ways → x.toInt ≠ -2 ^ 63) (last : Bool) :
    (r.settle look last).Valid := by
  refine ⟨?_, fun w hw => ?_⟩
  · unfold PassRel.settle
    rw [List.length_map]
    exact hv.1
  · obtain ⟨w', h1, rfl⟩ := List.mem_map.1 hw
    exact settle_valid hlook (hv.2 w' h1) (fun x hx => hmin x (hx ▸ h1)) last

/-- What a pass writes, the next one reads back as just these relations: whatever that pass reads in it is what this
one wrote. -/
theorem C94_next {swi : SubIdx} {ix : WayIdx} {pass count : Int64}
    (hs : ix.SubIndexWithScaledPass pass count = .ok swi) {out inp : String} (hne : inp ≠ out) {fs fs' : FS}
    {file : List UInt8} (hf : Holds fs inp file) (h : (rewrite out inp ix pass count).exec fs = .ok ((), fs'))
    {rels : List PassRel} (hrels : PassFile file rels) {look : Int64 → Option (List Int64)}
    (hl : ∀ r ∈ rels, ∀ w, PassWay.pending w ∈ r.ways → ∀ a, swi.FindLocations (-w) 0 = .ok a →
      look (-w) = if a.ok then some a.locs else none)
    (hlook : ∀ id ls, look id = some ls → ls.length < 2 ^ 63)
    (hmin : ∀ r ∈ rels, ∀ x, PassWay.pending x ∈ r.ways → x.toInt ≠ -2 ^ 63) {file' : List UInt8}
    (hout : Holds fs' out file') {rels' : List PassRel} :
    PassFile file' rels' ↔ rels' = rels.map (PassRel.settle look (!decide (pass + 1 < count))) := by
  obtain ⟨⟨f, ⟨p1, h1⟩, h2⟩, -⟩ := C94_writes hs hne hf h hrels hl
  obtain ⟨p2, hout⟩ := hout
  rw [h1] at hout
  obtain ⟨rfl, -⟩ := File.mk.inj (Option.some.inj hout)
  have key : PassFile f (rels.map (PassRel.settle look (!decide (pass + 1 < count)))) := by
    refine ⟨f, [], _, (List.append_nil _).symm, by simp, h2, rfl, fun r hr => ?_⟩
    obtain ⟨r', h3, rfl⟩ := List.mem_map.1 hr
    exact settled_valid hlook ((passFile_iff.1 hrels).2 r' h3) (hmin r' h3) _
  exact ⟨fun h => C94_unique _ _ _ h key, fun h => h ▸ key⟩

theorem geo_row {look : Int64 → Option (List Int64)} {r : PassRel} (hv : r.Valid) (hc : 0 ≤ r.count.toInt) :
    (r.settle look true).geo.row = (r.settle look true).words := by
  have hlen : Int64.ofNat r.ways.length = r.count := by
    have h1 := hv.1
    have h2 := Int64.toInt_lt r.count
    apply Int64.toInt_inj.1
    rw [Int64.toInt_ofNat_of_lt (by omega)]
    omega
  unfold RelGeo.row PassRel.words PassRel.geo PassRel.settle
  dsimp only
  rw [List.length_map, List.length_map, hlen, List.flatMap_map, List.flatMap_map, List.flatMap_map]
  congr 3
  funext w
  cases w with
  | done w ls => rfl
  | pending w =>
    dsimp only [PassWay.settle]
    cases look (-w) <;> rfl

/-- The last pass writes a relation index, as the program that reads it expects it (C92), of the relations it read,
if these announce no negative number of ways. -/
theorem C94_last {swi : SubIdx} {ix : WayIdx} {pass count : Int64}
    (hs : ix.SubIndexWithScaledPass pass count = .ok swi) (hlast : ¬ pass + 1 < count) {out inp : String}
    (hne : inp ≠ out) {fs fs' : FS} {file : List UInt8} (hf : Holds fs inp file)
    (h : (rewrite out inp ix pass count).exec fs = .ok ((), fs')) {rels : List PassRel} (hrels : PassFile file rels)
    {look : Int64 → Option (List Int64)}
    (hl : ∀ r ∈ rels, ∀ w, PassWay.pending w ∈ r.ways → ∀ a, swi.FindLocations (-w) 0 = .ok a →
      look (-w) = if a.ok then some a.locs else none)
    (hlook : ∀ id ls, look id = some ls → ls.length < 2 ^ 63) (hc : ∀ r ∈ rels, 0 ≤ r.count.toInt) :
    ∃ file', Holds fs' out file' ∧ IsRelIndex file' (rels.map fun r => (r.settle look true).geo) := by
  obtain ⟨⟨f, h1, h2⟩, -⟩ := C94_writes hs hne hf h hrels hl
  rw [decide_eq_false hlast] at h2
  have hval := (passFile_iff.1 hrels).2
  refine ⟨f, h1, ?_, ?_⟩
  · rw [List.flatMap_map] at h2 ⊢
    have : rels.flatMap (fun r => (r.settle look true).geo.row) =
        rels.flatMap (fun r => (r.settle look (!false)).words) := by
      rw [List.flatMap_def, List.flatMap_def]
      congr 1
      exact List.map_congr_left fun r hr => geo_row (hval r hr) (hc r hr)
    rw [this]
    exact h2
  · intro g hg
    obtain ⟨r, hr, rfl⟩ := List.mem_map.1 hg
    refine ⟨?_, fun w hw => ?_⟩
    · unfold PassRel.geo PassRel.settle
      dsimp only
      rw [List.length_map, List.length_map, (hval r hr).1]
      have := Int64.toInt_lt r.count
      omega
    · obtain ⟨w1, h3, rfl⟩ := List.mem_map.1 hw
      obtain ⟨w2, h4, rfl⟩ := List.mem_map.1 h3
      cases w2 with
      | done x ls => exact ((hval r hr).2 _ h4).2
      | pending x =>
        dsimp only [PassWay.settle]
        cases hk : look (-x) with
        | some ls => exact hlook _ _ hk
        | none => simp

/-! ## Examples -/

def midRels : List PassRel := [⟨7, 3, [.pending (-1), .done 5 [40, 41], .pending (-9)]⟩, ⟨8, -2, []⟩]

theorem mid_valid : ∀ r ∈ midRels, r.Valid := by
  intro r hr
  rcases List.mem_cons.1 hr with rfl | hr
  · refine ⟨by decide, fun w hw => ?_⟩
    rcases List.mem_cons.1 hw with rfl | hw
    · exact (by decide : (-1 : Int64) < 0)
    · rcases List.mem_cons.1 hw with rfl | hw
      · exact ⟨by decide, by decide⟩
      · obtain rfl := List.mem_singleton.1 hw
        exact (by decide : (-9 : Int64) < 0)
  · obtain rfl := List.mem_singleton.1 hr
    exact ⟨by decide, by simp⟩

theorem mid_file (tail : List UInt8) (ht : tail.length < 8) :
    PassFile (Int64SliceAsByteSlice [7, 3, -1, 5, 2, 40, 41, -9, 8, -2] ++ tail) midRels :=
  ⟨_, tail, _, rfl, ht, written_words _, (by decide), mid_valid⟩

/-- A pass over the way index of `C44_false`: a way is found, one was found before, one is not in the index, a
relation announces a negative number of ways, and three bytes of the file are left over. -/
example (fs : FS) (hf : Holds fs "in" (Int64SliceAsByteSlice [7, 3, -1, 5, 2, 40, 41, -9, 8, -2] ++ [1, 2, 3])) :
    ∃ fs' file', (rewrite "out" "in" fiveWays 0 1).exec fs = .ok ((), fs') ∧ Holds fs' "out" file' ∧
      IsWords file' [7, 3, 1, 1, 1, 5, 2, 40, 41, 9, 0, 8, -2] := by
  obtain ⟨swi, hs⟩ : ∃ swi, fiveWays.SubIndexWithScaledPass 0 1 = .ok swi := by
    have : (match fiveWays.SubIndexWithScaledPass 0 1 with | .ok _ => true | _ => false) = true := by decide +kernel
    revert this
    cases fiveWays.SubIndexWithScaledPass 0 1 with
    | ok s => exact fun _ => ⟨s, rfl⟩
    | panic => exact fun h => nomatch h
    | hang => exact fun h => nomatch h
  have h1 : (fiveWays.SubIndexWithScaledPass 0 1 >>= fun s => s.FindLocations 1 0 >>= fun a => .ok (a.ok, a.locs)) =
      .ok (true, [1]) := by decide +kernel
  have h9 : (fiveWays.SubIndexWithScaledPass 0 1 >>= fun s => s.FindLocations 9 0 >>= fun a => .ok (a.ok, a.locs)) =
      .ok (false, []) := by decide +kernel
  rw [hs, Res.ok_bind] at h1 h9
  obtain ⟨a1, f1, e1⟩ := (Res.bind_eq_ok ..).1 h1
  obtain ⟨a9, f9, e9⟩ := (Res.bind_eq_ok ..).1 h9
  have e1 := Prod.mk.inj (Res.ok.inj e1)
  have e9 := Prod.mk.inj (Res.ok.inj e9)
  have hp : ∀ r ∈ midRels, ∀ w, PassWay.pending w ∈ r.ways → w = -1 ∨ w = -9 := by
    intro r hr w hw
    simp [midRels] at hr
    rcases hr with rfl | rfl <;> simp at hw
    exact hw
  have hpf := mid_file [1, 2, 3] (by decide)
  obtain ⟨fs', h⟩ := (C94_succeeds_iff hs (out := "out") (by decide) fs hf).2 ⟨by decide, midRels, hpf, by
    intro r hr w hw
    rcases hp r hr w hw with rfl | rfl
    · exact ⟨a1, f1⟩
    · exact ⟨a9, f9⟩⟩
  obtain ⟨⟨file', h2, h3⟩, -⟩ := C94_writes hs (out := "out") (by decide) hf h hpf
    (look := fun id => if id = 1 then some [1] else none) (by
      intro r hr w hw a ha
      rcases hp r hr w hw with rfl | rfl
      · obtain rfl := Res.ok.inj (f1.symm.trans ha)
        rw [e1.1, e1.2]
        rfl
      · obtain rfl := Res.ok.inj (f9.symm.trans ha)
        rw [e9.1]
        rfl)
  exact ⟨fs', file', h, h2, h3⟩

/-- The same file without its last three words and a half: a relation with a way missing. -/
example (fs fs' : FS) (hf : Holds fs "in" (Int64SliceAsByteSlice [7, 3, -1, 5, 2, 40, 41] ++ [0xf7, 0xff])) :
    (rewrite "out" "in" fiveWays 0 1).exec fs ≠ .ok ((), fs') := by
  cases hs : fiveWays.SubIndexWithScaledPass 0 1 with
  | ok swi =>
    exact C94_cut hs (by decide) fs hf rfl (by decide) (rels := []) (by simp) (mid_valid _ (List.mem_cons_self ..))
      (p := [7, 3, -1, 5, 2, 40, 41]) (q := [-9]) (by simp) (by simp) (by decide) (written_words _) fs'
  | panic => exact absurd hs (by decide +kernel)
  | hang => exact absurd hs (by decide +kernel)

/-- The condition of `C94_next` on ids: a way whose negated id is its id again is done without being so. -/
example : ¬ ((PassWay.pending (-9223372036854775808)).settle (fun _ => none) true).Valid :=
  fun h => absurd h.1 (by decide)

/-- The condition of `C94_last` on numbers of ways: with a negative one the relation is not in the format. -/
example : ¬ ∃ gs, IsRelIndex (Int64SliceAsByteSlice [8, -2]) gs := by
  rintro ⟨gs, h, hb⟩
  have := words_unique h (written_words _)
  cases gs with
  | nil => cases this
  | cons g gs =>
    have h2 := (List.cons.inj (List.cons.inj this).2).1
    have h3 := (hb g (by simp)).1
    have h4 := congrArg Int64.toInt h2
    rw [Int64.toInt_ofNat_of_lt h3] at h4
    have : (-2 : Int64).toInt = -2 := by decide
    omega

end Osm.Props
