import Verif.Spec.RelIndex
import Verif.Lemmas.WayIndex
import Verif.Lemmas.TwoFile
import Verif.Lemmas.NodeOutput

/-! # The relation index -/

namespace Osm

theorem exec_MMapMap (f : String) (fs : FS) : (MMapMap f).exec fs = match fs f with
    | none => .panic
    | some x => if x.data = [] then .panic else .ok (x.data, fs) := by
  unfold Prog.exec MMapMap
  cases fs f with
  | none => rfl
  | some x =>
    dsimp only
    by_cases h : x.data = []
    · rw [if_pos h, if_pos h]
    · rw [if_neg h, if_neg h]; rfl

theorem int64SliceAsByteSlice_append (a b : List Int64) :
    Int64SliceAsByteSlice (a ++ b) = Int64SliceAsByteSlice a ++ Int64SliceAsByteSlice b := by
  unfold Int64SliceAsByteSlice
  rw [List.map_append, bytesOf_append]

theorem byteSlice_int64Slice (xs : List Int64) : ByteSliceAsInt64Slice (Int64SliceAsByteSlice xs) = xs := by
  unfold ByteSliceAsInt64Slice Int64SliceAsByteSlice
  have := wordsOf_bytesOf (xs.map (·.toUInt64)) [] (by decide)
  rw [List.append_nil] at this
  rw [this, List.map_map]
  induction xs with
  | nil => rfl
  | cons x xs ih =>
    rw [List.map_cons]
    congr 1
    · exact ih (by
        have := wordsOf_bytesOf (xs.map (·.toUInt64)) [] (by decide)
        rwa [List.append_nil] at this)

namespace RelIndex
open Osm Osm.T Osm.WayIndex Osm.Spec

/-! ## The first pass -/

theorem listWays_eq (types : List UInt64) (ids : List Int64) (k : Nat) (h : k + ids.length ≤ types.length) :
    listWays types k ids =
      .ok ((((ids.zip (types.drop k)).filter fun m => m.2 == 1).map (·.1)).map fun w => -w) := by
  induction ids generalizing k with
  | nil => simp [listWays]
  | cons id ids ih =>
    rw [List.length_cons] at h
    have hk : k < types.length := by omega
    unfold listWays
    rw [List.getElem?_eq_getElem hk, Res.ofOption_some, Res.ok_bind, ih (k + 1) (by omega), Res.ok_bind,
      List.drop_eq_getElem_cons hk, List.zip_cons_cons]
    congr 1
    by_cases ht : types[k] = RelationMemberTypeWay
    · rw [if_neg (by rw [ht]; simp), List.filter_cons_of_pos (by rw [ht]; rfl)]
      rfl
    · rw [if_pos ht, List.filter_cons_of_neg]
      intro h1
      exact ht (by simpa [RelationMemberTypeWay] using h1)

theorem listWays_short (types : List UInt64) (ids : List Int64) (k : Nat) (h : types.length < k + ids.length)
    (hk : k ≤ types.length) : listWays types k ids = .panic := by
  induction ids generalizing k with
  | nil => simp at h; omega
  | cons id ids ih =>
    rw [List.length_cons] at h
    unfold listWays
    by_cases hlt : k < types.length
    · rw [List.getElem?_eq_getElem hlt, Res.ofOption_some, Res.ok_bind, ih (k + 1) (by omega) (by omega)]
      rfl
    · rw [List.getElem?_eq_none (by omega)]
      rfl

theorem countWays_eq (types : List UInt64) : countWays types = Int64.ofNat (types.filter (· == 1)).length := by
  induction types with
  | nil => rfl
  | cons t ts ih =>
    unfold countWays
    by_cases ht : t = RelationMemberTypeWay
    · rw [if_pos ht, List.filter_cons_of_pos (by rw [ht]; rfl), List.length_cons, Int64.ofNat_add, ih]
      rfl
    · rw [if_neg ht, List.filter_cons_of_neg, ih]
      intro h1
      exact ht (by simpa [RelationMemberTypeWay] using h1)

theorem zip_filter_length (ids : List Int64) (types : List UInt64) (h : ids.length = types.length) :
    ((ids.zip types).filter fun m => m.2 == 1).length = (types.filter (· == 1)).length := by
  induction ids generalizing types with
  | nil => cases types with
    | nil => rfl
    | cons => simp at h
  | cons i ids ih => cases types with
    | nil => simp at h
    | cons t ts =>
      simp only [List.zip_cons_cons, List.filter_cons]
      have := ih ts (by simpa using h)
      split <;> simp [this]

theorem relationWords_eq (r : Relation) (h : r.MemIDs.length = r.MemberType.length) :
    relationWords r = .ok (unresolvedEntry r) := by
  unfold relationWords
  rw [listWays_eq _ _ 0 (by omega), Res.ok_bind, List.drop_zero, countWays_eq, ← zip_filter_length _ _ h]
  unfold unresolvedEntry wayMembers
  rw [List.length_map]

theorem initBlock_eq (pb : PrimitiveBlock)
    (h : ∀ r ∈ pb.PrimitiveGroup.flatMap (·.Relations), r.MemIDs.length = r.MemberType.length) :
    initBlock pb = .ok ((pb.PrimitiveGroup.flatMap (·.Relations)).flatMap unresolvedEntry) := by
  have h1 : ∀ rs : List Relation, (∀ r ∈ rs, r.MemIDs.length = r.MemberType.length) →
      mapRes relationWords rs = .ok (rs.map unresolvedEntry) := by
    intro rs
    induction rs with
    | nil => intro _; rfl
    | cons r rs ih =>
      intro h
      unfold mapRes
      rw [relationWords_eq r (h r (by simp)), Res.ok_bind, ih (fun r hr => h r (by simp [hr]))]
      rfl
  have h2 : ∀ gs : List T.PrimitiveGroup, (∀ r ∈ gs.flatMap (·.Relations), r.MemIDs.length = r.MemberType.length) →
      mapRes (fun pg : T.PrimitiveGroup => mapRes relationWords pg.Relations) gs =
        .ok (gs.map fun pg => pg.Relations.map unresolvedEntry) := by
    intro gs
    induction gs with
    | nil => intro _; rfl
    | cons g gs ih =>
      intro h
      rw [List.flatMap_cons] at h
      unfold mapRes
      rw [h1 g.Relations (fun r hr => h r (List.mem_append_left _ hr)), Res.ok_bind,
        ih (fun r hr => h r (List.mem_append_right _ hr))]
      rfl
  unfold initBlock
  rw [h2 _ h, Res.ok_bind]
  congr 1
  clear h
  induction pb.PrimitiveGroup with
  | nil => rfl
  | cons g gs ih =>
    rw [List.map_cons, List.map_cons, List.flatten_cons, ih, List.flatMap_cons, List.flatMap_append]
    rfl

/-- What `work` sends for each block. -/
def sent : Option PrimitiveBlock → Option (List Int64)
  | none => none
  | some pb => some ((pb.PrimitiveGroup.flatMap (·.Relations)).flatMap unresolvedEntry)

theorem work_eq (blocks : List (Option PrimitiveBlock))
    (h : ∀ r ∈ allRelations blocks, r.MemIDs.length = r.MemberType.length) :
    mapRes work blocks = .ok (blocks.map sent) := by
  induction blocks with
  | nil => rfl
  | cons b bs ih =>
    have hb : allRelations (b :: bs) = allRelations [b] ++ allRelations bs := by
      unfold allRelations
      rw [List.flatMap_cons, List.flatMap_cons, List.flatMap_nil, List.append_nil]
    rw [hb] at h
    unfold mapRes
    rw [ih (fun r hr => h r (List.mem_append_right _ hr))]
    cases b with
    | none => rfl
    | some pb =>
      have : work (some pb) = .ok (sent (some pb)) := by
        show (initBlock pb >>= fun ws => Res.ok (some ws)) = _
        rw [initBlock_eq pb (fun r hr => h r (List.mem_append_left _ (by
          unfold allRelations
          rw [List.flatMap_cons, List.flatMap_nil, List.append_nil]
          exact hr)))]
        rfl
      rw [this]
      rfl

theorem append_exec (f : String) (fs : FS) (d bs : List UInt8) (h : fs f = some ⟨d, d.length⟩) :
    ((FsOp.write f bs).run fs) f = some ⟨d ++ bs, (d ++ bs).length⟩ ∧
      ∀ g, g ≠ f → ((FsOp.write f bs).run fs) g = fs g := by
  refine ⟨?_, fun g hg => set_other _ _ hg⟩
  show (fs.set f _) f = _
  rw [set_same, h, Option.map_some, write_end]

theorem writeBlocks_exec (f : String) (bs : List (Option (List Int64))) : ∀ (fs : FS) (d : List UInt8),
    fs f = some ⟨d, d.length⟩ →
    ∃ fs', (writeBlocks f bs).exec fs = .ok ((), fs') ∧
      Holds fs' f (d ++ Int64SliceAsByteSlice (bs.flatMap (·.getD []))) ∧ ∀ g, g ≠ f → fs' g = fs g := by
  induction bs with
  | nil =>
    intro fs d h
    refine ⟨fs, rfl, ⟨d.length, ?_⟩, fun _ _ => rfl⟩
    rw [h]
    simp [Int64SliceAsByteSlice, bytesOf]
  | cons b bs ih =>
    intro fs d h
    cases b with
    | none =>
      obtain ⟨fs', h1, h2, h3⟩ := ih fs d h
      exact ⟨fs', h1, h2, h3⟩
    | some ws =>
      obtain ⟨w1, w2⟩ := append_exec f fs d (Int64SliceAsByteSlice ws) h
      obtain ⟨fs', h1, h2, h3⟩ := ih _ _ w1
      refine ⟨fs', ?_, ?_, ?_⟩
      · unfold writeBlocks
        rw [Prog.exec_bind]
        unfold FWriteSliceI64
        rw [Prog.exec_emit, Res.ok_bind]
        exact h1
      · rw [List.flatMap_cons, int64SliceAsByteSlice_append, ← List.append_assoc]
        exact h2
      · intro g hg
        rw [h3 g hg, w2 g hg]

theorem initOutput_exec (f : String) (bs : List (Option (List Int64))) (fs : FS) :
    ∃ fs', (InitOutput f bs).exec fs = .ok ((), fs') ∧
      Holds fs' f (Int64SliceAsByteSlice (bs.flatMap (·.getD []))) ∧ ∀ g, g ≠ f → fs' g = fs g := by
  obtain ⟨fs', h1, h2, h3⟩ := writeBlocks_exec f bs ((FsOp.create f).run fs) [] (set_same _ _ _)
  refine ⟨fs', ?_, h2, fun g hg => ?_⟩
  · unfold InitOutput
    rw [Prog.exec_bind]
    unfold OsCreate
    rw [Prog.exec_emit, Res.ok_bind]
    exact h1
  · rw [h3 g hg]
    exact set_other _ _ hg

theorem sent_flatMap (blocks : List (Option PrimitiveBlock)) :
    (blocks.map sent).flatMap (·.getD []) = (allRelations blocks).flatMap unresolvedEntry := by
  induction blocks with
  | nil => rfl
  | cons b bs ih =>
    rw [List.map_cons, List.flatMap_cons, ih]
    unfold allRelations
    rw [List.flatMap_cons, List.flatMap_append]
    cases b with
    | none => rfl
    | some pb => rfl

/-! ## One later pass -/

/-- A way of a relation, with its locations once they are known. -/
abbrev Member := Int64 × Option (List Int64)

/-- The words of a way. -/
def encMember : Member → List Int64
  | (id, none) => [-id]
  | (id, some ls) => id :: Int64.ofNat ls.length :: ls

/-- The words of a relation. -/
def encRel (r : Int64 × List Member) : List Int64 :=
  r.1 :: Int64.ofNat r.2.length :: r.2.flatMap encMember

/-- What a pass does to a way, if `look` is its lookup. -/
def stepMember (look : Int64 → Option (List Int64)) (last : Bool) : Member → Member
  | (id, none) =>
    match look id with
    | some ls => (id, some ls)
    | none => if last then (id, some []) else (id, none)
  | (id, some ls) => (id, some ls)

/-- The members that occur: positive ids, lists that fit in memory. -/
def MemberOk (m : Member) : Prop := 0 < m.1.toInt ∧ ∀ ls, m.2 = some ls → ls.length < 2 ^ 62

/-- `look` is the lookup of a sub-index. -/
def Looks (swi : SubIdx) (look : Int64 → Option (List Int64)) : Prop :=
  ∀ id : Int64, 0 < id.toInt → ∃ r, swi.FindLocations id 0 = .ok r ∧
    (match look id with | some ls => r.ok = true ∧ r.locs = ls | none => r.ok = false)

theorem toInt_neg_neg (id : Int64) (h : 0 < id.toInt) : (-id) < 0 ∧ -(-id) = id := by
  refine ⟨?_, Int64.neg_neg⟩
  rw [Int64.lt_iff_toInt_lt, Int64.toInt_neg]
  have := Int64.toInt_lt id
  rw [Int.bmod_def]
  show _ < (0 : Int64).toInt
  rw [show (0 : Int64).toInt = 0 from rfl]
  omega

theorem rewriteWay_ok {swi : SubIdx} {look : Int64 → Option (List Int64)} (hl : Looks swi look) (last : Bool)
    (m : Member) (hm : MemberOk m) (u : List Int64) :
    rewriteWay swi last (encMember m ++ u) = .ok (encMember (stepMember look last m), u) := by
  obtain ⟨id, o⟩ := m
  obtain ⟨h1, h2⟩ := hm
  dsimp only at h1 h2
  obtain ⟨n1, n2⟩ := toInt_neg_neg id h1
  cases o with
  | none =>
    show (do
      let (wayId, u) ← take1 (-id :: u)
      if wayId < 0 then do
        let out ← resolveWay swi last wayId
        .ok (out, u)
      else copyWay wayId u) = _
    unfold take1
    rw [Res.ok_bind]
    dsimp only
    rw [if_pos n1]
    unfold resolveWay
    rw [n2]
    obtain ⟨r, e1, e2⟩ := hl id h1
    rw [e1, Res.ok_bind]
    cases hlook : look id with
    | none =>
      rw [hlook] at e2
      dsimp only at e2
      have : stepMember look last (id, none) = if last then (id, some []) else (id, none) := by
        unfold stepMember; dsimp only; rw [hlook]
      rw [e2, this]
      cases last <;> rfl
    | some ls =>
      rw [hlook] at e2
      dsimp only at e2
      have : stepMember look last (id, none) = (id, some ls) := by
        unfold stepMember; dsimp only; rw [hlook]
      rw [e2.1, e2.2, this]
      rfl
  | some ls =>
    have hn : ¬ id < 0 := by
      rw [Int64.lt_iff_toInt_lt, show (0 : Int64).toInt = 0 from rfl]
      omega
    have hlen := h2 ls rfl
    show (do
      let (wayId, u) ← take1 (id :: (Int64.ofNat ls.length :: ls ++ u))
      if wayId < 0 then do
        let out ← resolveWay swi last wayId
        .ok (out, u)
      else copyWay wayId u) = _
    unfold take1
    rw [Res.ok_bind]
    dsimp only
    rw [if_neg hn]
    unfold copyWay
    rw [List.cons_append]
    unfold take1 takeN
    rw [Res.ok_bind]
    dsimp only
    rw [Int64.toInt_ofNat_of_lt (by omega), if_pos (by rw [List.length_append]; omega), Res.ok_bind]
    dsimp only
    rw [Int.toNat_natCast, List.take_left, List.drop_left]
    rfl

theorem rewriteWays_ok {swi : SubIdx} {look : Int64 → Option (List Int64)} (hl : Looks swi look) (last : Bool)
    (ms : List Member) (hm : ∀ m ∈ ms, MemberOk m) (u : List Int64) :
    rewriteWays swi last ms.length (ms.flatMap encMember ++ u) =
      .ok ((ms.map (stepMember look last)).flatMap encMember, u) := by
  induction ms with
  | nil => rfl
  | cons m ms ih =>
    rw [List.length_cons, List.flatMap_cons, List.append_assoc]
    unfold rewriteWays
    rw [rewriteWay_ok hl last m (hm m (by simp)), Res.ok_bind]
    dsimp only
    rw [ih (fun m h => hm m (by simp [h])), Res.ok_bind]
    rfl

/-- What a pass does to a relation. -/
def stepRel (look : Int64 → Option (List Int64)) (last : Bool) (r : Int64 × List Member) : Int64 × List Member :=
  (r.1, r.2.map (stepMember look last))

/-- The relations that occur. -/
def RelOk (r : Int64 × List Member) : Prop := r.2.length < 2 ^ 62 ∧ ∀ m ∈ r.2, MemberOk m

theorem rewriteRelation_ok {swi : SubIdx} {look : Int64 → Option (List Int64)} (hl : Looks swi look) (last : Bool)
    (r : Int64 × List Member) (hr : RelOk r) (u : List Int64) :
    rewriteRelation swi last (encRel r ++ u) = .ok (encRel (stepRel look last r), u) := by
  unfold rewriteRelation encRel
  rw [List.cons_append, List.cons_append]
  unfold take1
  rw [Res.ok_bind]
  dsimp only
  rw [Res.ok_bind]
  dsimp only
  rw [Int64.toInt_ofNat_of_lt (by have := hr.1; omega), Int.toNat_natCast, rewriteWays_ok hl last r.2 hr.2,
    Res.ok_bind]
  unfold stepRel
  dsimp only
  rw [List.length_map]

theorem rewriteLoop_ok {swi : SubIdx} {look : Int64 → Option (List Int64)} (hl : Looks swi look) (last : Bool)
    (f : String) (rs : List (Int64 × List Member)) (hr : ∀ r ∈ rs, RelOk r) :
    ∀ (fuel : Nat) (buffered : List Int64) (fs : FS) (d : List UInt8), fs f = some ⟨d, d.length⟩ →
      rs.length < fuel →
      ∃ fs', (rewriteLoop swi last f fuel buffered (rs.flatMap encRel)).exec fs = .ok ((), fs') ∧
        Holds fs' f (d ++ Int64SliceAsByteSlice (buffered ++ (rs.map (stepRel look last)).flatMap encRel)) ∧
        ∀ g, g ≠ f → fs' g = fs g := by
  induction rs with
  | nil =>
    intro fuel buffered fs d h hf
    obtain ⟨fuel, rfl⟩ : ∃ k, fuel = k + 1 := ⟨fuel - 1, by simp at hf; omega⟩
    rw [List.flatMap_nil, List.map_nil, List.flatMap_nil, List.append_nil]
    unfold rewriteLoop
    obtain ⟨w1, w2⟩ := append_exec f fs d (Int64SliceAsByteSlice buffered) h
    by_cases hb : buffered.length > 0
    · rw [if_pos hb]
      exact ⟨_, rfl, ⟨_, w1⟩, w2⟩
    · rw [if_neg hb]
      have : buffered = [] := List.length_eq_zero_iff.1 (by omega)
      subst this
      refine ⟨fs, rfl, ⟨d.length, ?_⟩, fun _ _ => rfl⟩
      rw [h]
      simp [Int64SliceAsByteSlice, bytesOf]
  | cons r rs ih =>
    intro fuel buffered fs d h hf
    obtain ⟨fuel, rfl⟩ : ∃ k, fuel = k + 1 := ⟨fuel - 1, by simp at hf; omega⟩
    rw [List.length_cons] at hf
    have hstep := rewriteRelation_ok hl last r (hr r (by simp)) (rs.flatMap encRel)
    obtain ⟨x, xs, hx⟩ : ∃ x xs, encRel r ++ rs.flatMap encRel = x :: xs := ⟨_, _, rfl⟩
    rw [List.flatMap_cons, hx]
    rw [hx] at hstep
    unfold rewriteLoop
    rw [Prog.exec_bind, hstep, Prog.exec_lift, Res.ok_bind, Res.ok_bind]
    dsimp only
    rw [List.map_cons, List.flatMap_cons, ← List.append_assoc]
    have ih := ih (fun r h => hr r (by simp [h])) fuel
    generalize buffered ++ encRel (stepRel look last r) = out at ih ⊢
    by_cases hb : out.length > 1000000
    · rw [if_pos hb]
      obtain ⟨w1, w2⟩ := append_exec f fs d (Int64SliceAsByteSlice out) h
      obtain ⟨fs', h1, h2, h3⟩ := ih [] _ _ w1 (by omega)
      refine ⟨fs', ?_, ?_, ?_⟩
      · rw [Prog.exec_bind]
        unfold FWriteSliceI64
        rw [Prog.exec_emit, Res.ok_bind]
        exact h1
      · rw [int64SliceAsByteSlice_append, ← List.append_assoc]
        exact h2
      · intro g hg
        rw [h3 g hg, w2 g hg]
    · rw [if_neg hb]
      exact ih out fs d h (by omega)

theorem encRel_length (r : Int64 × List Member) : 2 ≤ (encRel r).length := by
  unfold encRel
  simp

theorem rels_length (rs : List (Int64 × List Member)) : rs.length ≤ (rs.flatMap encRel).length := by
  induction rs with
  | nil => simp
  | cons r rs ih =>
    rw [List.flatMap_cons, List.length_cons, List.length_append]
    have := encRel_length r
    omega

/-- One pass. -/
theorem rewrite_ok {swi : SubIdx} {look : Int64 → Option (List Int64)} (hl : Looks swi look) (ix : WayIdx)
    (pass count : Int64) (hs : ix.SubIndexWithScaledPass pass count = .ok swi) (outF inF : String) (hne : inF ≠ outF)
    (rs : List (Int64 × List Member)) (hr : ∀ r ∈ rs, RelOk r) (hpos : rs ≠ []) (fs : FS)
    (hin : Holds fs inF (Int64SliceAsByteSlice (rs.flatMap encRel))) :
    ∃ fs', (rewrite outF inF ix pass count).exec fs = .ok ((), fs') ∧
      Holds fs' outF (Int64SliceAsByteSlice
        ((rs.map (stepRel look (!(decide (pass + 1 < count))))).flatMap encRel)) ∧
      ∀ g, g ≠ outF → fs' g = fs g := by
  obtain ⟨pos, hin⟩ := hin
  obtain ⟨fs', h1, h2, h3⟩ := rewriteLoop_ok hl (!(decide (pass + 1 < count))) outF rs hr
    ((rs.flatMap encRel).length + 1) [] ((FsOp.create outF).run fs) [] (set_same _ _ _)
    (by have := rels_length rs; omega)
  refine ⟨fs', ?_, h2, fun g hg => ?_⟩
  · unfold rewrite
    rw [hs, Prog.exec_bind, Prog.exec_lift, Res.ok_bind, Res.ok_bind, Prog.exec_bind, exec_OsOpen_some (show (swi, fs).2 inF = _ from hin), Res.ok_bind, Prog.exec_bind]
    unfold OsCreate
    rw [Prog.exec_emit, Res.ok_bind, Prog.exec_bind, exec_MMapMap]
    have : (FsOp.create outF).run fs inF = some ⟨Int64SliceAsByteSlice (rs.flatMap encRel), pos⟩ := by
      rw [← hin]
      exact set_other _ _ hne
    dsimp only
    rw [this]
    dsimp only
    rw [if_neg, Res.ok_bind]
    · dsimp only
      rw [byteSlice_int64Slice]
      exact h1
    · intro h0
      have h0 := congrArg List.length h0
      unfold Int64SliceAsByteSlice at h0
      rw [bytesOf_length, List.length_map] at h0
      cases rs with
      | nil => exact hpos rfl
      | cons r rs =>
        have := rels_length (r :: rs)
        simp only [List.length_cons, List.length_nil] at *
        omega
  · rw [h3 g hg]
    exact set_other _ _ hg

end RelIndex
end Osm
