import Verif.Lemmas.FormatRead

namespace Osm.Format
open Osm Osm.Spec Osm.Spec.Proto Osm.Spec.OsmFormat Osm.Pb Osm.T

variable (o : PBReader)

theorem runsQ_to {σ τ : Type} {q : σ → τ} {body : Slice → Int → σ → Res (σ × Int)} {c : List UInt8} {t t' t'' : τ}
    (h : RunsQ q body c t t') (e : t' = t'') : RunsQ q body c t t'' := e ▸ h

/-! ### Groups -/

theorem group_takes_dense (t : PrimitiveGroup) {p : List UInt8} {dn : DenseNodes} (hp : IsDense p dn) :
    TakesSectionQ trimGroup (groupBody o) 2 p t
      (if o.SkipDenseNodes then { t with RawDense := some ⟨p, []⟩ } else { t with Dense := some dn }) := by
  cases ho : o.SkipDenseNodes with
  | true => exact T.group_takes_rawDense o ho t p
  | false =>
    intro buf n m enc rest hd hs s hst
    refine ⟨{ s with Dense := some dn }, by subst hst; rfl, ?_⟩
    unfold groupBody DecodeBytes
    rw [hd]
    simp only [Res.ok_bind]
    rw [if_neg (by decide), if_pos (by trivial), if_neg (by simp [ho]), hs.read]
    simp only [Res.ok_bind]
    rw [read_dense hp _ hs.innerFits]; rfl

theorem group_takes_way (t : PrimitiveGroup) {p : List UInt8} {w : Way} (hp : IsWay p w) :
    TakesSectionQ trimGroup (groupBody o) 3 p t
      (if o.SkipWays then { t with RawWays := t.RawWays ++ [⟨p, []⟩] } else { t with Ways := t.Ways ++ [w] }) := by
  cases ho : o.SkipWays with
  | true => exact T.group_takes_rawWay o ho t p
  | false =>
    intro buf n m enc rest hd hs s hst
    refine ⟨{ s with Ways := s.Ways ++ [w] }, by subst hst; rfl, ?_⟩
    unfold groupBody DecodeBytes
    rw [hd]
    simp only [Res.ok_bind]
    rw [if_neg (by decide), if_neg (by decide), if_pos (by trivial), if_neg (by simp [ho]), hs.read]
    simp only [Res.ok_bind]
    rw [read_way hp _ hs.innerFits]; rfl

theorem group_takes_relation (t : PrimitiveGroup) {p : List UInt8} {r : Relation} (hp : IsRelation p r) :
    TakesSectionQ trimGroup (groupBody o) 4 p t
      (if o.SkipRelations then { t with RawRelations := t.RawRelations ++ [⟨p, []⟩] }
       else { t with Relations := t.Relations ++ [r] }) := by
  cases ho : o.SkipRelations with
  | true => exact T.group_takes_rawRelation o ho t p
  | false =>
    intro buf n m enc rest hd hs s hst
    refine ⟨{ s with Relations := s.Relations ++ [r] }, by subst hst; rfl, ?_⟩
    unfold groupBody DecodeBytes
    rw [hd]
    simp only [Res.ok_bind]
    rw [if_neg (by decide), if_neg (by decide), if_neg (by decide), if_pos (by trivial), if_neg (by simp [ho]), hs.read]
    simp only [Res.ok_bind]
    rw [read_relation hp _ hs.innerFits]; rfl

theorem group_takes_changesets (t : PrimitiveGroup) (p : List UInt8) :
    TakesSectionQ trimGroup (groupBody o) 5 p t t := by
  intro buf n m enc rest hd hs s hst
  refine ⟨s, hst, ?_⟩
  unfold groupBody
  rw [hd]
  simp only [Res.ok_bind]
  rw [if_neg (by decide), if_neg (by decide), if_neg (by decide), if_neg (by decide), if_pos (by trivial), section_skip hs]
  rfl

/-- The (trimmed) group after some fields. -/
def groupAfter (t : PrimitiveGroup) (fs : List Field) (dn : Option DenseNodes) (ws : List Way) (rs : List Relation) :
    PrimitiveGroup where
  RawDense := if o.SkipDenseNodes then lastOf (fun p => some ⟨p, []⟩) t.RawDense (items 2 fs) else t.RawDense
  Dense := if o.SkipDenseNodes then t.Dense else whole (items 2 fs) t.Dense dn
  Ways := if o.SkipWays then t.Ways else t.Ways ++ ws
  RawWays := if o.SkipWays then t.RawWays ++ (items 3 fs).map (⟨·, []⟩) else t.RawWays
  Relations := if o.SkipRelations then t.Relations else t.Relations ++ rs
  RawRelations := if o.SkipRelations then t.RawRelations ++ (items 4 fs).map (⟨·, []⟩) else t.RawRelations

theorem group_runs {bs : List UInt8} {fs : List Field} (h : IsMessage bs fs) (ho : Only [] [2, 3, 4, 5] fs)
    {dn : Option DenseNodes} (h2 : ∀ p ∈ items 2 fs, ∃ d, dn = some d ∧ IsDense p d) {ws : List Way}
    (h3 : Matches IsWay (items 3 fs) ws) {rs : List Relation} (h4 : Matches IsRelation (items 4 fs) rs)
    (t : PrimitiveGroup) : RunsQ trimGroup (groupBody o) bs t (groupAfter o t fs dn ws rs) := by
  induction h generalizing t ws rs with
  | nil =>
    cases h3
    cases h4
    have e : groupAfter o t [] dn [] [] = t := by
      unfold groupAfter
      cases o.SkipDenseNodes <;> cases o.SkipWays <;> cases o.SkipRelations <;> simp [items, lastOf_nil, whole_nil]
    rw [e]
    exact runsQ_nil _
  | @cons bs rest f fs hf _ ih =>
    obtain ⟨k, v⟩ := f
    cases v with
    | num n => obtain ⟨h, _⟩ := only_num ho; cases h
    | bytes b =>
      obtain ⟨h, ho'⟩ := only_bytes ho
      simp only [List.mem_cons, List.not_mem_nil, or_false] at h
      rcases h with rfl | rfl | rfl | rfl <;>
        simp only [items_bytes, List.mem_cons, reduceIte, Nat.reduceEqDiff, forall_eq_or_imp] at h2 h3 h4
      · obtain ⟨⟨d, rfl, hd⟩, h2⟩ := h2
        refine runsQ_append (runsQ_bytes (id := 2) (by decide) hf (group_takes_dense o t hd)) ?_
        refine runsQ_to (ih ho' h2 h3 h4 (if o.SkipDenseNodes then { t with RawDense := some ⟨b, []⟩ } else { t with Dense := some d })) ?_
        unfold groupAfter
        cases o.SkipDenseNodes <;> simp [items_bytes, lastOf_cons, whole_cons, whole_same]
      · cases h3 with
        | cons hw h3 =>
          next w ws =>
          refine runsQ_append (runsQ_bytes (id := 3) (by decide) hf (group_takes_way o t hw)) ?_
          refine runsQ_to (ih ho' h2 h3 h4 (if o.SkipWays then { t with RawWays := t.RawWays ++ [⟨b, []⟩] } else { t with Ways := t.Ways ++ [w] })) ?_
          unfold groupAfter
          cases o.SkipWays <;> simp [items_bytes]
      · cases h4 with
        | cons hw h4 =>
          next w rs =>
          refine runsQ_append (runsQ_bytes (id := 4) (by decide) hf (group_takes_relation o t hw)) ?_
          refine runsQ_to (ih ho' h2 h3 h4 (if o.SkipRelations then { t with RawRelations := t.RawRelations ++ [⟨b, []⟩] } else { t with Relations := t.Relations ++ [w] })) ?_
          unfold groupAfter
          cases o.SkipRelations <;> simp [items_bytes]
      · refine runsQ_append (runsQ_bytes (id := 5) (by decide) hf (group_takes_changesets o t b)) ?_
        refine runsQ_to (ih ho' h2 h3 h4 t) ?_
        unfold groupAfter
        simp [items_bytes]

theorem matches_toList {α β : Type} {R : α → β → Prop} {xs : List α} {y : Option β} (h : Matches R xs y.toList) :
    (xs = [] ∧ y = none) ∨ ∃ x z, xs = [x] ∧ y = some z ∧ R x z := by
  cases y with
  | none => cases h; exact Or.inl ⟨rfl, rfl⟩
  | some z =>
    cases h with
    | cons h1 h2 => cases h2; exact Or.inr ⟨_, z, rfl, rfl, h1⟩

theorem map_bytes (xs : List (List UInt8)) : (xs.map fun p => (⟨p, []⟩ : Slice)).map (·.bytes) = xs := by
  induction xs with
  | nil => rfl
  | cons x xs ih => simp [ih]

theorem shows_trimGroup {g c : PrimitiveGroup} : ShowsGroup o (trimGroup g) c ↔ ShowsGroup o g c := by
  have e1 : ((trimGroup g).RawDense.map (·.bytes)) = g.RawDense.map (·.bytes) := by
    unfold trimGroup
    cases g.RawDense <;> rfl
  have e2 : ((trimGroup g).RawWays.map (·.bytes)) = g.RawWays.map (·.bytes) := by
    simp [trimGroup, trimSlice, Function.comp_def]
  have e3 : ((trimGroup g).RawRelations.map (·.bytes)) = g.RawRelations.map (·.bytes) := by
    simp [trimGroup, trimSlice, Function.comp_def]
  have f1 : (trimGroup g).RawDense = none ↔ g.RawDense = none := by simp [trimGroup]
  have f2 : (trimGroup g).RawWays = [] ↔ g.RawWays = [] := by simp [trimGroup]
  have f3 : (trimGroup g).RawRelations = [] ↔ g.RawRelations = [] := by simp [trimGroup]
  have k1 : (trimGroup g).Dense = g.Dense := rfl
  have k2 : (trimGroup g).Ways = g.Ways := rfl
  have k3 : (trimGroup g).Relations = g.Relations := rfl
  constructor
  · intro h
    constructor
    · have := h.dense; rwa [e1, f1, k1] at this
    · have := h.ways; rwa [e2, f2, k2] at this
    · have := h.relations; rwa [e3, f3, k3] at this
    · exact h.full
  · intro h
    constructor
    · have := h.dense; rwa [e1, f1, k1]
    · have := h.ways; rwa [e2, f2, k2]
    · have := h.relations; rwa [e3, f3, k3]
    · exact h.full

theorem item_length {bs : List UInt8} {fs : List Field} (h : IsMessage bs fs) (k : Nat) : ∀ p ∈ items k fs,
    p.length ≤ bs.length := by
  induction h with
  | nil => intro p hp; cases hp
  | @cons bs rest f fs hf _ ih =>
    intro p hp
    rw [List.length_append]
    cases hf with
    | num tag v j n _ _ =>
      rw [items_num] at hp
      have := ih p hp
      omega
    | bytes tag len b j _ _ =>
      rw [items_bytes] at hp
      split at hp
      · rcases List.mem_cons.1 hp with rfl | hp
        · simp only [List.length_append]; omega
        · have := ih p hp; omega
      · have := ih p hp; omega

theorem listParsed_of {α : Type} {read : Slice → Res α} {R : List UInt8 → α → Prop} {xs : List (List UInt8)} {ys : List α}
    (h : Matches R xs ys) (hr : ∀ p ∈ xs, ∀ x, R p x → read ⟨p, []⟩ = .ok x) :
    ListParsed read (xs.map fun p => ⟨p, []⟩) ys := by
  induction h with
  | nil => trivial
  | cons h _ ih => exact ⟨hr _ (by simp) _ h, ih fun p hp => hr p (by simp [hp])⟩

theorem fits_alone {p : List UInt8} (h : p.length < 2 ^ 63) : (Slice.mk p []).Fits := by
  unfold Slice.Fits; simp; omega

theorem group_after {bs : List UInt8} {c : PrimitiveGroup} (h : IsGroup bs c) :
    ∃ t', RunsQ trimGroup (groupBody o) bs PrimitiveGroup.zero t' ∧ ShowsGroup o t' c ∧
      (bs.length < 2 ^ 63 → GroupAgrees o t' c) := by
  obtain ⟨fs, h1, h2, h3, h4, h5, h6, h7, h8⟩ := h
  refine ⟨_, group_runs o h1 h2 (dn := c.Dense) ?_ h4 h5 _, ⟨?_, ?_, ?_, h6, h7, h8⟩, fun hlen => ⟨?_, ?_, ?_⟩⟩
  · intro p hp
    rcases matches_toList h3 with ⟨e, _⟩ | ⟨x, z, e, e2, hz⟩
    · rw [e] at hp; cases hp
    · rw [e] at hp
      have : p = x := by simpa using hp
      subst this
      exact ⟨z, e2, hz⟩
  · unfold groupAfter PrimitiveGroup.zero
    rcases matches_toList h3 with ⟨e, e2⟩ | ⟨x, z, e, e2, hz⟩
    · cases o.SkipDenseNodes <;> simp [e, e2, lastOf_nil, whole_nil, Matches.nil]
    · cases o.SkipDenseNodes
      · simp [e, e2, whole_cons]
      · simp [e, e2, lastOf_cons, lastOf_nil]
        exact Matches.cons hz .nil
  · unfold groupAfter PrimitiveGroup.zero
    cases o.SkipWays
    · simp
    · simpa [Function.comp_def] using h4
  · unfold groupAfter PrimitiveGroup.zero
    cases o.SkipRelations
    · simp
    · simpa [Function.comp_def] using h5
  · unfold groupAfter PrimitiveGroup.zero
    rcases matches_toList h3 with ⟨e, e2⟩ | ⟨x, z, e, e2, hz⟩
    · cases o.SkipDenseNodes <;> simp [e, e2, lastOf_nil, whole_nil, OptParsed]
    · cases o.SkipDenseNodes
      · simp [e, e2, whole_cons]
      · simp [e, e2, lastOf_cons, lastOf_nil, OptParsed]
        have := item_length h1 2 x (by simp [e])
        exact read_dense hz [] (fits_alone (by omega))
  · unfold groupAfter PrimitiveGroup.zero
    cases o.SkipWays
    · simp
    · simp
      refine listParsed_of h4 fun p hp x hx => ?_
      have := item_length h1 3 p hp
      exact read_way hx [] (fits_alone (by omega))
  · unfold groupAfter PrimitiveGroup.zero
    cases o.SkipRelations
    · simp
    · simp
      refine listParsed_of h5 fun p hp x hx => ?_
      have := item_length h1 4 p hp
      exact read_relation hx [] (fits_alone (by omega))

theorem read_group {bs : List UInt8} {c : PrimitiveGroup} (h : IsGroup bs c) (sp : List UInt8) (hf : (Slice.mk bs sp).Fits) :
    ∃ g, ReadPrimitiveGroup o ⟨bs, sp⟩ = .ok g ∧ ShowsGroup o g c := by
  obtain ⟨t', h1, h2, _⟩ := group_after o h
  obtain ⟨g, e, h3⟩ := forNext_of_runsQ (q := trimGroup) (body := groupBody o) (s := PrimitiveGroup.zero) hf h1
  exact ⟨g, h3, (shows_trimGroup o).1 (e ▸ h2)⟩

/-! ### Blocks -/

/-- Wherever they stand, the bytes read as the (trimmed) group `t`. -/
def GroupReads (p : List UInt8) (t : PrimitiveGroup) : Prop :=
  ∀ sp, (Slice.mk p sp).Fits → ∃ g, ReadPrimitiveGroup o ⟨p, sp⟩ = .ok g ∧ trimGroup g = t

theorem groups_read {ps : List (List UInt8)} {cs : List PrimitiveGroup} (h : Matches IsGroup ps cs) :
    ∃ ts, Matches (GroupReads o) ps ts ∧ Matches (ShowsGroup o) ts cs ∧
      ((∀ p ∈ ps, p.length < 2 ^ 63) → GroupsAgree o ts cs) := by
  induction h with
  | nil => exact ⟨[], .nil, .nil, fun _ => trivial⟩
  | cons h _ ih =>
    obtain ⟨ts, h1, h2, h6⟩ := ih
    obtain ⟨t', h3, h4, h7⟩ := group_after o h
    refine ⟨t' :: ts, .cons ?_ h1, .cons h4 h2, fun hp => ⟨h7 (hp _ (by simp)), h6 fun p hq => hp p (by simp [hq])⟩⟩
    intro sp hf
    obtain ⟨g, e, h5⟩ := forNext_of_runsQ (q := trimGroup) (body := groupBody o) (s := PrimitiveGroup.zero) hf h3
    exact ⟨g, h5, e⟩

theorem block_takes_table (t : PrimitiveBlock) {p : List UInt8} {st : StringTable} (hp : IsStringTable p st) :
    TakesSectionQ trimBlock (blockBody o) 1 p t
      (if o.SkipStringTable then { t with StringTableRaw := some ⟨p, []⟩ } else { t with StringTable := some st }) := by
  cases ho : o.SkipStringTable with
  | true => exact T.block_takes_rawST o ho t p
  | false =>
    intro buf n m enc rest hd hs s hst
    refine ⟨{ s with StringTable := some st }, by subst hst; rfl, ?_⟩
    unfold blockBody DecodeBytes
    rw [hd]
    simp only [Res.ok_bind]
    rw [if_pos (by trivial), if_neg (by simp [ho]), hs.read]
    simp only [Res.ok_bind]
    rw [read_stringTable hp _ hs.innerFits]; rfl

theorem block_takes_group (t : PrimitiveBlock) {p : List UInt8} {g : PrimitiveGroup} (hp : GroupReads o p g) :
    TakesSectionQ trimBlock (blockBody o) 2 p t { t with PrimitiveGroup := t.PrimitiveGroup ++ [g] } := by
  intro buf n m enc rest hd hs s hst
  obtain ⟨g', h1, h2⟩ := hp _ hs.innerFits
  refine ⟨{ s with PrimitiveGroup := s.PrimitiveGroup ++ [g'] }, by subst hst; simp [trimBlock, h2], ?_⟩
  unfold blockBody DecodeBytes
  rw [hd]
  simp only [Res.ok_bind]
  rw [if_neg (by decide), if_pos (by trivial), hs.read]
  simp only [Res.ok_bind]
  rw [h1]; rfl

theorem toInt32_ofNat (v : Nat) : (UInt64.ofNat v).toInt64.toInt32 = Int32.ofNat v := by
  simp [Int64.toInt32_ofNat']

theorem block_number_gran (s : PrimitiveBlock) (v : Nat) :
    TakesNumber (blockBody o) 17 v s { s with Granularity := Int32.ofNat v } := by
  intro buf n m j hd hv
  unfold blockBody DecodeI32
  rw [hd]
  simp only [Res.ok_bind]
  rw [if_neg (by decide), if_neg (by decide), if_pos (by trivial), hv]
  simp only [Res.ok_bind, toInt32_ofNat]

theorem block_number_date (s : PrimitiveBlock) (v : Nat) :
    TakesNumber (blockBody o) 18 v s { s with DateGranularity := Int32.ofNat v } := by
  intro buf n m j hd hv
  unfold blockBody DecodeI32
  rw [hd]
  simp only [Res.ok_bind]
  rw [if_neg (by decide), if_neg (by decide), if_neg (by decide), if_pos (by trivial), hv]
  simp only [Res.ok_bind, toInt32_ofNat]

theorem block_number_lat (s : PrimitiveBlock) (v : Nat) :
    TakesNumber (blockBody o) 19 v s { s with LatOffset := Int64.ofNat v } := by
  intro buf n m j hd hv
  unfold blockBody DecodeI64
  rw [hd]
  simp only [Res.ok_bind]
  rw [if_neg (by decide), if_neg (by decide), if_neg (by decide), if_neg (by decide), if_pos (by trivial), hv]; rfl

theorem block_number_lon (s : PrimitiveBlock) (v : Nat) :
    TakesNumber (blockBody o) 20 v s { s with LonOffset := Int64.ofNat v } := by
  intro buf n m j hd hv
  unfold blockBody DecodeI64
  rw [hd]
  simp only [Res.ok_bind]
  rw [if_neg (by decide), if_neg (by decide), if_neg (by decide), if_neg (by decide), if_neg (by decide), if_pos (by trivial),
    hv]; rfl

/-- The (trimmed) block after some fields. -/
def blockAfter (t : PrimitiveBlock) (fs : List Field) (st : Option StringTable) (gs : List PrimitiveGroup) :
    PrimitiveBlock where
  StringTableRaw := if o.SkipStringTable then lastOf (fun p => some ⟨p, []⟩) t.StringTableRaw (items 1 fs) else t.StringTableRaw
  StringTable := if o.SkipStringTable then t.StringTable else whole (items 1 fs) t.StringTable st
  PrimitiveGroup := t.PrimitiveGroup ++ gs
  Granularity := lastOf Int32.ofNat t.Granularity (nums 17 fs)
  DateGranularity := lastOf Int32.ofNat t.DateGranularity (nums 18 fs)
  LatOffset := lastOf Int64.ofNat t.LatOffset (nums 19 fs)
  LonOffset := lastOf Int64.ofNat t.LonOffset (nums 20 fs)

theorem block_runs {bs : List UInt8} {fs : List Field} (h : IsMessage bs fs) (ho : Only [17, 18, 19, 20] [1, 2] fs)
    {st : Option StringTable} (h1 : ∀ p ∈ items 1 fs, ∃ d, st = some d ∧ IsStringTable p d) {gs : List PrimitiveGroup}
    (h2 : Matches (GroupReads o) (items 2 fs) gs) (t : PrimitiveBlock) :
    RunsQ trimBlock (blockBody o) bs t (blockAfter o t fs st gs) := by
  induction h generalizing t gs with
  | nil =>
    cases h2
    refine runsQ_to (runsQ_nil t) ?_
    unfold blockAfter
    cases o.SkipStringTable <;> simp [items, nums, lastOf_nil, whole_nil]
  | @cons bs rest f fs hf _ ih =>
    obtain ⟨k, v⟩ := f
    cases v with
    | num n =>
      obtain ⟨h, ho'⟩ := only_num ho
      simp only [List.mem_cons, List.not_mem_nil, or_false] at h
      simp only [items_num] at h1 h2
      rcases h with rfl | rfl | rfl | rfl
      · refine runsQ_append (runsQ_num (id := 17) (t' := { t with Granularity := Int32.ofNat n }) (by decide) hf
          (fun s hs => ⟨_, by subst hs; rfl, block_number_gran o s n⟩)) ?_
        refine runsQ_to (ih ho' h1 h2 _) ?_
        unfold blockAfter
        simp [items_num, nums_num, lastOf_cons]
      · refine runsQ_append (runsQ_num (id := 18) (t' := { t with DateGranularity := Int32.ofNat n }) (by decide) hf
          (fun s hs => ⟨_, by subst hs; rfl, block_number_date o s n⟩)) ?_
        refine runsQ_to (ih ho' h1 h2 _) ?_
        unfold blockAfter
        simp [items_num, nums_num, lastOf_cons]
      · refine runsQ_append (runsQ_num (id := 19) (t' := { t with LatOffset := Int64.ofNat n }) (by decide) hf
          (fun s hs => ⟨_, by subst hs; rfl, block_number_lat o s n⟩)) ?_
        refine runsQ_to (ih ho' h1 h2 _) ?_
        unfold blockAfter
        simp [items_num, nums_num, lastOf_cons]
      · refine runsQ_append (runsQ_num (id := 20) (t' := { t with LonOffset := Int64.ofNat n }) (by decide) hf
          (fun s hs => ⟨_, by subst hs; rfl, block_number_lon o s n⟩)) ?_
        refine runsQ_to (ih ho' h1 h2 _) ?_
        unfold blockAfter
        simp [items_num, nums_num, lastOf_cons]
    | bytes b =>
      obtain ⟨h, ho'⟩ := only_bytes ho
      simp only [List.mem_cons, List.not_mem_nil, or_false] at h
      rcases h with rfl | rfl <;>
        simp only [items_bytes, List.mem_cons, reduceIte, Nat.reduceEqDiff, forall_eq_or_imp] at h1 h2
      · obtain ⟨⟨d, rfl, hd⟩, h1⟩ := h1
        refine runsQ_append (runsQ_bytes (id := 1) (by decide) hf (block_takes_table o t hd)) ?_
        refine runsQ_to (ih ho' h1 h2 _) ?_
        unfold blockAfter
        cases o.SkipStringTable <;> simp [items_bytes, nums_bytes, lastOf_cons, whole_cons, whole_same]
      · cases h2 with
        | cons hw h2 =>
          next g gs =>
          refine runsQ_append (runsQ_bytes (id := 2) (by decide) hf (block_takes_group o t hw)) ?_
          refine runsQ_to (ih ho' h1 h2 _) ?_
          unfold blockAfter
          simp [items_bytes, nums_bytes]

theorem matches_mono {α β γ : Type} {R : α → β → Prop} {S : γ → β → Prop} {f : γ → α} (h : ∀ c b, R (f c) b → S c b)
    {xs : List γ} {ys : List β} (hm : Matches R (xs.map f) ys) : Matches S xs ys := by
  induction xs generalizing ys with
  | nil => cases hm; exact .nil
  | cons x xs ih =>
    rw [List.map_cons] at hm
    cases hm with
    | cons h1 h2 => exact .cons (h _ _ h1) (ih h2)

theorem shows_trimBlock {b c : PrimitiveBlock} (h : ShowsBlock o (trimBlock b) c) : ShowsBlock o b c := by
  constructor
  · have := h.table
    have e1 : ((trimBlock b).StringTableRaw.map (·.bytes)) = b.StringTableRaw.map (·.bytes) := by
      unfold trimBlock
      cases b.StringTableRaw <;> rfl
    have f1 : (trimBlock b).StringTableRaw = none ↔ b.StringTableRaw = none := by simp [trimBlock]
    rwa [e1, f1] at this
  · exact matches_mono (f := trimGroup) (fun g c h => (shows_trimGroup o).1 h) h.groups
  · exact h.numbers
  · exact h.full

theorem block_after {bs : List UInt8} {c : PrimitiveBlock} (h : IsBlock bs c) :
    ∃ t', RunsQ trimBlock (blockBody o) bs PrimitiveBlock.fresh t' ∧ ShowsBlock o t' c ∧
      (bs.length < 2 ^ 63 → BlockAgrees o t' c) := by
  obtain ⟨fs, h1, h2, h3, h4, h5, h6, h7, h8, h9⟩ := h
  obtain ⟨gs, k1, k2, k3⟩ := groups_read o h4
  refine ⟨_, block_runs o h1 h2 (st := c.StringTable) ?_ k1 _, ⟨?_, ?_, ?_, h9⟩, fun hlen => ⟨?_, ?_, ?_⟩⟩
  · intro p hp
    rcases matches_toList h3 with ⟨e, _⟩ | ⟨x, z, e, e2, hz⟩
    · rw [e] at hp; cases hp
    · rw [e] at hp
      have : p = x := by simpa using hp
      subst this
      exact ⟨z, e2, hz⟩
  · unfold blockAfter PrimitiveBlock.fresh
    rcases matches_toList h3 with ⟨e, e2⟩ | ⟨x, z, e, e2, hz⟩
    · cases o.SkipStringTable <;> simp [e, e2, lastOf_nil, whole_nil, Matches.nil]
    · cases o.SkipStringTable
      · simp [e, e2, whole_cons]
      · simp [e, e2, lastOf_cons, lastOf_nil]
        exact Matches.cons hz .nil
  · simpa [blockAfter, PrimitiveBlock.fresh] using k2
  · unfold blockAfter PrimitiveBlock.fresh
    dsimp only
    rw [show (100 : Int32) = Int32.ofNat 100 from rfl, show (1000 : Int32) = Int32.ofNat 1000 from rfl,
      show (0 : Int64) = Int64.ofNat 0 from rfl]
    simp only [lastOf_scalar]
    exact ⟨h5.symm, h6.symm, h7.symm, h8.symm⟩
  · unfold blockAfter PrimitiveBlock.fresh
    rcases matches_toList h3 with ⟨e, e2⟩ | ⟨x, z, e, e2, hz⟩
    · cases o.SkipStringTable <;> simp [e, e2, lastOf_nil, whole_nil, OptParsed]
    · cases o.SkipStringTable
      · simp [e, e2, whole_cons]
      · simp [e, e2, lastOf_cons, lastOf_nil, OptParsed]
        have := item_length h1 1 x (by simp [e])
        exact read_stringTable hz [] (fits_alone (by omega))
  · have := k3 fun p hp => by have := item_length h1 2 p hp; omega
    simpa [blockAfter, PrimitiveBlock.fresh] using this
  · unfold blockAfter PrimitiveBlock.fresh
    dsimp only
    rw [show (100 : Int32) = Int32.ofNat 100 from rfl, show (1000 : Int32) = Int32.ofNat 1000 from rfl,
      show (0 : Int64) = Int64.ofNat 0 from rfl]
    simp only [lastOf_scalar]
    exact ⟨h5.symm, h6.symm, h7.symm, h8.symm⟩

theorem read_block {bs : List UInt8} {c : PrimitiveBlock} (h : IsBlock bs c) (sp : List UInt8) (hf : (Slice.mk bs sp).Fits) :
    ∃ b, ReadPrimitiveBlock o ⟨bs, sp⟩ = .ok b ∧ ShowsBlock o b c ∧ BlockAgrees o (trimBlock b) c := by
  obtain ⟨t', h1, h2, h4⟩ := block_after o h
  obtain ⟨b, e, h3⟩ := forNext_of_runsQ (q := trimBlock) (body := blockBody o) (s := PrimitiveBlock.fresh) hf h1
  refine ⟨b, h3, shows_trimBlock o (e ▸ h2), e ▸ h4 ?_⟩
  unfold Slice.Fits at hf
  dsimp only at hf
  omega

theorem shows_all_group {g c : PrimitiveGroup} (h : ShowsGroup readAll g c) : g = c := by
  obtain ⟨a1, a2⟩ := h.dense
  obtain ⟨b1, b2⟩ := h.ways
  obtain ⟨c1, c2⟩ := h.relations
  obtain ⟨d1, d2, d3⟩ := h.full
  cases g; cases c
  simp_all

theorem shows_all {b c : PrimitiveBlock} (h : ShowsBlock readAll b c) : b = c := by
  obtain ⟨a1, a2⟩ := h.table
  obtain ⟨n1, n2, n3, n4⟩ := h.numbers
  have hg : b.PrimitiveGroup = c.PrimitiveGroup := by
    have := h.groups
    generalize b.PrimitiveGroup = gs, c.PrimitiveGroup = cs at this
    clear n1 n2 n3 n4 a1 a2
    induction this with
    | nil => rfl
    | cons h _ ih => rw [shows_all_group h, ih]
  have := h.full
  cases b; cases c
  simp_all

theorem read_block_all {bs : List UInt8} {c : PrimitiveBlock} (h : IsBlock bs c) (sp : List UInt8)
    (hf : (Slice.mk bs sp).Fits) : ReadPrimitiveBlock readAll ⟨bs, sp⟩ = .ok c := by
  obtain ⟨b, h1, h2, _⟩ := read_block readAll h sp hf
  rw [h1, shows_all h2]

/-! ### Blobs -/

theorem header_takes_type (s : BlobHeader) (p : List UInt8) : TakesSection blobHeaderBody 1 p s { s with Kind := p } := by
  intro buf n m enc rest hd hs
  unfold blobHeaderBody DecodeString DecodeBytes
  rw [hd]
  simp only [Res.ok_bind]
  rw [if_pos (by trivial), hs.read]; rfl

theorem header_number_size (s : BlobHeader) (v : Nat) :
    TakesNumber blobHeaderBody 3 v s { s with DataSize := Int32.ofNat v } := by
  intro buf n m j hd hv
  unfold blobHeaderBody DecodeI32
  rw [hd]
  simp only [Res.ok_bind]
  rw [if_neg (by decide), if_pos (by trivial), hv]
  simp only [Res.ok_bind, toInt32_ofNat]

theorem header_runs {bs : List UInt8} {fs : List Field} (h : IsMessage bs fs) (ho : Only [3] [1] fs) (s : BlobHeader) :
    Runs blobHeaderBody bs s ⟨lastOf id s.Kind (items 1 fs), lastOf Int32.ofNat s.DataSize (nums 3 fs)⟩ := by
  induction h generalizing s with
  | nil => simpa [items, nums, lastOf_nil] using runs_nil _ _
  | @cons bs rest f fs hf _ ih =>
    obtain ⟨k, v⟩ := f
    cases v with
    | num n =>
      obtain ⟨h, ho'⟩ := only_num ho
      simp only [List.mem_singleton] at h
      subst h
      refine runs_append (runs_num (id := 3) (by decide) hf (header_number_size s n)) ?_
      simpa [items_num, nums_num, lastOf_cons] using ih ho' { s with DataSize := Int32.ofNat n }
    | bytes b =>
      obtain ⟨h, ho'⟩ := only_bytes ho
      simp only [List.mem_singleton] at h
      subst h
      refine runs_append (runs_bytes (id := 1) (by decide) hf (header_takes_type s b)) ?_
      simpa [items_bytes, nums_bytes, lastOf_cons] using ih ho' { s with Kind := b }

theorem read_header {bs : List UInt8} {kind : GoStr} {size : Int32} (h : IsBlobHeader bs kind size) (sp : List UInt8)
    (hf : (Slice.mk bs sp).Fits) : ReadBlobHeader ⟨bs, sp⟩ = .ok ⟨kind, size⟩ := by
  obtain ⟨fs, h1, h2, rfl, rfl⟩ := h
  have := forNext_of_runs (body := blobHeaderBody) hf (header_runs h1 h2 ⟨[], 0⟩)
  unfold ReadBlobHeader
  rw [this, show (0 : Int32) = Int32.ofNat 0 from rfl, lastOf_scalar]
  simp [lastOf]

/-- Without spare capacity. -/
def trimBlob (b : Blob) : Blob := ⟨b.Raw.map trimSlice, b.RawSize, b.ZLibData.map trimSlice⟩

theorem blob_takes_raw (t : Blob) (p : List UInt8) :
    TakesSectionQ trimBlob blobBody 1 p t { t with Raw := some ⟨p, []⟩ } := by
  intro buf n m enc rest hd hs s hst
  refine ⟨{ s with Raw := some ⟨p, rest ++ buf.spare⟩ }, by subst hst; rfl, ?_⟩
  unfold blobBody DecodeBytes
  rw [hd]
  simp only [Res.ok_bind]
  rw [if_pos (by trivial), hs.read]; rfl

theorem blob_takes_zlib (t : Blob) (p : List UInt8) :
    TakesSectionQ trimBlob blobBody 3 p t { t with ZLibData := some ⟨p, []⟩ } := by
  intro buf n m enc rest hd hs s hst
  refine ⟨{ s with ZLibData := some ⟨p, rest ++ buf.spare⟩ }, by subst hst; rfl, ?_⟩
  unfold blobBody DecodeBytes
  rw [hd]
  simp only [Res.ok_bind]
  rw [if_neg (by decide), if_neg (by decide), if_pos (by trivial), hs.read]; rfl

theorem blob_number_size (s : Blob) (v : Nat) : TakesNumber blobBody 2 v s { s with RawSize := some (Int32.ofNat v) } := by
  intro buf n m j hd hv
  unfold blobBody DecodeI32
  rw [hd]
  simp only [Res.ok_bind]
  rw [if_neg (by decide), if_pos (by trivial), hv]
  simp only [Res.ok_bind, toInt32_ofNat]

theorem blob_runs {bs : List UInt8} {fs : List Field} (h : IsMessage bs fs) (ho : Only [2] [1, 3] fs) (t : Blob) :
    RunsQ trimBlob blobBody bs t ⟨lastOf (fun p => some ⟨p, []⟩) t.Raw (items 1 fs),
      lastOf (fun n => some (Int32.ofNat n)) t.RawSize (nums 2 fs),
      lastOf (fun p => some ⟨p, []⟩) t.ZLibData (items 3 fs)⟩ := by
  induction h generalizing t with
  | nil => exact runsQ_nil t
  | @cons bs rest f fs hf _ ih =>
    obtain ⟨k, v⟩ := f
    cases v with
    | num n =>
      obtain ⟨h, ho'⟩ := only_num ho
      simp only [List.mem_singleton] at h
      subst h
      refine runsQ_append (runsQ_num (id := 2) (t' := { t with RawSize := some (Int32.ofNat n) }) (by decide) hf
        (fun s hs => ⟨_, by subst hs; rfl, blob_number_size s n⟩)) ?_
      refine runsQ_to (ih ho' _) ?_
      simp [items_num, nums_num, lastOf_cons]
    | bytes b =>
      obtain ⟨h, ho'⟩ := only_bytes ho
      simp only [List.mem_cons, List.not_mem_nil, or_false] at h
      rcases h with rfl | rfl
      · refine runsQ_append (runsQ_bytes (id := 1) (by decide) hf (blob_takes_raw t b)) ?_
        refine runsQ_to (ih ho' _) ?_
        simp [items_bytes, nums_bytes, lastOf_cons]
      · refine runsQ_append (runsQ_bytes (id := 3) (by decide) hf (blob_takes_zlib t b)) ?_
        refine runsQ_to (ih ho' _) ?_
        simp [items_bytes, nums_bytes, lastOf_cons]

theorem lastOf_some {α β : Type} (f : α → β) (xs : List α) : lastOf (fun x => some (f x)) none xs = xs.getLast?.map f := by
  unfold lastOf
  cases xs.getLast? <;> rfl

theorem read_blob {bs : List UInt8} {raw zlib : Option (List UInt8)} {size : Option Int32} (h : IsBlob bs raw size zlib)
    (sp : List UInt8) (hf : (Slice.mk bs sp).Fits) :
    ∃ b, ReadBlob ⟨bs, sp⟩ = .ok b ∧ b.Raw.map (·.bytes) = raw ∧ b.RawSize = size ∧ b.ZLibData.map (·.bytes) = zlib := by
  obtain ⟨fs, h1, h2, rfl, rfl, rfl⟩ := h
  obtain ⟨b, e, h3⟩ := forNext_of_runsQ (q := trimBlob) (body := blobBody) (s := Blob.zero) hf (blob_runs h1 h2 Blob.zero)
  refine ⟨b, h3, ?_⟩
  unfold Blob.zero at e
  simp only [lastOf_some] at e
  obtain ⟨r, n, z⟩ := b
  simp only [trimBlob, Blob.mk.injEq] at e
  obtain ⟨e1, e2, e3⟩ := e
  have g : ∀ (r : Option Slice) (l : Option (List UInt8)), r.map trimSlice = l.map (fun p => ⟨p, []⟩) → r.map (·.bytes) = l := by
    intro r l h
    cases r <;> cases l <;> simp_all [trimSlice]
  exact ⟨g _ _ e1, e2, g _ _ e3⟩

end Osm.Format
