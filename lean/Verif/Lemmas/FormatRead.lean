import Verif.Lemmas.Format

namespace Osm.Format
open Osm Osm.Spec Osm.Spec.Proto Osm.Spec.OsmFormat Osm.Pb Osm.T

/-! ### Lists of fields -/

theorem nums_num (k j n : Nat) (fs : List Field) : nums k ((j, .num n) :: fs) = if j = k then n :: nums k fs else nums k fs := by
  unfold nums
  by_cases h : j = k <;> simp [h]

theorem nums_bytes (k j : Nat) (b : List UInt8) (fs : List Field) : nums k ((j, .bytes b) :: fs) = nums k fs := by
  simp [nums]

theorem items_bytes (k j : Nat) (b : List UInt8) (fs : List Field) :
    items k ((j, .bytes b) :: fs) = if j = k then b :: items k fs else items k fs := by
  unfold items
  by_cases h : j = k <;> simp [h]

theorem items_num (k j n : Nat) (fs : List Field) : items k ((j, .num n) :: fs) = items k fs := by
  simp [items]

theorem only_num {ns bs : List Nat} {k n : Nat} {fs : List Field} (h : Only ns bs ((k, .num n) :: fs)) :
    k ∈ ns ∧ Only ns bs fs :=
  ⟨h _ (List.mem_cons_self ..), fun f hf => h f (List.mem_cons_of_mem _ hf)⟩

theorem only_bytes {ns bs : List Nat} {k : Nat} {b : List UInt8} {fs : List Field} (h : Only ns bs ((k, .bytes b) :: fs)) :
    k ∈ bs ∧ Only ns bs fs :=
  ⟨h _ (List.mem_cons_self ..), fun f hf => h f (List.mem_cons_of_mem _ hf)⟩

/-- The last value, or the one before. -/
def lastOf {α β : Type} (conv : α → β) (d : β) (xs : List α) : β := (xs.getLast?.map conv).getD d

theorem lastOf_nil {α β : Type} (conv : α → β) (d : β) : lastOf conv d [] = d := rfl

theorem lastOf_cons {α β : Type} (conv : α → β) (d : β) (x : α) (xs : List α) :
    lastOf conv d (x :: xs) = lastOf conv (conv x) xs := by
  unfold lastOf
  cases xs with
  | nil => rfl
  | cons y ys => simp [List.getLast?_cons_cons, List.getLast?_cons]

theorem lastOf_scalar {β : Type} (conv : Nat → β) (d k : Nat) (fs : List Field) :
    lastOf conv (conv d) (nums k fs) = conv (scalar d k fs) := by
  unfold lastOf scalar
  cases (nums k fs).getLast? <;> rfl

/-- The value of a list, if it occurs at all. -/
def whole {α : Type} (xs : List (List UInt8)) (s w : α) : α := if xs = [] then s else w

theorem whole_nil {α : Type} (s w : α) : whole [] s w = s := rfl
theorem whole_cons {α : Type} (x : List UInt8) (xs : List (List UInt8)) (s w : α) : whole (x :: xs) s w = w := rfl
theorem whole_same {α : Type} (xs : List (List UInt8)) (w : α) : whole xs w w = w := by unfold whole; split <;> rfl

theorem once_item {k : Nat} {fs : List Field} {ks : List Nat} (h : Once ks fs) (hk : k ∈ ks) {p : List UInt8}
    (hp : p ∈ items k fs) : packed k fs = p := by
  have := h k hk
  unfold packed
  cases hi : items k fs with
  | nil => rw [hi] at hp; cases hp
  | cons a l =>
    rw [hi] at this hp
    have hl : l = [] := by
      cases l with
      | nil => rfl
      | cons _ _ => simp at this
    subst hl
    have : p = a := by simpa using hp
    simp [this]

theorem packed_none {k : Nat} {fs : List Field} (h : items k fs = []) : packed k fs = [] := by
  unfold packed; rw [h]; rfl

theorem isPacked_nil {ns : List Nat} (h : IsPacked [] ns) : ns = [] := by
  generalize hb : ([] : List UInt8) = bs at h
  cases h with
  | nil => rfl
  | cons hv _ => simp [varint_ne_nil hv] at hb

theorem whole_packedU32 {k : Nat} {fs : List Field} {vs : List UInt32} (h : PackedU32 (packed k fs) vs) :
    whole (items k fs) [] vs = vs := by
  unfold whole
  split
  · next hi =>
    rw [packed_none hi] at h
    obtain ⟨ns, h1, rfl⟩ := h
    rw [isPacked_nil h1]; rfl
  · rfl

theorem whole_packedI32 {k : Nat} {fs : List Field} {vs : List Int32} (h : PackedI32 (packed k fs) vs) :
    whole (items k fs) [] vs = vs := by
  unfold whole
  split
  · next hi =>
    rw [packed_none hi] at h
    obtain ⟨ns, h1, rfl⟩ := h
    rw [isPacked_nil h1]; rfl
  · rfl

theorem whole_packedEnum {k : Nat} {fs : List Field} {vs : List UInt64} (h : PackedEnum (packed k fs) vs) :
    whole (items k fs) [] vs = vs := by
  unfold whole
  split
  · next hi =>
    rw [packed_none hi] at h
    obtain ⟨ns, h1, rfl⟩ := h
    rw [isPacked_nil h1]; rfl
  · rfl

theorem whole_packedDelta {k : Nat} {fs : List Field} {vs : List Int64} (h : PackedDelta (packed k fs) vs) :
    whole (items k fs) [] vs = vs := by
  unfold whole
  split
  · next hi =>
    rw [packed_none hi] at h
    obtain ⟨ns, h1, rfl⟩ := h
    rw [isPacked_nil h1]; rfl
  · rfl

theorem section_skip {b : Slice} {n : Nat} {enc p rest : List UInt8} (h : Section b n enc p rest) :
    SkipBytes b n = .ok ((n + (enc ++ p).length : Nat) : Int) := by
  have hl := drop_len h.here
  have hf := h.fits
  unfold Slice.Fits at hf
  simp only [List.length_append] at hl
  have := isVarint_length_pos h.varint
  unfold SkipBytes
  rw [decode_of_isVarint b n enc (p ++ rest) p.length (by simpa using h.here) h.varint h.short (by omega)]
  simp only [Res.ok_bind]
  rw [ofInt_toNat_small _ (by omega), goInt_small _ (by omega) (by omega)]
  simp; omega

/-! ### String table -/

theorem stringTable_takes (st : StringTable) (p : List UInt8) : TakesSection stringTableBody 1 p st ⟨st.S ++ [p]⟩ := by
  intro buf n m enc rest hd hs
  unfold stringTableBody DecodeString DecodeBytes
  rw [hd]
  simp only [Res.ok_bind, if_true]
  rw [hs.read]; rfl

theorem stringTable_runs {bs : List UInt8} {fs : List Field} (h : IsMessage bs fs) (ho : Only [] [1] fs) (s : StringTable) :
    Runs stringTableBody bs s ⟨s.S ++ items 1 fs⟩ := by
  induction h generalizing s with
  | nil => simpa [items] using runs_nil _ _
  | @cons bs rest f fs hf _ ih =>
    obtain ⟨k, v⟩ := f
    cases v with
    | num n => obtain ⟨h1, _⟩ := only_num ho; cases h1
    | bytes b =>
      obtain ⟨h1, h2⟩ := only_bytes ho
      simp only [List.mem_singleton] at h1
      subst h1
      refine runs_append (runs_bytes (id := 1) (by decide) hf (stringTable_takes s b)) ?_
      have := ih h2 ⟨s.S ++ [b]⟩
      simpa [items_bytes] using this

theorem read_stringTable {bs : List UInt8} {st : StringTable} (h : IsStringTable bs st) (sp : List UInt8)
    (hf : (Slice.mk bs sp).Fits) : ReadStringTable ⟨bs, sp⟩ = .ok st := by
  obtain ⟨fs, h1, h2, h3⟩ := h
  have := forNext_of_runs (body := stringTableBody) hf (stringTable_runs h1 h2 ⟨[]⟩)
  obtain ⟨S⟩ := st
  dsimp only at h3
  subst h3
  unfold ReadStringTable
  simpa using this

/-! ### Way -/

theorem way_number_id (w : Way) (v : Nat) : TakesNumber wayBody 1 v w { w with ID := Int64.ofNat v } := by
  intro buf n m j hd hv
  unfold wayBody DecodeI64
  rw [hd]
  simp only [Res.ok_bind, if_true]
  rw [hv]; rfl

theorem way_takes_keys {p : List UInt8} {ks : List UInt32} (hp : PackedU32 p ks) (w : Way) :
    TakesSection wayBody 2 p w { w with Keys := ks } := by
  intro buf n m enc rest hd hs
  unfold wayBody
  rw [hd]
  simp only [Res.ok_bind]
  rw [if_neg (by decide), if_pos (by trivial), decodeU32Packed_of hp hs]; rfl

theorem way_takes_vals {p : List UInt8} {ks : List UInt32} (hp : PackedU32 p ks) (w : Way) :
    TakesSection wayBody 3 p w { w with Vals := ks } := by
  intro buf n m enc rest hd hs
  unfold wayBody
  rw [hd]
  simp only [Res.ok_bind]
  rw [if_neg (by decide), if_neg (by decide), if_pos (by trivial), decodeU32Packed_of hp hs]; rfl

theorem way_takes_info (p : List UInt8) (w : Way) : TakesSection wayBody 4 p w w := by
  intro buf n m enc rest hd hs
  unfold wayBody
  rw [hd]
  simp only [Res.ok_bind]
  rw [if_neg (by decide), if_neg (by decide), if_neg (by decide), if_pos (by trivial), section_skip hs]; rfl

theorem way_takes_refs {p : List UInt8} {ks : List Int64} (hp : PackedDelta p ks) (w : Way) :
    TakesSection wayBody 8 p w { w with Refs := ks } := by
  intro buf n m enc rest hd hs
  unfold wayBody
  rw [hd]
  simp only [Res.ok_bind]
  rw [if_neg (by decide), if_neg (by decide), if_neg (by decide), if_neg (by decide), if_pos (by trivial),
    decodeS64PackedDelta_of hp hs]; rfl

theorem way_runs {bs : List UInt8} {fs : List Field} (h : IsMessage bs fs) (ho : Only [1] [2, 3, 4, 8] fs) {w : Way}
    (h2 : ∀ p ∈ items 2 fs, PackedU32 p w.Keys) (h3 : ∀ p ∈ items 3 fs, PackedU32 p w.Vals)
    (h8 : ∀ p ∈ items 8 fs, PackedDelta p w.Refs) (s : Way) :
    Runs wayBody bs s ⟨lastOf Int64.ofNat s.ID (nums 1 fs), whole (items 2 fs) s.Keys w.Keys,
      whole (items 3 fs) s.Vals w.Vals, whole (items 8 fs) s.Refs w.Refs⟩ := by
  induction h generalizing s with
  | nil => simpa [items, nums, lastOf_nil, whole_nil] using runs_nil _ _
  | @cons bs rest f fs hf _ ih =>
    obtain ⟨k, v⟩ := f
    cases v with
    | num n =>
      obtain ⟨h1, ho'⟩ := only_num ho
      simp only [List.mem_singleton] at h1
      subst h1
      simp only [items_num] at h2 h3 h8 ⊢
      refine runs_append (runs_num (id := 1) (by decide) hf (way_number_id s n)) ?_
      have := ih ho' h2 h3 h8 { s with ID := Int64.ofNat n }
      simpa [nums_num, lastOf_cons] using this
    | bytes b =>
      obtain ⟨h1, ho'⟩ := only_bytes ho
      simp only [List.mem_cons, List.not_mem_nil, or_false] at h1
      rcases h1 with rfl | rfl | rfl | rfl <;>
        simp only [nums_bytes, items_bytes, List.mem_cons, reduceIte, Nat.reduceEqDiff, forall_eq_or_imp, whole_cons]
          at h2 h3 h8 ⊢
      · refine runs_append (runs_bytes (id := 2) (by decide) hf (way_takes_keys h2.1 s)) ?_
        simpa [whole_same] using ih ho' h2.2 h3 h8 { s with Keys := w.Keys }
      · refine runs_append (runs_bytes (id := 3) (by decide) hf (way_takes_vals h3.1 s)) ?_
        simpa [whole_same] using ih ho' h2 h3.2 h8 { s with Vals := w.Vals }
      · refine runs_append (runs_bytes (id := 4) (by decide) hf (way_takes_info b s)) ?_
        simpa [whole_same] using ih ho' h2 h3 h8 s
      · refine runs_append (runs_bytes (id := 8) (by decide) hf (way_takes_refs h8.1 s)) ?_
        simpa [whole_same] using ih ho' h2 h3 h8.2 { s with Refs := w.Refs }

theorem read_way {bs : List UInt8} {w : Way} (h : IsWay bs w) (sp : List UInt8) (hf : (Slice.mk bs sp).Fits) :
    ReadWay ⟨bs, sp⟩ = .ok w := by
  obtain ⟨fs, h1, h2, h3, e1, e2, e3, e4⟩ := h
  have := forNext_of_runs (body := wayBody) hf (way_runs h1 h2 (w := w)
    (fun p hp => by rw [← once_item h3 (by simp) hp]; exact e2) (fun p hp => by rw [← once_item h3 (by simp) hp]; exact e3)
    (fun p hp => by rw [← once_item h3 (by simp) hp]; exact e4) Way.zero)
  unfold Way.zero at this
  dsimp only at this
  rw [whole_packedU32 e2, whole_packedU32 e3, whole_packedDelta e4, show (0 : Int64) = Int64.ofNat 0 from rfl, lastOf_scalar,
    ← e1] at this
  exact this

/-! ### Relation -/

theorem relation_number_id (w : Relation) (v : Nat) : TakesNumber relationBody 1 v w { w with ID := Int64.ofNat v } := by
  intro buf n m j hd hv
  unfold relationBody DecodeI64
  rw [hd]
  simp only [Res.ok_bind, if_true]
  rw [hv]; rfl

theorem relation_takes_keys {p : List UInt8} {ks : List UInt32} (hp : PackedU32 p ks) (w : Relation) :
    TakesSection relationBody 2 p w { w with Keys := ks } := by
  intro buf n m enc rest hd hs
  unfold relationBody
  rw [hd]
  simp only [Res.ok_bind]
  rw [if_neg (by decide), if_pos (by trivial), decodeU32Packed_of hp hs]; rfl

theorem relation_takes_vals {p : List UInt8} {ks : List UInt32} (hp : PackedU32 p ks) (w : Relation) :
    TakesSection relationBody 3 p w { w with Vals := ks } := by
  intro buf n m enc rest hd hs
  unfold relationBody
  rw [hd]
  simp only [Res.ok_bind]
  rw [if_neg (by decide), if_neg (by decide), if_pos (by trivial), decodeU32Packed_of hp hs]; rfl

theorem relation_takes_info (p : List UInt8) (w : Relation) : TakesSection relationBody 4 p w w := by
  intro buf n m enc rest hd hs
  unfold relationBody
  rw [hd]
  simp only [Res.ok_bind]
  rw [if_neg (by decide), if_neg (by decide), if_neg (by decide), if_pos (by trivial), section_skip hs]; rfl

theorem relation_takes_roles {p : List UInt8} {ks : List Int32} (hp : PackedI32 p ks) (w : Relation) :
    TakesSection relationBody 8 p w { w with RolesSID := ks } := by
  intro buf n m enc rest hd hs
  unfold relationBody
  rw [hd]
  simp only [Res.ok_bind]
  rw [if_neg (by decide), if_neg (by decide), if_neg (by decide), if_neg (by decide), if_pos (by trivial),
    decodeI32Packed_of hp hs]; rfl

theorem relation_takes_memIDs {p : List UInt8} {ks : List Int64} (hp : PackedDelta p ks) (w : Relation) :
    TakesSection relationBody 9 p w { w with MemIDs := ks } := by
  intro buf n m enc rest hd hs
  unfold relationBody
  rw [hd]
  simp only [Res.ok_bind]
  rw [if_neg (by decide), if_neg (by decide), if_neg (by decide), if_neg (by decide), if_neg (by decide), if_pos (by trivial),
    decodeS64PackedDelta_of hp hs]; rfl

theorem relation_takes_types {p : List UInt8} {ks : List UInt64} (hp : PackedEnum p ks) (w : Relation) :
    TakesSection relationBody 10 p w { w with MemberType := ks } := by
  intro buf n m enc rest hd hs
  unfold relationBody
  rw [hd]
  simp only [Res.ok_bind]
  rw [if_neg (by decide), if_neg (by decide), if_neg (by decide), if_neg (by decide), if_neg (by decide), if_neg (by decide),
    if_pos (by trivial), decodeU64Packed_of hp hs]; rfl

theorem relation_runs {bs : List UInt8} {fs : List Field} (h : IsMessage bs fs) (ho : Only [1] [2, 3, 4, 8, 9, 10] fs)
    {w : Relation} (h2 : ∀ p ∈ items 2 fs, PackedU32 p w.Keys) (h3 : ∀ p ∈ items 3 fs, PackedU32 p w.Vals)
    (h8 : ∀ p ∈ items 8 fs, PackedI32 p w.RolesSID) (h9 : ∀ p ∈ items 9 fs, PackedDelta p w.MemIDs)
    (h10 : ∀ p ∈ items 10 fs, PackedEnum p w.MemberType) (s : Relation) :
    Runs relationBody bs s ⟨lastOf Int64.ofNat s.ID (nums 1 fs), whole (items 2 fs) s.Keys w.Keys,
      whole (items 3 fs) s.Vals w.Vals, whole (items 8 fs) s.RolesSID w.RolesSID,
      whole (items 9 fs) s.MemIDs w.MemIDs, whole (items 10 fs) s.MemberType w.MemberType⟩ := by
  induction h generalizing s with
  | nil => simpa [items, nums, lastOf_nil, whole_nil] using runs_nil _ _
  | @cons bs rest f fs hf _ ih =>
    obtain ⟨k, v⟩ := f
    cases v with
    | num n =>
      obtain ⟨h1, ho'⟩ := only_num ho
      simp only [List.mem_singleton] at h1
      subst h1
      simp only [items_num] at h2 h3 h8 h9 h10 ⊢
      refine runs_append (runs_num (id := 1) (by decide) hf (relation_number_id s n)) ?_
      have := ih ho' h2 h3 h8 h9 h10 { s with ID := Int64.ofNat n }
      simpa [nums_num, lastOf_cons] using this
    | bytes b =>
      obtain ⟨h1, ho'⟩ := only_bytes ho
      simp only [List.mem_cons, List.not_mem_nil, or_false] at h1
      rcases h1 with rfl | rfl | rfl | rfl | rfl | rfl <;>
        simp only [nums_bytes, items_bytes, List.mem_cons, reduceIte, Nat.reduceEqDiff, forall_eq_or_imp, whole_cons]
          at h2 h3 h8 h9 h10 ⊢
      · refine runs_append (runs_bytes (id := 2) (by decide) hf (relation_takes_keys h2.1 s)) ?_
        simpa [whole_same] using ih ho' h2.2 h3 h8 h9 h10 { s with Keys := w.Keys }
      · refine runs_append (runs_bytes (id := 3) (by decide) hf (relation_takes_vals h3.1 s)) ?_
        simpa [whole_same] using ih ho' h2 h3.2 h8 h9 h10 { s with Vals := w.Vals }
      · refine runs_append (runs_bytes (id := 4) (by decide) hf (relation_takes_info b s)) ?_
        simpa [whole_same] using ih ho' h2 h3 h8 h9 h10 s
      · refine runs_append (runs_bytes (id := 8) (by decide) hf (relation_takes_roles h8.1 s)) ?_
        simpa [whole_same] using ih ho' h2 h3 h8.2 h9 h10 { s with RolesSID := w.RolesSID }
      · refine runs_append (runs_bytes (id := 9) (by decide) hf (relation_takes_memIDs h9.1 s)) ?_
        simpa [whole_same] using ih ho' h2 h3 h8 h9.2 h10 { s with MemIDs := w.MemIDs }
      · refine runs_append (runs_bytes (id := 10) (by decide) hf (relation_takes_types h10.1 s)) ?_
        simpa [whole_same] using ih ho' h2 h3 h8 h9 h10.2 { s with MemberType := w.MemberType }

theorem read_relation {bs : List UInt8} {w : Relation} (h : IsRelation bs w) (sp : List UInt8) (hf : (Slice.mk bs sp).Fits) :
    ReadRelation ⟨bs, sp⟩ = .ok w := by
  obtain ⟨fs, h1, h2, h3, e1, e2, e3, e4, e5, e6⟩ := h
  have := forNext_of_runs (body := relationBody) hf (relation_runs h1 h2 (w := w)
    (fun p hp => by rw [← once_item h3 (by simp) hp]; exact e2) (fun p hp => by rw [← once_item h3 (by simp) hp]; exact e3)
    (fun p hp => by rw [← once_item h3 (by simp) hp]; exact e4) (fun p hp => by rw [← once_item h3 (by simp) hp]; exact e5)
    (fun p hp => by rw [← once_item h3 (by simp) hp]; exact e6) Relation.zero)
  unfold Relation.zero at this
  dsimp only at this
  rw [whole_packedU32 e2, whole_packedU32 e3, whole_packedI32 e4, whole_packedDelta e5, whole_packedEnum e6,
    show (0 : Int64) = Int64.ofNat 0 from rfl, lastOf_scalar, ← e1] at this
  exact this

/-! ### Dense nodes -/

theorem dense_takes_id {p : List UInt8} {ks : List Int64} (hp : PackedDelta p ks) (w : DenseNodes) :
    TakesSection denseBody 1 p w { w with Id := ks } := by
  intro buf n m enc rest hd hs
  unfold denseBody
  rw [hd]
  simp only [Res.ok_bind]
  rw [if_pos (by trivial), decodeS64PackedDelta_of hp hs]; rfl

theorem dense_takes_info (p : List UInt8) (w : DenseNodes) : TakesSection denseBody 5 p w w := by
  intro buf n m enc rest hd hs
  unfold denseBody
  rw [hd]
  simp only [Res.ok_bind]
  rw [if_neg (by decide), if_pos (by trivial), section_skip hs]; rfl

theorem dense_takes_lat {p : List UInt8} {ks : List Int64} (hp : PackedDelta p ks) (w : DenseNodes) :
    TakesSection denseBody 8 p w { w with Lat := ks } := by
  intro buf n m enc rest hd hs
  unfold denseBody
  rw [hd]
  simp only [Res.ok_bind]
  rw [if_neg (by decide), if_neg (by decide), if_pos (by trivial), decodeS64PackedDelta_of hp hs]; rfl

theorem dense_takes_lon {p : List UInt8} {ks : List Int64} (hp : PackedDelta p ks) (w : DenseNodes) :
    TakesSection denseBody 9 p w { w with Lon := ks } := by
  intro buf n m enc rest hd hs
  unfold denseBody
  rw [hd]
  simp only [Res.ok_bind]
  rw [if_neg (by decide), if_neg (by decide), if_neg (by decide), if_pos (by trivial), decodeS64PackedDelta_of hp hs]; rfl

theorem dense_takes_keyVals {p : List UInt8} {ks : List Int32} (hp : PackedI32 p ks) (w : DenseNodes) :
    TakesSection denseBody 10 p w { w with KeyVals := ks } := by
  intro buf n m enc rest hd hs
  unfold denseBody
  rw [hd]
  simp only [Res.ok_bind]
  rw [if_neg (by decide), if_neg (by decide), if_neg (by decide), if_neg (by decide), if_pos (by trivial),
    decodeI32Packed_of hp hs]; rfl

theorem dense_runs {bs : List UInt8} {fs : List Field} (h : IsMessage bs fs) (ho : Only [] [1, 5, 8, 9, 10] fs)
    {w : DenseNodes} (h1 : ∀ p ∈ items 1 fs, PackedDelta p w.Id) (h8 : ∀ p ∈ items 8 fs, PackedDelta p w.Lat)
    (h9 : ∀ p ∈ items 9 fs, PackedDelta p w.Lon) (h10 : ∀ p ∈ items 10 fs, PackedI32 p w.KeyVals) (s : DenseNodes) :
    Runs denseBody bs s ⟨whole (items 1 fs) s.Id w.Id, whole (items 8 fs) s.Lat w.Lat, whole (items 9 fs) s.Lon w.Lon,
      whole (items 10 fs) s.KeyVals w.KeyVals⟩ := by
  induction h generalizing s with
  | nil => simpa [items, nums, lastOf_nil, whole_nil] using runs_nil _ _
  | @cons bs rest f fs hf _ ih =>
    obtain ⟨k, v⟩ := f
    cases v with
    | num n => obtain ⟨h, _⟩ := only_num ho; cases h
    | bytes b =>
      obtain ⟨h, ho'⟩ := only_bytes ho
      simp only [List.mem_cons, List.not_mem_nil, or_false] at h
      rcases h with rfl | rfl | rfl | rfl | rfl <;>
        simp only [items_bytes, List.mem_cons, reduceIte, Nat.reduceEqDiff, forall_eq_or_imp, whole_cons]
          at h1 h8 h9 h10 ⊢
      · refine runs_append (runs_bytes (id := 1) (by decide) hf (dense_takes_id h1.1 s)) ?_
        simpa [whole_same] using ih ho' h1.2 h8 h9 h10 { s with Id := w.Id }
      · refine runs_append (runs_bytes (id := 5) (by decide) hf (dense_takes_info b s)) ?_
        simpa [whole_same] using ih ho' h1 h8 h9 h10 s
      · refine runs_append (runs_bytes (id := 8) (by decide) hf (dense_takes_lat h8.1 s)) ?_
        simpa [whole_same] using ih ho' h1 h8.2 h9 h10 { s with Lat := w.Lat }
      · refine runs_append (runs_bytes (id := 9) (by decide) hf (dense_takes_lon h9.1 s)) ?_
        simpa [whole_same] using ih ho' h1 h8 h9.2 h10 { s with Lon := w.Lon }
      · refine runs_append (runs_bytes (id := 10) (by decide) hf (dense_takes_keyVals h10.1 s)) ?_
        simpa [whole_same] using ih ho' h1 h8 h9 h10.2 { s with KeyVals := w.KeyVals }

theorem read_dense {bs : List UInt8} {w : DenseNodes} (h : IsDense bs w) (sp : List UInt8) (hf : (Slice.mk bs sp).Fits) :
    ReadDenseNodes ⟨bs, sp⟩ = .ok w := by
  obtain ⟨fs, h1, h2, h3, e2, e3, e4, e5⟩ := h
  have := forNext_of_runs (body := denseBody) hf (dense_runs h1 h2 (w := w)
    (fun p hp => by rw [← once_item h3 (by simp) hp]; exact e2) (fun p hp => by rw [← once_item h3 (by simp) hp]; exact e3)
    (fun p hp => by rw [← once_item h3 (by simp) hp]; exact e4) (fun p hp => by rw [← once_item h3 (by simp) hp]; exact e5)
    DenseNodes.zero)
  unfold DenseNodes.zero at this
  dsimp only at this
  rw [whole_packedDelta e2, whole_packedDelta e3, whole_packedDelta e4, whole_packedI32 e5] at this
  exact this

end Osm.Format
