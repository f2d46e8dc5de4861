import Verif.Lemmas.FormatBlock
import Verif.Lemmas.Blob

/-! # Writing messages as the format has them -/

namespace Osm.Format
open Osm Osm.Spec Osm.Spec.Proto Osm.Spec.OsmFormat Osm.Pb Osm.T

/-! ### Fields and messages -/

theorem varint_leb128 {n : Nat} (h : n < 2 ^ 64) : Varint (leb128 n) n :=
  ⟨isVarint_leb128 n, leb128_length_le 10 n (by omega) (by omega), h⟩

theorem varint_u64 (v : UInt64) : Varint (leb128 v.toNat) v.toNat := varint_leb128 v.toNat_lt

theorem isField_var {id : UInt64} {k : Nat} (hk : (MakeIdType id PbVarInt).toNat = 8 * k + 0) (v : UInt64) :
    IsField (varField id v) (k, .num v.toNat) := by
  refine .num _ _ k _ ?_ (varint_u64 v)
  have := varint_u64 (MakeIdType id PbVarInt)
  unfold tagBytes
  rwa [hk] at this ⊢

theorem isField_fix {fix : Nat → List UInt8} {limit : Nat} (hvar : ∀ n, n < limit → IsVarint (fix n) n)
    (hshort : ∀ n, (fix n).length ≤ 10) (hl : limit ≤ 2 ^ 64) {id : UInt64} {k : Nat}
    (hk : (MakeIdType id PbFixedBytes).toNat = 8 * k + 2) {p : List UInt8} (hp : p.length < limit) :
    IsField (tagBytes id PbFixedBytes ++ fix p.length ++ p) (k, .bytes p) := by
  refine .bytes _ _ _ k ?_ ⟨hvar _ hp, hshort _, Nat.lt_of_lt_of_le hp hl⟩
  have := varint_u64 (MakeIdType id PbFixedBytes)
  unfold tagBytes
  rwa [hk] at this ⊢

theorem isField_fix2 {id : UInt64} {k : Nat} (hk : (MakeIdType id PbFixedBytes).toNat = 8 * k + 2) {p : List UInt8}
    (hp : p.length < 16384) : IsField (tagBytes id PbFixedBytes ++ fix2 p.length ++ p) (k, .bytes p) :=
  isField_fix (fun _ => isVarint_fix2) fix2_short (by decide) hk hp

theorem isField_fix3 {id : UInt64} {k : Nat} (hk : (MakeIdType id PbFixedBytes).toNat = 8 * k + 2) {p : List UInt8}
    (hp : p.length < 2097152) : IsField (tagBytes id PbFixedBytes ++ fix3 p.length ++ p) (k, .bytes p) :=
  isField_fix (fun _ => isVarint_fix3) fix3_short (by decide) hk hp

theorem isField_fix4 {id : UInt64} {k : Nat} (hk : (MakeIdType id PbFixedBytes).toNat = 8 * k + 2) {p : List UInt8}
    (hp : p.length < 268435456) : IsField (tagBytes id PbFixedBytes ++ fix4 p.length ++ p) (k, .bytes p) :=
  isField_fix (fun _ => isVarint_fix4) fix4_short (by decide) hk hp

theorem isField_buf {id : UInt64} {k : Nat} (hk : (MakeIdType id PbFixedBytes).toNat = 8 * k + 2) {p : List UInt8}
    (hp : p.length < 2 ^ 63) : IsField (bufField id p) (k, .bytes p) := by
  unfold bufField tagBytes
  rw [hk]
  have h1 := varint_u64 (MakeIdType id PbFixedBytes)
  rw [hk] at h1
  have h2 : (UInt64.ofNat p.length).toNat = p.length := UInt64.toNat_ofNat_of_lt' (by simp [UInt64.size]; omega)
  rw [h2]
  exact .bytes _ _ _ k h1 (varint_leb128 (by omega))

theorem isMessage_one {bs : List UInt8} {f : Field} (h : IsField bs f) : IsMessage bs [f] := by
  simpa using IsMessage.cons h .nil

theorem isMessage_append {a b : List UInt8} {fs gs : List Field} (h : IsMessage a fs) (h' : IsMessage b gs) :
    IsMessage (a ++ b) (fs ++ gs) := by
  induction h with
  | nil => simpa using h'
  | cons hf _ ih => rw [List.append_assoc]; exact .cons hf ih

theorem isMessage_flatMap {α : Type} {f : α → List UInt8} {k : Nat} {g : α → List UInt8} (xs : List α)
    (h : ∀ x ∈ xs, IsField (f x) (k, .bytes (g x))) :
    IsMessage (xs.flatMap f) (xs.map fun x => (k, .bytes (g x))) := by
  induction xs with
  | nil => exact .nil
  | cons x xs ih => exact .cons (h x (by simp)) (ih fun y hy => h y (by simp [hy]))

theorem isMessage_optConcat {α β : Type} {f : α → Option (List UInt8)} {R : List UInt8 → β → Prop} {conv : α → β} {k : Nat}
    (xs : List α) {p : List UInt8}
    (h : ∀ x ∈ xs, ∀ p, f x = some p → ∃ c, IsField p (k, .bytes c) ∧ R c (conv x)) (hp : optConcat f xs = some p) :
    ∃ cs : List (List UInt8), IsMessage p (cs.map fun c => (k, .bytes c)) ∧ Matches R cs (xs.map conv) := by
  induction xs generalizing p with
  | nil => simp [optConcat] at hp; subst hp; exact ⟨[], .nil, .nil⟩
  | cons x xs ih =>
    simp only [optConcat, optApp_eq_some] at hp
    obtain ⟨p1, p2, h1, h2, rfl⟩ := hp
    obtain ⟨c, h3, h4⟩ := h x (by simp) p1 h1
    obtain ⟨cs, h5, h6⟩ := ih (fun y hy => h y (by simp [hy])) h2
    exact ⟨c :: cs, .cons h3 h5, .cons h4 h6⟩

/-! ### Packed lists -/

theorem isPacked_flatMap {α : Type} (enc : α → UInt64) (vs : List α) :
    IsPacked (vs.flatMap fun v => leb128 (enc v).toNat) (vs.map fun v => (enc v).toNat) := by
  induction vs with
  | nil => exact .nil
  | cons v vs ih => exact .cons (varint_u64 _) ih

theorem packedU32_payload (vs : List UInt32) : PackedU32 (u32Payload vs) vs := by
  refine ⟨_, isPacked_flatMap (fun v : UInt32 => v.toUInt64) vs, ?_⟩
  rw [List.map_map]
  conv => lhs; rw [← List.map_id vs]
  apply List.map_congr_left
  intro v _
  simp

theorem packedI32_payload (vs : List Int32) : PackedI32 (i32Payload vs) vs := by
  refine ⟨_, isPacked_flatMap (fun v : Int32 => v.toInt64.toUInt64) vs, ?_⟩
  rw [List.map_map]
  conv => lhs; rw [← List.map_id vs]
  apply List.map_congr_left
  intro v _
  simp only [Function.comp, id]
  rw [← toInt32_ofNat]
  simp

theorem packedEnum_payload (vs : List UInt64) : PackedEnum (u64Payload vs) vs := by
  refine ⟨_, isPacked_flatMap (fun v : UInt64 => v) vs, ?_⟩
  rw [List.map_map]
  conv => lhs; rw [← List.map_id vs]
  apply List.map_congr_left
  intro v _
  simp

theorem unzigzag_zigzag (x : Int) : unzigzag (zigzag x) = x := by
  unfold unzigzag zigzag
  split <;> split <;> omega

theorem packedDelta_from (last : Int64) (l : Int) (hl : Int64.ofInt l = last) (vs : List Int64) :
    ∃ ns, IsPacked (deltaVarints last vs) ns ∧ vs = (sums l (ns.map unzigzag)).map Int64.ofInt := by
  induction vs generalizing last l with
  | nil => exact ⟨[], .nil, rfl⟩
  | cons v vs ih =>
    have e : Int64.ofInt (l + (v - last).toInt) = v := by
      rw [Int64.ofInt_add, hl, Int64.ofInt_toInt]; exact int64_add_sub last v
    obtain ⟨ns, h1, h2⟩ := ih v (l + (v - last).toInt) e
    refine ⟨(EncodeZigZag (v - last)).toNat :: ns, .cons (varint_u64 _) h1, ?_⟩
    rw [List.map_cons, encodeZigZag_toNat, unzigzag_zigzag]
    unfold sums
    rw [List.map_cons, e, ← h2]

theorem packedDelta_payload (vs : List Int64) : PackedDelta (deltaVarints 0 vs) vs := packedDelta_from 0 0 rfl vs

/-! ### Messages -/

theorem ofNat_toUInt64 (v : Int64) : Int64.ofNat v.toUInt64.toNat = v := by
  rw [← UInt64.toInt64_ofNat']
  simp

theorem ofNat_toInt32 (v : Int32) : Int32.ofNat v.toInt64.toUInt64.toNat = v := by
  rw [← toInt32_ofNat]
  simp

theorem length_flatMap_mem {α : Type} (f : α → List UInt8) {x : α} {xs : List α} (h : x ∈ xs) :
    (f x).length ≤ (xs.flatMap f).length := by
  induction xs with
  | nil => cases h
  | cons y ys ih =>
    rw [List.flatMap_cons, List.length_append]
    rcases List.mem_cons.1 h with rfl | h
    · omega
    · have := ih h; omega

theorem items_map (k : Nat) (xs : List (List UInt8)) : items k (xs.map fun s => (k, .bytes s)) = xs := by
  induction xs with
  | nil => rfl
  | cons x xs ih => rw [List.map_cons, items_bytes, if_pos rfl, ih]

theorem items_map_other {k j : Nat} (h : j ≠ k) (xs : List (List UInt8)) :
    items k (xs.map fun s => (j, .bytes s)) = [] := by
  induction xs with
  | nil => rfl
  | cons x xs ih => rw [List.map_cons, items_bytes, if_neg h, ih]

theorem write_stringTable (st : StringTable) (h : (stringTableBytes st).length < 2 ^ 63) :
    IsStringTable (stringTableBytes st) st := by
  refine ⟨st.S.map fun s => (1, .bytes s), ?_, ?_, ?_⟩
  · refine isMessage_flatMap (g := fun s => s) st.S ?_
    intro s hs
    refine isField_buf (by decide) ?_
    have : (bufField 1 s).length ≤ (stringTableBytes st).length := by
      unfold stringTableBytes
      exact length_flatMap_mem (fun s => bufField 1 s) hs
    have h2 : s.length ≤ (bufField 1 s).length := by simp [bufField]; omega
    omega
  · intro f hf
    simp only [List.mem_map] at hf
    obtain ⟨s, _, rfl⟩ := hf
    simp
  · exact (items_map 1 st.S).symm

theorem write_way (w : Way) {p : List UInt8} (hw : wayBytes w = some p) : IsWay p w := by
  simp only [wayBytes, optApp_eq_some, optField_eq_some, Option.some.injEq] at hw
  obtain ⟨_, _, rfl, ⟨_, _, ⟨_, rfl, h2, rfl⟩, ⟨_, _, ⟨_, rfl, h3, rfl⟩, ⟨_, rfl, h4, rfl⟩, rfl⟩, rfl⟩,
    rfl⟩ := hw
  refine ⟨_, .cons (isField_var (k := 1) (by decide) _) (.cons (isField_fix2 (k := 2) (by decide) h2)
    (.cons (isField_fix2 (k := 3) (by decide) h3) (isMessage_one (isField_fix2 (k := 8) (by decide) h4)))), ?_, ?_, ?_, ?_, ?_, ?_⟩
  · intro f hf; simp at hf; rcases hf with rfl | rfl | rfl | rfl <;> simp
  · intro k hk; simp at hk; rcases hk with rfl | rfl | rfl <;> simp [items]
  · simp [scalar, nums, ofNat_toUInt64]
  · simpa [packed, items] using packedU32_payload w.Keys
  · simpa [packed, items] using packedU32_payload w.Vals
  · simpa [packed, items] using packedDelta_payload w.Refs

theorem write_relation (r : Relation) {p : List UInt8} (hw : relationBytes r = some p) : IsRelation p r := by
  simp only [relationBytes, optApp_eq_some, optField_eq_some, Option.some.injEq] at hw
  obtain ⟨_, _, rfl, ⟨_, _, ⟨_, rfl, h2, rfl⟩, ⟨_, _, ⟨_, rfl, h3, rfl⟩, ⟨_, _, ⟨_, rfl, h4, rfl⟩, ⟨_, _, ⟨_, rfl, h5, rfl⟩,
    ⟨_, rfl, h6, rfl⟩, rfl⟩, rfl⟩, rfl⟩, rfl⟩, rfl⟩ := hw
  refine ⟨_, .cons (isField_var (k := 1) (by decide) _) (.cons (isField_fix2 (k := 2) (by decide) h2)
    (.cons (isField_fix2 (k := 3) (by decide) h3) (.cons (isField_fix3 (k := 8) (by decide) h4)
    (.cons (isField_fix3 (k := 9) (by decide) h5) (isMessage_one (isField_fix3 (k := 10) (by decide) h6)))))),
    ?_, ?_, ?_, ?_, ?_, ?_, ?_, ?_⟩
  · intro f hf; simp at hf; rcases hf with rfl | rfl | rfl | rfl | rfl | rfl <;> simp
  · intro k hk; simp at hk; rcases hk with rfl | rfl | rfl | rfl | rfl <;> simp [items]
  · simp [scalar, nums, ofNat_toUInt64]
  · simpa [packed, items] using packedU32_payload r.Keys
  · simpa [packed, items] using packedU32_payload r.Vals
  · simpa [packed, items] using packedI32_payload r.RolesSID
  · simpa [packed, items] using packedDelta_payload r.MemIDs
  · simpa [packed, items] using packedEnum_payload r.MemberType

theorem write_dense (dn : DenseNodes) {p : List UInt8} (hw : denseBytes dn = some p) : IsDense p dn := by
  simp only [denseBytes, optApp_eq_some, optField_eq_some, Option.some.injEq] at hw
  obtain ⟨_, _, ⟨_, rfl, h1, rfl⟩, ⟨_, _, ⟨_, rfl, h2, rfl⟩, ⟨_, q, ⟨_, rfl, h3, rfl⟩, hq, rfl⟩, rfl⟩, rfl⟩ := hw
  have hq' : ∃ gs, IsMessage q gs ∧ Only [] [10] gs ∧ (items 10 gs).length ≤ 1 ∧ PackedI32 (packed 10 gs) dn.KeyVals := by
    split at hq
    · simp only [optField_eq_some, Option.some.injEq] at hq
      obtain ⟨_, rfl, h4, rfl⟩ := hq
      refine ⟨_, isMessage_one (isField_fix4 (k := 10) (by decide) h4), ?_, by simp [items], ?_⟩
      · intro f hf; simp at hf; subst hf; simp
      · simpa [packed, items] using packedI32_payload dn.KeyVals
    · rename_i h
      simp at hq h
      subst hq
      rw [h]
      exact ⟨[], .nil, (by intro f hf; simp at hf), by simp [items], ⟨[], .nil, rfl⟩⟩
  obtain ⟨gs, g1, g2, g3, g4⟩ := hq'
  have e : ∀ k, k ≠ 10 → items k gs = [] := by
    intro k hk
    unfold items
    rw [List.filterMap_eq_nil_iff]
    intro f hf
    have := g2 f hf
    match f, this with
    | (j, .bytes b), this => simp at this ⊢; omega
    | (j, .num n), this => simp
  have i : ∀ k j b (fs : List Field), items k ((j, .bytes b) :: fs) = if j = k then b :: items k fs else items k fs := items_bytes
  refine ⟨_, .cons (isField_fix3 (k := 1) (by decide) h1) (.cons (isField_fix3 (k := 8) (by decide) h2)
    (.cons (isField_fix3 (k := 9) (by decide) h3) g1)), ?_, ?_, ?_, ?_, ?_, ?_⟩
  · intro f hf
    simp at hf
    rcases hf with rfl | rfl | rfl | hf
    · simp
    · simp
    · simp
    · have := g2 f hf
      match f, this with
      | (j, .bytes b), this => simp at this ⊢; omega
      | (j, .num n), this => simp at this
  · intro k hk; simp at hk; rcases hk with rfl | rfl | rfl | rfl <;> simp [i, e, g3]
  · simpa [packed, i, e] using packedDelta_payload dn.Id
  · simpa [packed, i, e] using packedDelta_payload dn.Lat
  · simpa [packed, i, e] using packedDelta_payload dn.Lon
  · simpa [packed, i, e] using g4

/-! ### Groups and blocks -/

theorem isMessage_raws {k : Nat} {id : UInt64} (hk : (MakeIdType id PbFixedBytes).toNat = 8 * k + 2) (xs : List Slice)
    (h : (xs.flatMap fun w => bufField id w.bytes).length < 2 ^ 63) :
    IsMessage (xs.flatMap fun w => bufField id w.bytes) ((xs.map (·.bytes)).map fun c => (k, .bytes c)) := by
  rw [List.map_map]
  refine isMessage_flatMap (g := fun w : Slice => w.bytes) xs ?_
  intro w hw
  refine isField_buf hk ?_
  have := length_flatMap_mem (fun w : Slice => bufField id w.bytes) hw
  have h2 : w.bytes.length ≤ (bufField id w.bytes).length := by simp [bufField]; omega
  omega

theorem items_append (k : Nat) (fs gs : List Field) : items k (fs ++ gs) = items k fs ++ items k gs := List.filterMap_append
theorem nums_append (k : Nat) (fs gs : List Field) : nums k (fs ++ gs) = nums k fs ++ nums k gs := List.filterMap_append

theorem nums_map (k j : Nat) (xs : List (List UInt8)) : nums k (xs.map fun s => (j, .bytes s)) = [] := by
  induction xs with
  | nil => rfl
  | cons x xs ih => rw [List.map_cons, nums_bytes, ih]

variable {o : PBReader}

theorem write_group {g c : T.PrimitiveGroup} (h : ShowsGroup o g c) {p : List UInt8} (hp : groupBytes g = some p)
    (hl : p.length < 2 ^ 63) : IsGroup p c := by
  unfold groupBytes at hp
  simp only [optApp_eq_some] at hp
  obtain ⟨p1, _, h1, ⟨p2, p3, h2, h3, rfl⟩, rfl⟩ := hp
  simp only [List.length_append] at hl
  have d : ∃ cs : List (List UInt8), IsMessage p1 (cs.map fun c => (2, .bytes c)) ∧ Matches IsDense cs c.Dense.toList := by
    have := h.dense
    split at this
    · obtain ⟨a1, a2⟩ := this
      rw [a1] at h1
      refine ⟨_, ?_, a2⟩
      cases hr : g.RawDense with
      | none => rw [hr] at h1; simp at h1; subst h1; exact .nil
      | some raw =>
        rw [hr] at h1
        simp at h1
        subst h1
        refine isMessage_one (isField_buf (by decide) ?_)
        have : raw.bytes.length ≤ (bufField 2 raw.bytes).length := by simp [bufField]; omega
        omega
    · obtain ⟨a1, a2⟩ := this
      rw [a1, a2] at h1
      cases hr : c.Dense with
      | none => rw [hr] at h1; simp at h1; subst h1; exact ⟨[], .nil, .nil⟩
      | some dn =>
        rw [hr] at h1
        simp only [optField_eq_some] at h1
        obtain ⟨q, b1, b2, rfl⟩ := h1
        exact ⟨[q], isMessage_one (isField_fix4 (by decide) b2), .cons (write_dense dn b1) .nil⟩
  have w : ∃ cs : List (List UInt8), IsMessage p2 (cs.map fun c => (3, .bytes c)) ∧ Matches IsWay cs c.Ways := by
    have := h.ways
    split at this
    · obtain ⟨a1, a2⟩ := this
      rw [a1] at h2
      simp at h2
      subst h2
      exact ⟨_, isMessage_raws (by decide) _ (by omega), a2⟩
    · obtain ⟨a1, a2⟩ := this
      rw [a1, a2] at h2
      split at h2
      · have := isMessage_optConcat (R := IsWay) (conv := fun w => w) (k := 3) c.Ways (p := p2) (fun w _ q hq => by
          simp only [optField_eq_some] at hq
          obtain ⟨q, b1, b2, rfl⟩ := hq
          exact ⟨q, isField_fix2 (by decide) b2, write_way w b1⟩) h2
        simpa using this
      · rename_i hn
        simp at hn h2
        subst h2
        rw [hn]
        exact ⟨[], .nil, .nil⟩
  have r : ∃ cs : List (List UInt8), IsMessage p3 (cs.map fun c => (4, .bytes c)) ∧ Matches IsRelation cs c.Relations := by
    have := h.relations
    split at this
    · obtain ⟨a1, a2⟩ := this
      rw [a1] at h3
      simp at h3
      subst h3
      exact ⟨_, isMessage_raws (by decide) _ (by omega), a2⟩
    · obtain ⟨a1, a2⟩ := this
      rw [a1, a2] at h3
      split at h3
      · have := isMessage_optConcat (R := IsRelation) (conv := fun w => w) (k := 4) c.Relations (p := p3) (fun w _ q hq => by
          simp only [optField_eq_some] at hq
          obtain ⟨q, b1, b2, rfl⟩ := hq
          exact ⟨q, isField_fix3 (by decide) b2, write_relation w b1⟩) h3
        simpa using this
      · rename_i hn
        simp at hn h3
        subst h3
        rw [hn]
        exact ⟨[], .nil, .nil⟩
  obtain ⟨ds, d1, d2⟩ := d
  obtain ⟨ws, w1, w2⟩ := w
  obtain ⟨rs, r1, r2⟩ := r
  refine ⟨_, isMessage_append d1 (isMessage_append w1 r1), ?_, ?_, ?_, ?_, h.full⟩
  · intro f hf
    simp only [List.mem_append, List.mem_map] at hf
    rcases hf with ⟨_, _, rfl⟩ | ⟨_, _, rfl⟩ | ⟨_, _, rfl⟩ <;> simp
  · simpa [items_append, items_map, items_map_other] using d2
  · simpa [items_append, items_map, items_map_other] using w2
  · simpa [items_append, items_map, items_map_other] using r2

theorem isMessage_tail (c : Bool) {id : UInt64} {k : Nat} (hk : (MakeIdType id PbVarInt).toNat = 8 * k + 0) (v : UInt64) :
    IsMessage (if c then varField id v else []) (if c then [(k, .num v.toNat)] else []) := by
  cases c
  · exact .nil
  · exact isMessage_one (isField_var hk v)

theorem write_groups {gs cs : List T.PrimitiveGroup} (h : Matches (ShowsGroup o) gs cs) {p : List UInt8}
    (hp : optConcat (fun g => optField fix4 268435456 2 (groupBytes g)) gs = some p) :
    ∃ qs : List (List UInt8), IsMessage p (qs.map fun c => (2, .bytes c)) ∧ Matches IsGroup qs cs := by
  induction h generalizing p with
  | nil => simp [optConcat] at hp; subst hp; exact ⟨[], .nil, .nil⟩
  | cons hg _ ih =>
    simp only [optConcat, optApp_eq_some, optField_eq_some] at hp
    obtain ⟨_, p2, ⟨q, h1, h2, rfl⟩, h3, rfl⟩ := hp
    obtain ⟨qs, h4, h5⟩ := ih h3
    exact ⟨q :: qs, .cons (isField_fix4 (by decide) h2) h4, .cons (write_group hg h1 (by omega)) h5⟩

theorem write_block {b c : PrimitiveBlock} (h : ShowsBlock o b c) {p : List UInt8} (hp : blockBytes b = some p)
    (hl : p.length < 2 ^ 63) : IsBlock p c := by
  unfold blockBytes at hp
  simp only [optApp_eq_some] at hp
  obtain ⟨p1, _, h1, ⟨p2, p3, h2, h3, rfl⟩, rfl⟩ := hp
  simp only [List.length_append] at hl
  have d : ∃ cs : List (List UInt8), IsMessage p1 (cs.map fun c => (1, .bytes c)) ∧
      Matches IsStringTable cs c.StringTable.toList := by
    have := h.table
    split at this
    · obtain ⟨a1, a2⟩ := this
      rw [a1] at h1
      refine ⟨_, ?_, a2⟩
      cases hr : b.StringTableRaw with
      | none => rw [hr] at h1; simp at h1; subst h1; exact .nil
      | some raw =>
        rw [hr] at h1
        simp at h1
        subst h1
        refine isMessage_one (isField_buf (by decide) ?_)
        have : raw.bytes.length ≤ (bufField 1 raw.bytes).length := by simp [bufField]; omega
        omega
    · obtain ⟨a1, a2⟩ := this
      rw [a1, a2] at h1
      cases hr : c.StringTable with
      | none => rw [hr] at h1; simp at h1; subst h1; exact ⟨[], .nil, .nil⟩
      | some st =>
        rw [hr] at h1
        simp only [optField_eq_some, Option.some.injEq] at h1
        obtain ⟨q, rfl, b2, rfl⟩ := h1
        exact ⟨[_], isMessage_one (isField_fix4 (by decide) b2), .cons (write_stringTable st (by omega)) .nil⟩
  obtain ⟨ss, s1, s2⟩ := d
  obtain ⟨gs, g1, g2⟩ := write_groups h.groups h2
  simp only [Option.some.injEq] at h3
  subst h3
  obtain ⟨n1, n2, n3, n4⟩ := h.numbers
  have t : IsMessage (blockTail b) ((if b.Granularity ≠ 100 then [(17, .num b.Granularity.toInt64.toUInt64.toNat)] else []) ++
      ((if b.DateGranularity ≠ 1000 then [(18, .num b.DateGranularity.toInt64.toUInt64.toNat)] else []) ++
      ((if b.LatOffset ≠ 0 then [(19, .num b.LatOffset.toUInt64.toNat)] else []) ++
      (if b.LonOffset ≠ 0 then [(20, .num b.LonOffset.toUInt64.toNat)] else [])))) := by
    unfold blockTail
    refine isMessage_append ?_ (isMessage_append ?_ (isMessage_append ?_ ?_))
    · simpa using isMessage_tail (decide (b.Granularity ≠ 100)) (id := 17) (k := 17) (by decide) b.Granularity.toInt64.toUInt64
    · simpa using isMessage_tail (decide (b.DateGranularity ≠ 1000)) (id := 18) (k := 18) (by decide)
        b.DateGranularity.toInt64.toUInt64
    · simpa using isMessage_tail (decide (b.LatOffset ≠ 0)) (id := 19) (k := 19) (by decide) b.LatOffset.toUInt64
    · simpa using isMessage_tail (decide (b.LonOffset ≠ 0)) (id := 20) (k := 20) (by decide) b.LonOffset.toUInt64
  refine ⟨_, isMessage_append s1 (isMessage_append g1 t), ?_, ?_, ?_, ?_, ?_, ?_, ?_, h.full⟩
  · intro f hf
    simp only [List.mem_append, List.mem_map] at hf
    rcases hf with ⟨_, _, rfl⟩ | ⟨_, _, rfl⟩ | hf | hf | hf | hf
    · simp
    · simp
    all_goals
      split at hf
      · simp at hf; subst hf; simp
      · simp at hf
  · simp only [items_append, items_map, items_map_other (show (2 : Nat) ≠ 1 by decide)]
    have e : ∀ (c : Prop) [Decidable c] j n, items 1 (if c then [((j, .num n) : Field)] else []) = [] := by
      intro c _ j n; split <;> rfl
    simp only [e]
    simpa using s2
  · simp only [items_append, items_map, items_map_other (show (1 : Nat) ≠ 2 by decide)]
    have e : ∀ (c : Prop) [Decidable c] j n, items 2 (if c then [((j, .num n) : Field)] else []) = [] := by
      intro c _ j n; split <;> rfl
    simp only [e]
    simpa using g2
  all_goals
    simp only [scalar, nums_append, nums_map, List.nil_append]
    have e : ∀ (k : Nat) (c : Prop) [Decidable c] j n, nums k (if c then [((j, .num n) : Field)] else []) =
        if c ∧ j = k then [n] else [] := by
      intro k c _ j n
      by_cases hc : c <;> by_cases hj : j = k <;> simp [hc, hj, nums]
    simp only [e]
  · by_cases hc : b.Granularity = 100
    · simp [hc, ← n1]
    · simp [hc, ← n1, ofNat_toInt32]
  · by_cases hc : b.DateGranularity = 1000
    · simp [hc, ← n2]
    · simp [hc, ← n2, ofNat_toInt32]
  · by_cases hc : b.LatOffset = 0
    · simp [hc, ← n3]
    · simp [hc, ← n3, ofNat_toUInt64]
  · by_cases hc : b.LonOffset = 0
    · simp [hc, ← n4]
    · simp [hc, ← n4, ofNat_toUInt64]

end Osm.Format
