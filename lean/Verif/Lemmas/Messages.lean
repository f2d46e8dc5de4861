import Verif.Lemmas.Emb

namespace Osm.T
open Osm Osm.Spec Osm.Pb

/-! ### Generic fields -/

section
variable {σ : Type} {body : Slice → Int → σ → Res (σ × Int)} {s s' : σ}

/-- What a loop body does with a length-prefixed field `id` of content `p`. -/
def TakesSection (body : Slice → Int → σ → Res (σ × Int)) (id : UInt64) (p : List UInt8)
    (s s' : σ) : Prop :=
  ∀ (buf : Slice) (n m : Nat) (enc rest : List UInt8),
    DecodeVarInt buf n = .ok (MakeIdType id PbFixedBytes, (m : Int)) → Section buf m enc p rest →
    body buf n s = .ok (s', (m + (enc ++ p).length : Nat))

theorem runs_fixField {fix : Nat → List UInt8} {limit : Nat}
    (hvar : ∀ n, n < limit → IsVarint (fix n) n) (hshort : ∀ n, (fix n).length ≤ 10)
    {id : UInt64} {p : List UInt8} (hp : p.length < limit) (h : TakesSection body id p s s') :
    Runs body (tagBytes id PbFixedBytes ++ fix p.length ++ p) s s' := by
  apply runs_step (by simp [tagBytes_ne_nil])
  intro buf n rest hb hd
  rw [h buf n _ (fix p.length) rest (decode_tag (rest := fix p.length ++ p ++ rest) (by simpa using hd))
    (section_fix hvar hshort hb hp hd)]
  simp [Nat.add_assoc]

theorem runs_fix2 {id : UInt64} {p : List UInt8} (hp : p.length < 16384)
    (h : TakesSection body id p s s') :
    Runs body (tagBytes id PbFixedBytes ++ fix2 p.length ++ p) s s' :=
  runs_fixField (fun _ => isVarint_fix2) fix2_short hp h

theorem runs_fix3 {id : UInt64} {p : List UInt8} (hp : p.length < 2097152)
    (h : TakesSection body id p s s') :
    Runs body (tagBytes id PbFixedBytes ++ fix3 p.length ++ p) s s' :=
  runs_fixField (fun _ => isVarint_fix3) fix3_short hp h

theorem runs_fix4 {id : UInt64} {p : List UInt8} (hp : p.length < 268435456)
    (h : TakesSection body id p s s') :
    Runs body (tagBytes id PbFixedBytes ++ fix4 p.length ++ p) s s' :=
  runs_fixField (fun _ => isVarint_fix4) fix4_short hp h

theorem runs_bufField {id : UInt64} {p : List UInt8} (h : TakesSection body id p s s') :
    Runs body (bufField id p) s s' := by
  apply runs_step (by simp [bufField, tagBytes_ne_nil])
  intro buf n rest hb hd
  obtain ⟨hs, he⟩ := section_buf hb hd
  rw [he] at hd ⊢
  rw [h buf n _ _ rest (decode_tag (rest := leb128 p.length ++ p ++ rest) (by simpa using hd)) hs]
  simp [Nat.add_assoc]

theorem runs_varField {id v : UInt64}
    (h : ∀ (buf : Slice) (n m : Nat) (rest : List UInt8),
      DecodeVarInt buf n = .ok (MakeIdType id PbVarInt, (m : Int)) →
      buf.bytes.drop m = leb128 v.toNat ++ rest →
      body buf n s = .ok (s', (m + (leb128 v.toNat).length : Nat))) :
    Runs body (varField id v) s s' := by
  apply runs_step (by simp [varField, tagBytes_ne_nil])
  intro buf n rest hb hd
  unfold varField at hd
  have hd' : buf.bytes.drop n = tagBytes id PbVarInt ++ (leb128 v.toNat ++ rest) := by simpa using hd
  rw [h buf n _ rest (decode_tag hd') (drop_tag hd')]
  simp [varField, Nat.add_assoc]

/-- Folding over a list of fields. -/
theorem runs_flatMap {α : Type} (f : α → List UInt8) (g : σ → α → σ) (xs : List α)
    (h : ∀ s, ∀ x ∈ xs, Runs body (f x) s (g s x)) (s : σ) :
    Runs body (xs.flatMap f) s (xs.foldl g s) := by
  induction xs generalizing s with
  | nil => exact runs_nil _ _
  | cons x xs ih =>
    rw [List.flatMap_cons, List.foldl_cons]
    exact runs_append (h s x (by simp)) (ih (fun s y hy => h s y (by simp [hy])) _)

theorem runs_optConcat {α : Type} (f : α → Option (List UInt8)) (g : σ → α → σ) (xs : List α)
    (h : ∀ s, ∀ x ∈ xs, ∀ p, f x = some p → Runs body p s (g s x)) (s : σ) (q : List UInt8)
    (hq : optConcat f xs = some q) : Runs body q s (xs.foldl g s) := by
  induction xs generalizing s q with
  | nil => simp [optConcat] at hq; subst hq; exact runs_nil _ _
  | cons x xs ih =>
    simp only [optConcat, optApp_eq_some] at hq
    obtain ⟨p1, p2, h1, h2, rfl⟩ := hq
    rw [List.foldl_cons]
    exact runs_append (h s x (by simp) p1 h1)
      (ih (fun s y hy => h s y (by simp [hy])) _ _ h2)

end

/-! ### Payloads -/

/-- Content of a packed uint32 field. -/
def u32Payload (vs : List UInt32) : List UInt8 := vs.flatMap fun v => leb128 v.toUInt64.toNat
/-- Content of a packed int32 field. -/
def i32Payload (vs : List Int32) : List UInt8 := vs.flatMap fun v => leb128 v.toInt64.toUInt64.toNat
/-- Content of a packed uint64 field. -/
def u64Payload (vs : List UInt64) : List UInt8 := vs.flatMap fun v => leb128 v.toNat

theorem embSpec_u32 (vs : List UInt32) : EmbSpec (total (EncodeU32PackedFunc vs)) (some (u32Payload vs)) :=
  embSpec_total fun b => encodeEach_eq _ b vs
theorem embSpec_i32 (vs : List Int32) : EmbSpec (total (EncodeI32PackedFunc vs)) (some (i32Payload vs)) :=
  embSpec_total fun b => encodeEach_eq _ b vs
theorem embSpec_u64 (vs : List UInt64) : EmbSpec (total (EncodeU64Packed vs)) (some (u64Payload vs)) :=
  embSpec_total fun b => encodeEach_eq _ b vs
theorem embSpec_delta (vs : List Int64) :
    EmbSpec (total (EncodeS64PackedDeltaFunc vs)) (some (deltaVarints 0 vs)) :=
  embSpec_total fun b => encodeDeltas_eq b 0 vs

/-! ### String table -/

/-- The bytes of a string table message. -/
def stringTableBytes (st : StringTable) : List UInt8 := st.S.flatMap fun s => bufField 1 s

theorem stringTable_embSpec (st : StringTable) :
    EmbSpec st.Write (some (stringTableBytes st)) := by
  intro b
  unfold StringTable.Write stringTableBytes
  rw [foldl_encodeIdBuffer (fun s => s)]; rfl

theorem stringTable_runs_field (st : StringTable) (s : GoStr) :
    Runs stringTableBody (bufField 1 s) st ⟨st.S ++ [s]⟩ := by
  apply runs_bufField
  intro buf n m enc rest hd hs
  unfold stringTableBody DecodeString DecodeBytes
  rw [hd]
  simp only [Res.ok_bind, if_true]
  rw [hs.read]; rfl

theorem stringTable_read (st : StringTable) (sp : List UInt8)
    (hf : (Slice.mk (stringTableBytes st) sp).Fits) :
    ReadStringTable ⟨stringTableBytes st, sp⟩ = .ok st := by
  have h := runs_flatMap (body := stringTableBody) (fun s => bufField 1 s)
    (fun st s => ⟨st.S ++ [s]⟩) st.S (fun s x _ => stringTable_runs_field s x) ⟨[]⟩
  have e : ∀ (xs : List GoStr) (st : StringTable),
      xs.foldl (fun (st : StringTable) s => (⟨st.S ++ [s]⟩ : StringTable)) st = ⟨st.S ++ xs⟩ := by
    intro xs
    induction xs with
    | nil => intro st; simp
    | cons x xs ih => intro st; simp [ih]
  rw [e] at h
  exact forNext_of_runs (body := stringTableBody) hf h

/-! ### Way -/

/-- The bytes of a way message, or `none` if it is too big. -/
def wayBytes (w : Way) : Option (List UInt8) :=
  optApp (some (varField 1 w.ID.toUInt64))
    (optApp (optField fix2 16384 2 (some (u32Payload w.Keys)))
      (optApp (optField fix2 16384 3 (some (u32Payload w.Vals)))
        (optField fix2 16384 8 (some (deltaVarints 0 w.Refs)))))

theorem way_embSpec (w : Way) : EmbSpec w.Write (wayBytes w) := by
  have h1 : EmbSpec (fun b => .ok (EncodeIdVarInt b 1 w.ID.toUInt64))
      (some (varField 1 w.ID.toUInt64)) := by
    intro b; simp [appendRes, encodeIdVarInt_eq]
  have := embSpec_bind h1 (embSpec_bind (embSpec_embed16384 (embSpec_u32 w.Keys) 2)
    (embSpec_bind (embSpec_embed16384 (embSpec_u32 w.Vals) 3)
      (embSpec_embed16384 (embSpec_delta w.Refs) 8)))
  intro b
  exact this b

theorem way_runs_id (w : Way) (v : Int64) :
    Runs wayBody (varField 1 v.toUInt64) w { w with ID := v } := by
  apply runs_varField
  intro buf n m rest hd hv
  unfold wayBody
  rw [hd]
  simp only [Res.ok_bind, if_true]
  rw [decodeI64_at hv]; rfl

theorem way_takes_keys (w : Way) (ks : List UInt32) :
    TakesSection wayBody 2 (u32Payload ks) w { w with Keys := ks } := by
  intro buf n m enc rest hd hs
  unfold wayBody
  rw [hd]
  simp only [Res.ok_bind]
  rw [if_neg (by decide), if_pos (by trivial), decodeU32Packed_at ks rfl hs]; rfl

theorem way_takes_vals (w : Way) (ks : List UInt32) :
    TakesSection wayBody 3 (u32Payload ks) w { w with Vals := ks } := by
  intro buf n m enc rest hd hs
  unfold wayBody
  rw [hd]
  simp only [Res.ok_bind]
  rw [if_neg (by decide), if_neg (by decide), if_pos (by trivial), decodeU32Packed_at ks rfl hs]; rfl

theorem way_takes_refs (w : Way) (rs : List Int64) :
    TakesSection wayBody 8 (deltaVarints 0 rs) w { w with Refs := rs } := by
  intro buf n m enc rest hd hs
  unfold wayBody
  rw [hd]
  simp only [Res.ok_bind]
  rw [if_neg (by decide), if_neg (by decide), if_neg (by decide), if_neg (by decide), if_pos (by trivial),
    decodeS64PackedDelta_at rs rfl hs]; rfl

theorem way_read (w : Way) (p : List UInt8) (hw : wayBytes w = some p) (sp : List UInt8)
    (hf : (Slice.mk p sp).Fits) : ReadWay ⟨p, sp⟩ = .ok w := by
  simp only [wayBytes, optApp_eq_some, optField_eq_some, Option.some.injEq] at hw
  obtain ⟨_, _, rfl, ⟨_, _, ⟨_, rfl, h2, rfl⟩, ⟨_, _, ⟨_, rfl, h3, rfl⟩, ⟨_, rfl, h4, rfl⟩, rfl⟩, rfl⟩,
    rfl⟩ := hw
  refine forNext_of_runs (body := wayBody) hf ?_
  refine runs_append (way_runs_id Way.zero w.ID) ?_
  refine runs_append (runs_fix2 h2 (way_takes_keys _ w.Keys)) ?_
  refine runs_append (runs_fix2 h3 (way_takes_vals _ w.Vals)) ?_
  exact runs_fix2 h4 (way_takes_refs _ w.Refs)

/-! ### Relation -/

/-- The bytes of a relation message, or `none` if it is too big. -/
def relationBytes (r : Relation) : Option (List UInt8) :=
  optApp (some (varField 1 r.ID.toUInt64))
    (optApp (optField fix2 16384 2 (some (u32Payload r.Keys)))
      (optApp (optField fix2 16384 3 (some (u32Payload r.Vals)))
        (optApp (optField fix3 2097152 8 (some (i32Payload r.RolesSID)))
          (optApp (optField fix3 2097152 9 (some (deltaVarints 0 r.MemIDs)))
            (optField fix3 2097152 10 (some (u64Payload r.MemberType)))))))

theorem relation_embSpec (r : Relation) : EmbSpec r.Write (relationBytes r) := by
  have h1 : EmbSpec (fun b => .ok (EncodeIdVarInt b 1 r.ID.toUInt64))
      (some (varField 1 r.ID.toUInt64)) := by
    intro b; simp [appendRes, encodeIdVarInt_eq]
  have := embSpec_bind h1 (embSpec_bind (embSpec_embed16384 (embSpec_u32 r.Keys) 2)
    (embSpec_bind (embSpec_embed16384 (embSpec_u32 r.Vals) 3)
      (embSpec_bind (embSpec_embed2097152 (embSpec_i32 r.RolesSID) 8)
        (embSpec_bind (embSpec_embed2097152 (embSpec_delta r.MemIDs) 9)
          (embSpec_embed2097152 (embSpec_u64 r.MemberType) 10)))))
  intro b
  exact this b

theorem relation_runs_id (r : Relation) (v : Int64) :
    Runs relationBody (varField 1 v.toUInt64) r { r with ID := v } := by
  apply runs_varField
  intro buf n m rest hd hv
  unfold relationBody
  rw [hd]
  simp only [Res.ok_bind, if_true]
  rw [decodeI64_at hv]; rfl

theorem relation_takes_keys (r : Relation) (ks : List UInt32) :
    TakesSection relationBody 2 (u32Payload ks) r { r with Keys := ks } := by
  intro buf n m enc rest hd hs
  unfold relationBody
  rw [hd]
  simp only [Res.ok_bind]
  rw [if_neg (by decide), if_pos (by trivial), decodeU32Packed_at ks rfl hs]; rfl

theorem relation_takes_vals (r : Relation) (ks : List UInt32) :
    TakesSection relationBody 3 (u32Payload ks) r { r with Vals := ks } := by
  intro buf n m enc rest hd hs
  unfold relationBody
  rw [hd]
  simp only [Res.ok_bind]
  rw [if_neg (by decide), if_neg (by decide), if_pos (by trivial), decodeU32Packed_at ks rfl hs]; rfl

theorem relation_takes_roles (r : Relation) (ks : List Int32) :
    TakesSection relationBody 8 (i32Payload ks) r { r with RolesSID := ks } := by
  intro buf n m enc rest hd hs
  unfold relationBody
  rw [hd]
  simp only [Res.ok_bind]
  rw [if_neg (by decide), if_neg (by decide), if_neg (by decide), if_neg (by decide), if_pos (by trivial),
    decodeI32Packed_at ks rfl hs]; rfl

theorem relation_takes_memIDs (r : Relation) (ks : List Int64) :
    TakesSection relationBody 9 (deltaVarints 0 ks) r { r with MemIDs := ks } := by
  intro buf n m enc rest hd hs
  unfold relationBody
  rw [hd]
  simp only [Res.ok_bind]
  rw [if_neg (by decide), if_neg (by decide), if_neg (by decide), if_neg (by decide),
    if_neg (by decide), if_pos (by trivial), decodeS64PackedDelta_at ks rfl hs]; rfl

theorem relation_takes_types (r : Relation) (ks : List UInt64) :
    TakesSection relationBody 10 (u64Payload ks) r { r with MemberType := ks } := by
  intro buf n m enc rest hd hs
  unfold relationBody
  rw [hd]
  simp only [Res.ok_bind]
  rw [if_neg (by decide), if_neg (by decide), if_neg (by decide), if_neg (by decide),
    if_neg (by decide), if_neg (by decide), if_pos (by trivial), decodeU64Packed_at ks rfl hs]; rfl

theorem relation_read (r : Relation) (p : List UInt8) (hw : relationBytes r = some p)
    (sp : List UInt8) (hf : (Slice.mk p sp).Fits) : ReadRelation ⟨p, sp⟩ = .ok r := by
  simp only [relationBytes, optApp_eq_some, optField_eq_some, Option.some.injEq] at hw
  obtain ⟨_, _, rfl, ⟨_, _, ⟨_, rfl, h2, rfl⟩, ⟨_, _, ⟨_, rfl, h3, rfl⟩, ⟨_, _, ⟨_, rfl, h4, rfl⟩,
    ⟨_, _, ⟨_, rfl, h5, rfl⟩, ⟨_, rfl, h6, rfl⟩, rfl⟩, rfl⟩, rfl⟩, rfl⟩, rfl⟩ := hw
  refine forNext_of_runs (body := relationBody) hf ?_
  refine runs_append (relation_runs_id Relation.zero r.ID) ?_
  refine runs_append (runs_fix2 h2 (relation_takes_keys _ r.Keys)) ?_
  refine runs_append (runs_fix2 h3 (relation_takes_vals _ r.Vals)) ?_
  refine runs_append (runs_fix3 h4 (relation_takes_roles _ r.RolesSID)) ?_
  refine runs_append (runs_fix3 h5 (relation_takes_memIDs _ r.MemIDs)) ?_
  exact runs_fix3 h6 (relation_takes_types _ r.MemberType)

/-! ### Dense nodes -/

/-- The bytes of a dense nodes message, or `none` if it is too big. -/
def denseBytes (dn : DenseNodes) : Option (List UInt8) :=
  optApp (optField fix3 2097152 1 (some (deltaVarints 0 dn.Id)))
    (optApp (optField fix3 2097152 8 (some (deltaVarints 0 dn.Lat)))
      (optApp (optField fix3 2097152 9 (some (deltaVarints 0 dn.Lon)))
        (if dn.KeyVals.length > 0 then optField fix4 268435456 10 (some (i32Payload dn.KeyVals))
         else some [])))

theorem dense_embSpec (dn : DenseNodes) : EmbSpec dn.Write (denseBytes dn) := by
  have h4 : EmbSpec (fun b => if dn.KeyVals.length > 0 then
      Embed268435456 10 (total (EncodeI32PackedFunc dn.KeyVals)) b else .ok b)
      (if dn.KeyVals.length > 0 then optField fix4 268435456 10 (some (i32Payload dn.KeyVals))
       else some []) := by
    intro b
    split
    · exact embSpec_embed268435456 (embSpec_i32 dn.KeyVals) 10 b
    · simp [appendRes]
  have := embSpec_bind (embSpec_embed2097152 (embSpec_delta dn.Id) 1)
    (embSpec_bind (embSpec_embed2097152 (embSpec_delta dn.Lat) 8)
      (embSpec_bind (embSpec_embed2097152 (embSpec_delta dn.Lon) 9) h4))
  intro b
  exact this b

theorem dense_takes_id (dn : DenseNodes) (vs : List Int64) :
    TakesSection denseBody 1 (deltaVarints 0 vs) dn { dn with Id := vs } := by
  intro buf n m enc rest hd hs
  unfold denseBody
  rw [hd]
  simp only [Res.ok_bind]
  rw [if_pos (by trivial), decodeS64PackedDelta_at vs rfl hs]; rfl

theorem dense_takes_lat (dn : DenseNodes) (vs : List Int64) :
    TakesSection denseBody 8 (deltaVarints 0 vs) dn { dn with Lat := vs } := by
  intro buf n m enc rest hd hs
  unfold denseBody
  rw [hd]
  simp only [Res.ok_bind]
  rw [if_neg (by decide), if_neg (by decide), if_pos (by trivial), decodeS64PackedDelta_at vs rfl hs]; rfl

theorem dense_takes_lon (dn : DenseNodes) (vs : List Int64) :
    TakesSection denseBody 9 (deltaVarints 0 vs) dn { dn with Lon := vs } := by
  intro buf n m enc rest hd hs
  unfold denseBody
  rw [hd]
  simp only [Res.ok_bind]
  rw [if_neg (by decide), if_neg (by decide), if_neg (by decide), if_pos (by trivial),
    decodeS64PackedDelta_at vs rfl hs]; rfl

theorem dense_takes_keyVals (dn : DenseNodes) (vs : List Int32) :
    TakesSection denseBody 10 (i32Payload vs) dn { dn with KeyVals := vs } := by
  intro buf n m enc rest hd hs
  unfold denseBody
  rw [hd]
  simp only [Res.ok_bind]
  rw [if_neg (by decide), if_neg (by decide), if_neg (by decide), if_neg (by decide), if_pos (by trivial),
    decodeI32Packed_at vs rfl hs]; rfl

theorem dense_read (dn : DenseNodes) (p : List UInt8) (hw : denseBytes dn = some p)
    (sp : List UInt8) (hf : (Slice.mk p sp).Fits) : ReadDenseNodes ⟨p, sp⟩ = .ok dn := by
  simp only [denseBytes, optApp_eq_some, optField_eq_some, Option.some.injEq] at hw
  obtain ⟨_, _, ⟨_, rfl, h1, rfl⟩, ⟨_, _, ⟨_, rfl, h2, rfl⟩, ⟨_, kv, ⟨_, rfl, h3, rfl⟩, h4, rfl⟩, rfl⟩,
    rfl⟩ := hw
  refine forNext_of_runs (body := denseBody) hf ?_
  refine runs_append (runs_fix3 h1 (dense_takes_id DenseNodes.zero dn.Id)) ?_
  refine runs_append (runs_fix3 h2 (dense_takes_lat _ dn.Lat)) ?_
  refine runs_append (runs_fix3 h3 (dense_takes_lon _ dn.Lon)) ?_
  split at h4
  · simp only [optField_eq_some, Option.some.injEq] at h4
    obtain ⟨_, rfl, h4, rfl⟩ := h4
    exact runs_fix4 h4 (dense_takes_keyVals _ dn.KeyVals)
  · next h =>
    simp only [Option.some.injEq] at h4
    subst h4
    have e : dn.KeyVals = [] := by simpa using h
    obtain ⟨a, b, c, d⟩ := dn
    simp only at e
    subst e
    exact runs_nil _ _

end Osm.T
