import Verif.Lemmas.Wire

namespace Osm.T
open Osm Osm.Spec Osm.Pb

theorem u32p_ne_hang (b : Slice) (n : Int) : DecodeU32Packed b n ≠ .hang :=
  Res.bind_ne_hang (readBytes_ne_hang _ _) fun _ _ =>
    Res.bind_ne_hang (packedLoop_ne_hang _ _) fun _ _ => by simp
theorem i32p_ne_hang (b : Slice) (n : Int) : DecodeI32Packed b n ≠ .hang :=
  Res.bind_ne_hang (readBytes_ne_hang _ _) fun _ _ =>
    Res.bind_ne_hang (packedLoop_ne_hang _ _) fun _ _ => by simp
theorem s32p_ne_hang (b : Slice) (n : Int) : DecodeS32Packed b n ≠ .hang :=
  Res.bind_ne_hang (readBytes_ne_hang _ _) fun _ _ =>
    Res.bind_ne_hang (packedLoop_ne_hang _ _) fun _ _ => by simp
theorem s64p_ne_hang (b : Slice) (n : Int) : DecodeS64Packed b n ≠ .hang :=
  Res.bind_ne_hang (readBytes_ne_hang _ _) fun _ _ =>
    Res.bind_ne_hang (packedLoop_ne_hang _ _) fun _ _ => by simp
theorem u64p_ne_hang (b : Slice) (n : Int) : DecodeU64Packed b n ≠ .hang :=
  Res.bind_ne_hang (readBytes_ne_hang _ _) fun _ _ =>
    Res.bind_ne_hang (packedLoop_ne_hang _ _) fun _ _ => by simp
theorem deltap_ne_hang (b : Slice) (n : Int) : DecodeS64PackedDelta b n ≠ .hang :=
  Res.bind_ne_hang (readBytes_ne_hang _ _) fun _ _ =>
    Res.bind_ne_hang (packedDeltaLoop_ne_hang _) fun _ _ => by simp
theorem string_ne_hang (b : Slice) (n : Int) : DecodeString b n ≠ .hang :=
  Res.bind_ne_hang (readBytes_ne_hang _ _) fun _ _ => by simp
theorem i64_ne_hang (b : Slice) (n : Int) : DecodeI64 b n ≠ .hang :=
  Res.bind_ne_hang (decode_ne_hang _ _) fun _ _ => by simp
theorem i32_ne_hang (b : Slice) (n : Int) : DecodeI32 b n ≠ .hang :=
  Res.bind_ne_hang (decode_ne_hang _ _) fun _ _ => by simp

macro "leaf_ne_hang" : tactic => `(tactic| (
  refine Res.bind_ne_hang (decode_ne_hang _ _) fun _ _ => ?_
  dsimp only
  repeat' split
  all_goals first
    | exact Res.bind_ne_hang (u32p_ne_hang _ _) fun _ _ => by simp
    | exact Res.bind_ne_hang (i32p_ne_hang _ _) fun _ _ => by simp
    | exact Res.bind_ne_hang (u64p_ne_hang _ _) fun _ _ => by simp
    | exact Res.bind_ne_hang (deltap_ne_hang _ _) fun _ _ => by simp
    | exact Res.bind_ne_hang (string_ne_hang _ _) fun _ _ => by simp
    | exact Res.bind_ne_hang (i64_ne_hang _ _) fun _ _ => by simp
    | exact Res.bind_ne_hang (i32_ne_hang _ _) fun _ _ => by simp
    | exact Res.bind_ne_hang (readBytes_ne_hang _ _) fun _ _ => by simp
    | exact Res.bind_ne_hang (skipBytes_ne_hang _ _) fun _ _ => by simp
    | simp))

theorem neg_tag {σ : Type} {buf : Slice} {n : Int} {f : UInt64 × Int → Res σ} (hn : n < 0) :
    (DecodeVarInt buf n >>= f) = .panic := by rw [decode_neg _ _ hn]; rfl

theorem readStringTable_ne_hang (buf : Slice) (hb : buf.Fits) : ReadStringTable buf ≠ .hang :=
  forNext_terminates stringTable_shape (by simp) hb (Or.inl rfl) _
    (fun n s => by unfold stringTableBody; leaf_ne_hang) (fun n s hn => neg_tag hn)

theorem readBlobHeader_ne_hang (buf : Slice) (hb : buf.Fits) : ReadBlobHeader buf ≠ .hang :=
  forNext_terminates blobHeader_shape (by simp) hb (Or.inl rfl) _
    (fun n s => by unfold blobHeaderBody; leaf_ne_hang) (fun n s hn => neg_tag hn)

theorem readBlob_ne_hang (buf : Slice) (hb : buf.Fits) : ReadBlob buf ≠ .hang :=
  forNext_terminates blob_shape (by simp) hb (Or.inl rfl) _
    (fun n s => by unfold blobBody DecodeBytes; leaf_ne_hang) (fun n s hn => neg_tag hn)

theorem readWay_ne_hang (buf : Slice) (hb : buf.Fits) (hf : SkipsForward (buf.bytes ++ buf.spare)) :
    ReadWay buf ≠ .hang :=
  forNext_terminates way_shape (by simp) hb (Or.inr hf) _
    (fun n s => by unfold wayBody; leaf_ne_hang) (fun n s hn => neg_tag hn)

theorem readRelation_ne_hang (buf : Slice) (hb : buf.Fits)
    (hf : SkipsForward (buf.bytes ++ buf.spare)) : ReadRelation buf ≠ .hang :=
  forNext_terminates relation_shape (by simp) hb (Or.inr hf) _
    (fun n s => by unfold relationBody; leaf_ne_hang) (fun n s hn => neg_tag hn)

theorem readDense_ne_hang (buf : Slice) (hb : buf.Fits) (hf : SkipsForward (buf.bytes ++ buf.spare)) :
    ReadDenseNodes buf ≠ .hang :=
  forNext_terminates dense_shape (by simp) hb (Or.inr hf) _
    (fun n s => by unfold denseBody; leaf_ne_hang) (fun n s hn => neg_tag hn)

theorem nested_ne_hang {α β : Type} {read : Slice → Res α} {buf : Slice} (hb : buf.Fits)
    (hf : SkipsForward (buf.bytes ++ buf.spare))
    (h : ∀ s : Slice, s.Fits → SkipsForward (s.bytes ++ s.spare) → read s ≠ .hang)
    (m : Int) (f : Slice × Int → α → Res β) (hf' : ∀ x a, f x a ≠ .hang) :
    (DecodeBytes buf m >>= fun x => read x.1 >>= fun a => f x a) ≠ .hang :=
  Res.bind_ne_hang (readBytes_ne_hang _ _) fun x hx =>
    Res.bind_ne_hang (h _ (readBytes_fits hb hx) (skipsForward_inner hf hx)) fun a _ => hf' x a

theorem readGroup_ne_hang (o : PBReader) (buf : Slice) (hb : buf.Fits)
    (hf : SkipsForward (buf.bytes ++ buf.spare)) : ReadPrimitiveGroup o buf ≠ .hang :=
  forNext_terminates (group_shape o) (by simp) hb (Or.inr hf) _
    (fun n s => by
      unfold groupBody
      refine Res.bind_ne_hang (decode_ne_hang _ _) fun _ _ => ?_
      dsimp only
      repeat' split
      all_goals first
        | exact nested_ne_hang hb hf readDense_ne_hang _ _ (fun _ _ => by simp)
        | exact nested_ne_hang hb hf readWay_ne_hang _ _ (fun _ _ => by simp)
        | exact nested_ne_hang hb hf readRelation_ne_hang _ _ (fun _ _ => by simp)
        | exact Res.bind_ne_hang (readBytes_ne_hang _ _) fun _ _ => by simp
        | exact Res.bind_ne_hang (skipBytes_ne_hang _ _) fun _ _ => by simp
        | simp) (fun n s hn => neg_tag hn)

theorem readBlock_ne_hang (o : PBReader) (buf : Slice) (hb : buf.Fits)
    (hf : SkipsForward (buf.bytes ++ buf.spare)) : ReadPrimitiveBlock o buf ≠ .hang :=
  forNext_terminates (block_shape o) (by simp) hb (Or.inr hf) _
    (fun n s => by
      unfold blockBody
      refine Res.bind_ne_hang (decode_ne_hang _ _) fun _ _ => ?_
      dsimp only
      repeat' split
      all_goals first
        | exact nested_ne_hang hb hf (fun s h _ => readStringTable_ne_hang s h) _ _ (fun _ _ => by simp)
        | exact nested_ne_hang hb hf (readGroup_ne_hang o) _ _ (fun _ _ => by simp)
        | exact Res.bind_ne_hang (readBytes_ne_hang _ _) fun _ _ => by simp
        | exact Res.bind_ne_hang (i64_ne_hang _ _) fun _ _ => by simp
        | exact Res.bind_ne_hang (i32_ne_hang _ _) fun _ _ => by simp
        | simp) (fun n s hn => neg_tag hn)

/-! ### Parsed blocks have the shape the options promise -/

theorem group_body_shape (o : PBReader) (buf : Slice) (n : Int) (g g' : PrimitiveGroup) (n' : Int)
    (hg : GroupShape o g) (h : groupBody o buf n g = .ok (g', n')) : GroupShape o g' := by
  unfold groupBody at h
  simp only [Res.bind_eq_ok] at h
  obtain ⟨⟨k, m⟩, _, h⟩ := h
  dsimp only at h
  unfold GroupShape at *
  repeat' split at h
  all_goals
    first
    | (simp only [Res.bind_eq_ok] at h
       first
       | (obtain ⟨p, _, _, _, h2⟩ := h
          simp only [Res.ok.injEq, Prod.mk.injEq] at h2
          obtain ⟨rfl, _⟩ := h2
          simp_all)
       | (obtain ⟨p, _, h2⟩ := h
          simp only [Res.ok.injEq, Prod.mk.injEq] at h2
          obtain ⟨rfl, _⟩ := h2
          simp_all))
    | simp at h

theorem readGroup_shape (o : PBReader) (buf : Slice) (g : PrimitiveGroup)
    (h : ReadPrimitiveGroup o buf = .ok g) : GroupShape o g :=
  forNext_inv (I := GroupShape o) (fun n s s' n' hs hb => group_body_shape o buf n s s' n' hs hb)
    (by simp [GroupShape, PrimitiveGroup.zero]) h

theorem block_body_shape (o : PBReader) (buf : Slice) (n : Int) (g g' : PrimitiveBlock) (n' : Int)
    (hg : BlockShape o g) (h : blockBody o buf n g = .ok (g', n')) : BlockShape o g' := by
  unfold blockBody at h
  simp only [Res.bind_eq_ok] at h
  obtain ⟨⟨k, m⟩, _, h⟩ := h
  dsimp only at h
  unfold BlockShape at *
  repeat' split at h
  all_goals
    first
    | (simp only [Res.bind_eq_ok] at h
       first
       | (obtain ⟨p, _, q, hq, h2⟩ := h
          simp only [Res.ok.injEq, Prod.mk.injEq] at h2
          obtain ⟨rfl, _⟩ := h2
          first
          | (have := readGroup_shape o _ _ hq
             refine ⟨hg.1, fun x hx => ?_⟩
             simp only [List.mem_append, List.mem_singleton] at hx
             rcases hx with hx | rfl
             · exact hg.2 x hx
             · exact this)
          | simp_all)
       | (obtain ⟨p, _, h2⟩ := h
          simp only [Res.ok.injEq, Prod.mk.injEq] at h2
          obtain ⟨rfl, _⟩ := h2
          simp_all))
    | simp at h

theorem readBlock_shape (o : PBReader) (buf : Slice) (b : PrimitiveBlock)
    (h : ReadPrimitiveBlock o buf = .ok b) : BlockShape o b :=
  forNext_inv (I := BlockShape o) (fun n s s' n' hs hb => block_body_shape o buf n s s' n' hs hb)
    (by simp [BlockShape, PrimitiveBlock.fresh]) h

/-! ### Skipping agrees with reading -/

theorem listParsed_append {α : Type} {read : Slice → Res α} : ∀ {raws : List Slice} {xs : List α}
    {raw : Slice} {x : α}, ListParsed read raws xs → read raw = .ok x →
    ListParsed read (raws ++ [raw]) (xs ++ [x])
  | [], [], _, _, _, h => ⟨h, trivial⟩
  | _ :: _, _ :: _, _, _, h1, h => ⟨h1.1, listParsed_append h1.2 h⟩
  | [], _ :: _, _, _, h1, _ => h1.elim
  | _ :: _, [], _, _, h1, _ => h1.elim

theorem groupsAgree_append {o : PBReader} : ∀ {ps fs : List PrimitiveGroup} {p f : PrimitiveGroup},
    GroupsAgree o ps fs → GroupAgrees o p f → GroupsAgree o (ps ++ [p]) (fs ++ [f])
  | [], [], _, _, _, h => ⟨h, trivial⟩
  | _ :: _, _ :: _, _, _, h1, h => ⟨h1.1, groupsAgree_append h1.2 h⟩
  | [], _ :: _, _, _, h1, _ => h1.elim
  | _ :: _, [], _, _, h1, _ => h1.elim

theorem group_sim (o : PBReader) (buf : Slice) (n : Int) (s t : PrimitiveGroup) (s' : PrimitiveGroup)
    (n' : Int) (hr : GroupAgrees o t s) (h : groupBody readAll buf n s = .ok (s', n')) :
    ∃ t', groupBody o buf n t = .ok (t', n') ∧ GroupAgrees o t' s' := by
  unfold groupBody at h ⊢
  simp only [Res.bind_eq_ok] at h
  obtain ⟨⟨k, m⟩, hk, h⟩ := h
  rw [hk]
  simp only [Res.ok_bind, readAll, Bool.false_eq_true, if_false] at h ⊢
  split at h
  · simp at h
  next h1 =>
  rw [if_neg h1]
  split at h
  · next h2 =>
    rw [if_pos h2]
    simp only [Res.bind_eq_ok] at h
    obtain ⟨p, hp, d, hd, he⟩ := h
    simp only [Res.ok.injEq, Prod.mk.injEq] at he
    obtain ⟨rfl, rfl⟩ := he
    rw [hp]
    simp only [Res.ok_bind, hd]
    unfold GroupAgrees at *
    cases ho : o.SkipDenseNodes
    · simp_all
    · simp_all [OptParsed]
  next h2 =>
  rw [if_neg h2]
  split at h
  · next h3 =>
    rw [if_pos h3]
    simp only [Res.bind_eq_ok] at h
    obtain ⟨p, hp, d, hd, he⟩ := h
    simp only [Res.ok.injEq, Prod.mk.injEq] at he
    obtain ⟨rfl, rfl⟩ := he
    rw [hp]
    simp only [Res.ok_bind, hd]
    unfold GroupAgrees at *
    cases ho : o.SkipWays
    · simp_all
    · simp only [ho, if_true] at hr ⊢
      exact ⟨_, rfl, hr.1, ⟨hr.2.1.1, listParsed_append hr.2.1.2 hd⟩, hr.2.2⟩
  next h3 =>
  rw [if_neg h3]
  split at h
  · next h4 =>
    rw [if_pos h4]
    simp only [Res.bind_eq_ok] at h
    obtain ⟨p, hp, d, hd, he⟩ := h
    simp only [Res.ok.injEq, Prod.mk.injEq] at he
    obtain ⟨rfl, rfl⟩ := he
    rw [hp]
    simp only [Res.ok_bind, hd]
    unfold GroupAgrees at *
    cases ho : o.SkipRelations
    · simp_all
    · simp only [ho, if_true] at hr ⊢
      exact ⟨_, rfl, hr.1, hr.2.1, ⟨hr.2.2.1, listParsed_append hr.2.2.2 hd⟩⟩
  next h4 =>
  rw [if_neg h4]
  split at h
  · next h5 =>
    rw [if_pos h5]
    simp only [Res.bind_eq_ok] at h
    obtain ⟨p, hp, he⟩ := h
    simp only [Res.ok.injEq, Prod.mk.injEq] at he
    obtain ⟨rfl, rfl⟩ := he
    rw [hp]
    exact ⟨t, rfl, hr⟩
  · simp at h

theorem readGroup_agrees (o : PBReader) (buf : Slice) (g : PrimitiveGroup)
    (h : ReadPrimitiveGroup readAll buf = .ok g) :
    ∃ g', ReadPrimitiveGroup o buf = .ok g' ∧ GroupAgrees o g' g :=
  forNext_sim (R := fun s t => GroupAgrees o t s)
    (fun n s t s' n' hr hb => group_sim o buf n s t s' n' hr hb)
    (t := PrimitiveGroup.zero) (by simp [GroupAgrees, PrimitiveGroup.zero, OptParsed, ListParsed]) h

theorem block_sim (o : PBReader) (buf : Slice) (n : Int) (s t : PrimitiveBlock) (s' : PrimitiveBlock)
    (n' : Int) (hr : BlockAgrees o t s) (h : blockBody readAll buf n s = .ok (s', n')) :
    ∃ t', blockBody o buf n t = .ok (t', n') ∧ BlockAgrees o t' s' := by
  unfold blockBody at h ⊢
  simp only [Res.bind_eq_ok] at h
  obtain ⟨⟨k, m⟩, hk, h⟩ := h
  rw [hk]
  simp only [Res.ok_bind, readAll, Bool.false_eq_true, if_false] at h ⊢
  obtain ⟨r1, r2, r3, r4, r5, r6⟩ := hr
  split at h
  · next h2 =>
    rw [if_pos h2]
    simp only [Res.bind_eq_ok] at h
    obtain ⟨p, hp, d, hd, he⟩ := h
    simp only [Res.ok.injEq, Prod.mk.injEq] at he
    obtain ⟨rfl, rfl⟩ := he
    rw [hp]
    simp only [Res.ok_bind, hd]
    unfold BlockAgrees
    cases ho : o.SkipStringTable
    · simp_all
    · simp_all [OptParsed]
  next h2 =>
  rw [if_neg h2]
  split at h
  · next h3 =>
    rw [if_pos h3]
    simp only [Res.bind_eq_ok] at h
    obtain ⟨p, hp, d, hd, he⟩ := h
    simp only [Res.ok.injEq, Prod.mk.injEq] at he
    obtain ⟨rfl, rfl⟩ := he
    obtain ⟨g', hg', ha⟩ := readGroup_agrees o _ _ hd
    rw [hp]
    simp only [Res.ok_bind, hg']
    exact ⟨_, rfl, r1, groupsAgree_append r2 ha, r3, r4, r5, r6⟩
  next h3 =>
  rw [if_neg h3]
  split at h
  · next h4 =>
    rw [if_pos h4]
    simp only [Res.bind_eq_ok] at h
    obtain ⟨p, hp, he⟩ := h
    simp only [Res.ok.injEq, Prod.mk.injEq] at he
    obtain ⟨rfl, rfl⟩ := he
    rw [hp]
    exact ⟨_, rfl, r1, r2, rfl, r4, r5, r6⟩
  next h4 =>
  rw [if_neg h4]
  split at h
  · next h5 =>
    rw [if_pos h5]
    simp only [Res.bind_eq_ok] at h
    obtain ⟨p, hp, he⟩ := h
    simp only [Res.ok.injEq, Prod.mk.injEq] at he
    obtain ⟨rfl, rfl⟩ := he
    rw [hp]
    exact ⟨_, rfl, r1, r2, r3, rfl, r5, r6⟩
  next h5 =>
  rw [if_neg h5]
  split at h
  · next h6 =>
    rw [if_pos h6]
    simp only [Res.bind_eq_ok] at h
    obtain ⟨p, hp, he⟩ := h
    simp only [Res.ok.injEq, Prod.mk.injEq] at he
    obtain ⟨rfl, rfl⟩ := he
    rw [hp]
    exact ⟨_, rfl, r1, r2, r3, r4, rfl, r6⟩
  next h6 =>
  rw [if_neg h6]
  split at h
  · next h7 =>
    rw [if_pos h7]
    simp only [Res.bind_eq_ok] at h
    obtain ⟨p, hp, he⟩ := h
    simp only [Res.ok.injEq, Prod.mk.injEq] at he
    obtain ⟨rfl, rfl⟩ := he
    rw [hp]
    exact ⟨_, rfl, r1, r2, r3, r4, r5, rfl⟩
  · simp at h

theorem readBlock_agrees (o : PBReader) (buf : Slice) (b : PrimitiveBlock)
    (h : ReadPrimitiveBlock readAll buf = .ok b) :
    ∃ b', ReadPrimitiveBlock o buf = .ok b' ∧ BlockAgrees o b' b :=
  forNext_sim (R := fun s t => BlockAgrees o t s)
    (fun n s t s' n' hr hb => block_sim o buf n s t s' n' hr hb)
    (t := PrimitiveBlock.fresh) (by simp [BlockAgrees, PrimitiveBlock.fresh, OptParsed, GroupsAgree]) h

end Osm.T
