import Verif.Lemmas.Room
import Verif.Lemmas.Hl
import Verif.Spec.TagFilter

/-! # Assembled blocks that have room can be written -/

namespace Osm.T
open Osm Osm.Pb Osm.Pbf Osm.Spec Osm.Rewrite

theorem fix3_len (n : Nat) : (fix3 n).length ≤ 4 := by simp [fix3]

theorem u32_len (vs : List UInt32) : (u32Payload vs).length ≤ 10 * vs.length := by
  unfold u32Payload
  have := flatMap_len (fun v : UInt32 => leb128 v.toUInt64.toNat) (fun _ => 10) vs fun v _ => Pbf.leb128_length_le10 _
  rw [List.map_const', List.sum_replicate_nat] at this
  omega
theorem i32_len (vs : List Int32) : (i32Payload vs).length ≤ 10 * vs.length := by
  unfold i32Payload
  have := flatMap_len (fun v : Int32 => leb128 v.toInt64.toUInt64.toNat) (fun _ => 10) vs fun v _ => Pbf.leb128_length_le10 _
  rw [List.map_const', List.sum_replicate_nat] at this
  omega
theorem u64_len (vs : List UInt64) : (u64Payload vs).length ≤ 10 * vs.length := by
  unfold u64Payload
  have := flatMap_len (fun v : UInt64 => leb128 v.toNat) (fun _ => 10) vs fun v _ => Pbf.leb128_length_le10 _
  rw [List.map_const', List.sum_replicate_nat] at this
  omega

theorem sortedTags_length (m : TagMap) : (sortedTags m).length = m.length := by
  unfold sortedTags
  rw [List.length_map, (sortBy_perm _ _).length_eq, List.length_map]

theorem hlWay_within (xs : List GoStr) (w : HLWay) (h : hlWayRoom w ≤ 16384) :
    Within (optField fix2 16384 3 (wayBytes (wayOf xs w))) (hlWayRoom w) := by
  unfold hlWayRoom at h
  have l1 := sortedTags_length w.Tags
  have h1 : Within (some (varField 1 (wayOf xs w).ID.toUInt64)) 20 := within_some (varField_len _ _)
  have h2 := within_field (limit := 16384) 2 fix2_len (within_some (u32_len (wayOf xs w).Keys))
    (by unfold wayOf; simp only [List.length_map]; omega)
  have h3 := within_field (limit := 16384) 3 fix2_len (within_some (u32_len (wayOf xs w).Vals))
    (by unfold wayOf; simp only [List.length_map]; omega)
  have h4 := within_field (limit := 16384) 8 fix2_len (within_some (deltas_len 0 (wayOf xs w).Refs))
    (by unfold wayOf; simp only [List.length_map]; omega)
  refine (within_field 3 fix2_len (within_app h1 (within_app h2 (within_app h3 h4))) ?_).mono ?_
  · unfold wayOf; simp only [List.length_map]; omega
  · unfold wayOf hlWayRoom; simp only [List.length_map]; omega

theorem hlRel_within (xs : List GoStr) (r : HLRelation) (h' : 10 * r.Tags.length < 16384) (h : hlRelationRoom r ≤ 2097152) :
    Within (optField fix3 2097152 4 (relationBytes (relOf xs r))) (hlRelationRoom r) := by
  unfold hlRelationRoom at h
  have l1 := sortedTags_length r.Tags
  have h1 : Within (some (varField 1 (relOf xs r).ID.toUInt64)) 20 := within_some (varField_len _ _)
  have h2 := within_field (limit := 16384) 2 fix2_len (within_some (u32_len (relOf xs r).Keys))
    (by unfold relOf; simp only [List.length_map]; omega)
  have h3 := within_field (limit := 16384) 3 fix2_len (within_some (u32_len (relOf xs r).Vals))
    (by unfold relOf; simp only [List.length_map]; omega)
  have h4 := within_field (limit := 2097152) 8 fix3_len (within_some (i32_len (relOf xs r).RolesSID))
    (by unfold relOf; simp only [List.length_map]; omega)
  have h5 := within_field (limit := 2097152) 9 fix3_len (within_some (deltas_len 0 (relOf xs r).MemIDs))
    (by unfold relOf; dsimp only; omega)
  have h6 := within_field (limit := 2097152) 10 fix3_len (within_some (u64_len (relOf xs r).MemberType))
    (by unfold relOf; simp only [List.length_map]; omega)
  refine (within_field 4 fix3_len (within_app h1 (within_app h2 (within_app h3 (within_app h4 (within_app h5 h6))))) ?_).mono ?_
  · unfold relOf; simp only [List.length_map]; omega
  · unfold relOf hlRelationRoom; simp only [List.length_map]; omega

theorem kvStream_len (xs : List GoStr) (ns : List HLNode) :
    10 * (kvStream (ns.map fun n => groupOf xs n.Tags)).length = (ns.map fun n => 20 * n.Tags.length + 10).sum := by
  induction ns with
  | nil => rfl
  | cons n ns ih =>
    have hl := sortedTags_length n.Tags
    have hg : (groupOf xs n.Tags).length = n.Tags.length := by unfold groupOf; simp [hl]
    have : ∀ g : List (Int32 × Int32), (g.flatMap fun p => [p.1, p.2]).length = 2 * g.length := by
      intro g
      induction g with
      | nil => rfl
      | cons a g ih => rw [List.flatMap_cons, List.length_append, ih]; simp; omega
    unfold kvStream at *
    rw [List.map_cons, List.flatMap_cons, List.map_cons, List.sum_cons, List.length_append, List.length_append, this, ← ih, hg]
    simp
    omega

theorem sum_add (f g : HLNode → Nat) (ns : List HLNode) : (ns.map fun n => f n + g n).sum = (ns.map f).sum + (ns.map g).sum := by
  induction ns with
  | nil => rfl
  | cons n ns ih => simp only [List.map_cons, List.sum_cons, ih]; omega

theorem hlDense_within (xs : List GoStr) (ns : List HLNode) (h1 : ns.length ≤ 200000) (h2 : hlNodesRoom ns < 2 ^ 28) :
    Within (optField fix4 268435456 2 (denseBytes (denseOf xs ns))) (hlNodesRoom ns) := by
  have hs : (ns.map fun n => 20 * n.Tags.length + 50).sum = (ns.map fun n => 20 * n.Tags.length + 10).sum + 40 * ns.length := by
    have h40 : (ns.map fun _ => 40).sum = 40 * ns.length := by
      rw [List.map_const', List.sum_replicate_nat, Nat.mul_comm]
    rw [← h40, ← sum_add]
  unfold hlNodesRoom at h2
  have hk := kvStream_len xs ns
  have hkv : 10 * (denseOf xs ns).KeyVals.length ≤ (ns.map fun n => 20 * n.Tags.length + 10).sum := by
    rw [← hk]
    unfold denseOf nodesKV
    dsimp only
    split <;> simp
  have a1 := within_field (limit := 2097152) 1 fix3_len (within_some (deltas_len 0 (denseOf xs ns).Id))
    (by unfold denseOf; simp only [List.length_map]; omega)
  have a2 := within_field (limit := 2097152) 8 fix3_len (within_some (deltas_len 0 (denseOf xs ns).Lat))
    (by unfold denseOf; simp only [List.length_map]; omega)
  have a3 := within_field (limit := 2097152) 9 fix3_len (within_some (deltas_len 0 (denseOf xs ns).Lon))
    (by unfold denseOf; simp only [List.length_map]; omega)
  have a4 : Within (if (denseOf xs ns).KeyVals.length > 0 then optField fix4 268435456 10 (some (i32Payload (denseOf xs ns).KeyVals))
         else some []) (10 * (denseOf xs ns).KeyVals.length + 14) := by
    split
    · exact within_field (limit := 268435456) 10 fix4_len (within_some (i32_len _)) (by omega)
    · exact within_some (by simp)
  have e1 : (denseOf xs ns).Id.length = ns.length := by simp [denseOf]
  have e2 : (denseOf xs ns).Lat.length = ns.length := by simp [denseOf]
  have e3 : (denseOf xs ns).Lon.length = ns.length := by simp [denseOf]
  refine (within_field 2 fix4_len (within_app a1 (within_app a2 (within_app a3 a4))) ?_).mono ?_
  · omega
  · unfold hlNodesRoom; omega

theorem sum_erase {f : GoStr → Nat} {m : List GoStr} {a : GoStr} (h : a ∈ m) :
    (m.map f).sum = f a + ((m.erase a).map f).sum := by
  have := (List.perm_cons_erase h).map f
  rw [this.sum_nat]
  simp

theorem nodup_sum_le {f : GoStr → Nat} : ∀ {l m : List GoStr}, l.Nodup → (∀ a ∈ l, a ∈ m) → (l.map f).sum ≤ (m.map f).sum
  | [], m, _, _ => by simp
  | a :: l, m, hn, hs => by
    rw [sum_erase (hs a (by simp)), List.map_cons, List.sum_cons]
    obtain ⟨h1, h2⟩ := List.nodup_cons.1 hn
    have := nodup_sum_le (f := f) h2 (m := m.erase a) fun b hb => by
      rw [List.mem_erase_of_ne (by rintro rfl; exact h1 hb)]
      exact hs b (by simp [hb])
    omega

theorem table_within (xs : List GoStr) (h : stringsRoom xs < 2 ^ 28) :
    Within (optField fix4 268435456 1 (some (stringTableBytes ⟨table xs⟩))) (stringsRoom xs) := by
  have h1 : (stringTableBytes ⟨table xs⟩).length ≤ ((table xs).map fun s : GoStr => s.length + 20).sum :=
    flatMap_len _ _ _ fun s _ => bufField_len _ _
  have h2 : ((table xs).map fun s : GoStr => s.length + 20).sum ≤ (([] :: xs).map fun s : GoStr => s.length + 20).sum :=
    nodup_sum_le (f := fun s : GoStr => s.length + 20) (table_nodup xs) fun s hs => by
      rw [List.mem_cons]
      exact (mem_table xs s).1 hs
  rw [List.map_cons, List.sum_cons] at h2
  have h2 : ((table xs).map fun s : GoStr => s.length + 20).sum ≤ 20 + (xs.map fun s : GoStr => s.length + 20).sum := h2
  unfold stringsRoom at *
  refine (within_field 1 fix4_len (within_some h1) ?_).mono ?_
  · omega
  · omega

theorem asm_within (ns : List HLNode) (ws : List HLWay) (rs : List HLRelation) (h : Roomy ns ws rs) :
    Within (blockBytes (asm ns ws rs)) (2 ^ 28 - 1) := by
  obtain ⟨h1, h2, h3, h4⟩ := h
  have t := table_within (blockStrings ns ws rs) (by omega)
  unfold blockBytes asm
  dsimp only
  have gn : Within (optConcat (fun g => optField fix4 268435456 2 (groupBytes g)) (gNodes (blockStrings ns ws rs) ns))
      (hlNodesRoom ns + 14) := by
    unfold gNodes
    split
    · have := hlDense_within (blockStrings ns ws rs) ns h1 (by omega)
      have hg : Within (groupBytes { PrimitiveGroup.zero with Dense := some (denseOf (blockStrings ns ws rs) ns) })
          (hlNodesRoom ns) := by
        obtain ⟨p, e, hp⟩ := this
        refine ⟨p, ?_, hp⟩
        unfold groupBytes
        dsimp only
        rw [e]
        simp [PrimitiveGroup.zero, optApp]
      have := within_field (limit := 268435456) 2 fix4_len hg (by omega)
      exact (within_app this (within_some (p := []) (n := 0) (by simp))).mono (by omega)
    · exact within_some (by simp)
  have gw : Within (optConcat (fun g => optField fix4 268435456 2 (groupBytes g)) (gWays (blockStrings ns ws rs) ws))
      ((ws.map hlWayRoom).sum + 14) := by
    unfold gWays
    split
    · have hc : Within (optConcat (fun w => optField fix2 16384 3 (wayBytes w)) (ws.map (wayOf (blockStrings ns ws rs))))
          (ws.map hlWayRoom).sum := by
        have := within_concat (f := fun w => optField fix2 16384 3 (wayBytes (wayOf (blockStrings ns ws rs) w))) (g := hlWayRoom)
          (xs := ws) fun w hw => hlWay_within _ w (h2 w hw)
        have e : ∀ l : List HLWay, optConcat (fun w => optField fix2 16384 3 (wayBytes w)) (l.map (wayOf (blockStrings ns ws rs))) =
            optConcat (fun w => optField fix2 16384 3 (wayBytes (wayOf (blockStrings ns ws rs) w))) l := by
          intro l
          induction l with
          | nil => rfl
          | cons a l ih => simp only [List.map_cons, optConcat, ih]
        rw [e]
        exact this
      have hg : Within (groupBytes { PrimitiveGroup.zero with Ways := ws.map (wayOf (blockStrings ns ws rs)) })
          (ws.map hlWayRoom).sum := by
        obtain ⟨p, e, hp⟩ := hc
        refine ⟨p, ?_, hp⟩
        unfold groupBytes
        dsimp only
        rw [if_pos, e]
        · simp [PrimitiveGroup.zero, optApp]
        · intro h0
          rw [List.map_eq_nil_iff] at h0
          simp_all
      have := within_field (limit := 268435456) 2 fix4_len hg (by omega)
      exact (within_app this (within_some (p := []) (n := 0) (by simp))).mono (by omega)
    · exact within_some (by simp)
  have gr : Within (optConcat (fun g => optField fix4 268435456 2 (groupBytes g)) (gRels (blockStrings ns ws rs) rs))
      ((rs.map hlRelationRoom).sum + 14) := by
    unfold gRels
    split
    · have hc : Within (optConcat (fun r => optField fix3 2097152 4 (relationBytes r)) (rs.map (relOf (blockStrings ns ws rs))))
          (rs.map hlRelationRoom).sum := by
        have := within_concat (f := fun r => optField fix3 2097152 4 (relationBytes (relOf (blockStrings ns ws rs) r)))
          (g := hlRelationRoom) (xs := rs) fun r hr => hlRel_within _ r (h3 r hr).1 (h3 r hr).2
        have e : ∀ l : List HLRelation, optConcat (fun r => optField fix3 2097152 4 (relationBytes r))
            (l.map (relOf (blockStrings ns ws rs))) =
            optConcat (fun r => optField fix3 2097152 4 (relationBytes (relOf (blockStrings ns ws rs) r))) l := by
          intro l
          induction l with
          | nil => rfl
          | cons a l ih => simp only [List.map_cons, optConcat, ih]
        rw [e]
        exact this
      have hg : Within (groupBytes { PrimitiveGroup.zero with Relations := rs.map (relOf (blockStrings ns ws rs)) })
          (rs.map hlRelationRoom).sum := by
        obtain ⟨p, e, hp⟩ := hc
        refine ⟨p, ?_, hp⟩
        unfold groupBytes
        dsimp only
        rw [if_pos (show rs.map (relOf (blockStrings ns ws rs)) ≠ [] from ?_), e]
        · simp [PrimitiveGroup.zero, optApp]
        · intro h0
          rw [List.map_eq_nil_iff] at h0
          simp_all
      have := within_field (limit := 268435456) 2 fix4_len hg (by omega)
      exact (within_app this (within_some (p := []) (n := 0) (by simp))).mono (by omega)
    · exact within_some (by simp)
  have happ : ∀ (f : T.PrimitiveGroup → Option (List UInt8)) (a b : List T.PrimitiveGroup),
      optConcat f (a ++ b) = optApp (optConcat f a) (optConcat f b) := by
    intro f a b
    induction a with
    | nil =>
      simp only [List.nil_append, optConcat]
      cases optConcat f b <;> rfl
    | cons x a ih =>
      simp only [List.cons_append, optConcat, ih]
      cases f x <;> cases optConcat f a <;> cases optConcat f b <;> simp [optApp]
  rw [happ, happ]
  have tl : Within (some (blockTail (asm ns ws rs))) 80 := by
    refine within_some ?_
    unfold blockTail
    have := varField_len 17 (asm ns ws rs).Granularity.toInt64.toUInt64
    have := varField_len 18 (asm ns ws rs).DateGranularity.toInt64.toUInt64
    have := varField_len 19 (asm ns ws rs).LatOffset.toUInt64
    have := varField_len 20 (asm ns ws rs).LonOffset.toUInt64
    simp only [List.length_append]
    split <;> split <;> split <;> split <;> (try simp only [List.length_nil]) <;> omega
  exact (within_app t (within_app (within_app (within_app gn gw) gr) tl)).mono (by omega)

theorem asm_writes (ns : List HLNode) (ws : List HLWay) (rs : List HLRelation) (h : Roomy ns ws rs) :
    ∃ blob, Blob.zero.Write (some (asm ns ws rs).Write) [] = .ok blob := by
  obtain ⟨p, h1, h2⟩ := asm_within ns ws rs h
  have hf : ∀ buf, (asm ns ws rs).Write buf = .ok (buf ++ p) := by
    intro buf
    rw [block_embSpec _ buf, h1]
    rfl
  obtain ⟨msg, h3, _⟩ := (Props.C15_blob_func_round_trip Blob.zero (asm ns ws rs).Write p hf []).2 (by omega)
  exact ⟨_, h3⟩

end Osm.T
