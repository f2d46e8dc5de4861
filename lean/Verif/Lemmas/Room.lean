import Verif.Lemmas.Rewrite

/-! # Blocks that have room for their refs can be written -/

namespace Osm.Rewrite
open Osm Osm.Pb Osm.T Osm.Pbf Osm.NodeIndex Osm.Spec

/-- At most `n` bytes, and not a panic. -/
def Within (o : Option (List UInt8)) (n : Nat) : Prop := ∃ p, o = some p ∧ p.length ≤ n

theorem within_some {p : List UInt8} {n : Nat} (h : p.length ≤ n) : Within (some p) n := ⟨p, rfl, h⟩

theorem Within.mono {o : Option (List UInt8)} {n m : Nat} (h : Within o n) (hm : n ≤ m) : Within o m := by
  obtain ⟨p, h1, h2⟩ := h
  exact ⟨p, h1, by omega⟩

theorem within_app {a b : Option (List UInt8)} {n m : Nat} (ha : Within a n) (hb : Within b m) :
    Within (optApp a b) (n + m) := by
  obtain ⟨p, rfl, h1⟩ := ha
  obtain ⟨q, rfl, h2⟩ := hb
  exact ⟨p ++ q, rfl, by simp only [List.length_append]; omega⟩

theorem tag_len (id t : UInt64) : (tagBytes id t).length ≤ 10 := Pbf.leb128_length_le10 _

theorem within_field {fix : Nat → List UInt8} {limit : Nat} (id : UInt64) (hfix : ∀ n, (fix n).length ≤ 4)
    {o : Option (List UInt8)} {n : Nat} (h : Within o n) (hn : n < limit) : Within (optField fix limit id o) (n + 14) := by
  obtain ⟨p, rfl, h1⟩ := h
  refine ⟨_, if_pos (by omega), ?_⟩
  have := hfix p.length
  have := tag_len id PbFixedBytes
  simp only [List.length_append]
  omega

theorem fix2_len (n : Nat) : (fix2 n).length ≤ 4 := by simp [fix2]
theorem fix4_len (n : Nat) : (fix4 n).length ≤ 4 := by simp [fix4]

theorem within_concat {α : Type} {f : α → Option (List UInt8)} {g : α → Nat} {xs : List α}
    (h : ∀ x ∈ xs, Within (f x) (g x)) : Within (optConcat f xs) (xs.map g).sum := by
  induction xs with
  | nil => exact within_some (Nat.le_refl _)
  | cons x xs ih =>
    rw [List.map_cons, List.sum_cons]
    exact within_app (h x (by simp)) (ih fun y hy => h y (by simp [hy]))

theorem bufField_len (id : UInt64) (p : List UInt8) : (bufField id p).length ≤ p.length + 20 := by
  unfold bufField
  have := tag_len id PbFixedBytes
  have := Pbf.leb128_length_le10 (UInt64.ofNat p.length)
  simp only [List.length_append]
  omega

theorem varField_len (id v : UInt64) : (varField id v).length ≤ 20 := by
  unfold varField
  have := tag_len id PbVarInt
  have := Pbf.leb128_length_le10 v
  simp only [List.length_append]
  omega

theorem flatMap_len {α : Type} (f : α → List UInt8) (g : α → Nat) (xs : List α) (h : ∀ x ∈ xs, (f x).length ≤ g x) :
    (xs.flatMap f).length ≤ (xs.map g).sum := by
  induction xs with
  | nil => simp
  | cons x xs ih =>
    rw [List.flatMap_cons, List.length_append, List.map_cons, List.sum_cons]
    have := h x (by simp)
    have := ih fun y hy => h y (by simp [hy])
    omega

theorem deltas_len (last : Int64) (vs : List Int64) : (deltaVarints last vs).length ≤ 10 * vs.length := by
  induction vs generalizing last with
  | nil => simp [deltaVarints]
  | cons v vs ih =>
    have := ih v
    have := Pbf.leb128_length_le10 (EncodeZigZag (v - last))
    unfold deltaVarints
    rw [List.length_append, List.length_cons]
    omega

theorem way_within (w : Way) (h : wayRoom w ≤ 16384) : Within (optField fix2 16384 3 (wayBytes w)) (wayRoom w) := by
  unfold wayRoom at h
  have h1 : Within (some (varField 1 w.ID.toUInt64)) 20 := within_some (varField_len _ _)
  have h2 := within_field (limit := 16384) 2 fix2_len
    (within_some (p := u32Payload w.Keys) (n := sizeU32 w.Keys) (by rw [u32Payload_size]; exact Nat.le_refl _)) (by omega)
  have h3 := within_field (limit := 16384) 3 fix2_len
    (within_some (p := u32Payload w.Vals) (n := sizeU32 w.Vals) (by rw [u32Payload_size]; exact Nat.le_refl _)) (by omega)
  have h4 := within_field (limit := 16384) 8 fix2_len (within_some (deltas_len 0 w.Refs)) (by omega)
  refine (within_field 3 fix2_len (within_app h1 (within_app h2 (within_app h3 h4))) (by omega)).mono ?_
  unfold wayRoom
  omega

theorem group_within {g : T.PrimitiveGroup} (hs : GroupShape reader g) (h : ∀ w ∈ g.Ways, wayRoom w ≤ 16384) :
    Within (groupBytes g) (groupRoom g - 20) := by
  obtain ⟨s1, s2, s3⟩ := hs
  simp only [reader, if_true] at s1 s3
  simp only [reader, Bool.false_eq_true, if_false] at s2
  unfold groupBytes
  rw [s1, s2, s3]
  have h1 : Within (match (none : Option DenseNodes), g.RawDense with
      | some dn, _ => optField fix4 268435456 2 (denseBytes dn)
      | none, some raw => some (bufField 2 raw.bytes)
      | none, none => some []) ((optBytes g.RawDense).length + 20) := by
    cases hd : g.RawDense with
    | none => exact within_some (by simp)
    | some r => exact within_some (bufField_len _ _)
  have h2 : Within (if g.Ways ≠ [] then optConcat (fun w => optField fix2 16384 3 (wayBytes w)) g.Ways
        else some (([] : List Slice).flatMap fun w => bufField 3 w.bytes)) (g.Ways.map wayRoom).sum := by
    by_cases hw : g.Ways = []
    · rw [if_neg (by simpa using hw)]
      exact within_some (by simp)
    · rw [if_pos hw]
      exact within_concat fun w hw => way_within w (h w hw)
  refine (within_app h1 (within_app h2 ?_)).mono (m := groupRoom g - 20) (?_ :
    (optBytes g.RawDense).length + 20 + ((g.Ways.map wayRoom).sum + (g.RawRelations.map fun r => r.bytes.length + 20).sum) ≤ _)
  · rw [if_neg (by simp)]
    exact within_some (flatMap_len _ _ _ fun x _ => bufField_len _ _)
  · unfold groupRoom
    omega

theorem mem_le_sum {l : List Nat} {x : Nat} (h : x ∈ l) : x ≤ l.sum := by
  induction l with
  | nil => cases h
  | cons y l ih =>
    rw [List.sum_cons]
    rcases List.mem_cons.1 h with rfl | h
    · omega
    · have := ih h
      omega

theorem groupRoom_ge (g : T.PrimitiveGroup) : 50 ≤ groupRoom g := by unfold groupRoom; omega

theorem block_within {b : PrimitiveBlock} (hs : BlockShape reader b) (h : Small b) :
    Within (blockBytes b) (blockRoom b - 1) := by
  obtain ⟨s1, s2⟩ := hs
  obtain ⟨h1, h2⟩ := h
  simp only [reader, if_true] at s1
  have hgs : ∀ g ∈ b.PrimitiveGroup, groupRoom g ≤ (b.PrimitiveGroup.map groupRoom).sum := by
    intro g hg
    exact mem_le_sum (List.mem_map_of_mem hg)
  unfold blockRoom at h2
  unfold blockBytes
  rw [s1]
  have h3 : Within (match (none : Option StringTable), b.StringTableRaw with
      | some st, _ => optField fix4 268435456 1 (some (stringTableBytes st))
      | none, some raw => some (bufField 1 raw.bytes)
      | none, none => some []) ((optBytes b.StringTableRaw).length + 20) := by
    cases hd : b.StringTableRaw with
    | none => exact within_some (by simp)
    | some r => exact within_some (bufField_len _ _)
  have h4 : Within (optConcat (fun g => optField fix4 268435456 2 (groupBytes g)) b.PrimitiveGroup)
      (b.PrimitiveGroup.map groupRoom).sum := by
    refine within_concat fun g hg => ?_
    have := groupRoom_ge g
    have := hgs g hg
    exact (within_field 2 fix4_len (group_within (s2 g hg) (h1 g hg)) (by omega)).mono (by omega)
  have h5 : Within (some (blockTail b)) 80 := by
    refine within_some ?_
    unfold blockTail
    have := varField_len 17 b.Granularity.toInt64.toUInt64
    have := varField_len 18 b.DateGranularity.toInt64.toUInt64
    have := varField_len 19 b.LatOffset.toUInt64
    have := varField_len 20 b.LonOffset.toUInt64
    simp only [List.length_append]
    split <;> split <;> split <;> split <;> (try simp only [List.length_nil]) <;> omega
  refine (within_app h3 (within_app h4 h5)).mono ?_
  unfold blockRoom
  omega

theorem small_writes {b : PrimitiveBlock} (hs : BlockShape reader b) (h : Small b) :
    ∃ blob, Blob.zero.Write (some b.Write) [] = .ok blob := by
  obtain ⟨p, h1, h2⟩ := block_within hs h
  have hf : ∀ buf, b.Write buf = .ok (buf ++ p) := by
    intro buf
    rw [block_embSpec b buf, h1]
    rfl
  have := h.2
  obtain ⟨msg, h3, _⟩ := (Props.C15_blob_func_round_trip Blob.zero b.Write p hf []).2 (by omega)
  exact ⟨_, h3⟩

theorem mapRefs_small {b : PrimitiveBlock} (f : Int64 → Int64) (h : Small b) : Small (mapRefs f b) := by
  obtain ⟨h1, h2⟩ := h
  constructor
  · intro g hg w hw
    obtain ⟨g', hg', rfl⟩ := List.mem_map.1 hg
    obtain ⟨w', hw', rfl⟩ := List.mem_map.1 hw
    have := h1 g' hg' w' hw'
    unfold wayRoom at this ⊢
    simpa using this
  · unfold blockRoom mapRefs at *
    simp only [List.map_map] at *
    have : (groupRoom ∘ fun g : T.PrimitiveGroup =>
        { g with Ways := g.Ways.map fun w => { w with Refs := w.Refs.map f } }) = groupRoom := by
      funext g
      simp only [Function.comp, groupRoom, List.map_map]
      congr 3
      congr 1
      apply List.map_congr_left
      intro w _
      simp [wayRoom]
    rw [this]
    exact h2

theorem trim_small {b : PrimitiveBlock} (h : Small (trimBlock b)) : Small b := by
  obtain ⟨h1, h2⟩ := h
  constructor
  · intro g hg w hw
    exact h1 (trimGroup g) (List.mem_map_of_mem hg) w hw
  · unfold blockRoom at *
    have e1 : (optBytes (trimBlock b).StringTableRaw).length = (optBytes b.StringTableRaw).length := by
      unfold trimBlock; cases b.StringTableRaw <;> rfl
    have e2 : (trimBlock b).PrimitiveGroup.map groupRoom = b.PrimitiveGroup.map groupRoom := by
      unfold trimBlock
      simp only [List.map_map]
      apply List.map_congr_left
      intro g _
      simp only [Function.comp, groupRoom, trimGroup, List.map_map]
      congr 2
      cases g.RawDense <;> rfl
    rw [e1, e2] at h2
    exact h2

end Osm.Rewrite
