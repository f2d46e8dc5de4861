import Verif.Lemmas.Builder
import Verif.Spec.Messages

namespace Osm.T
open Osm Osm.Spec

/-! ### Which strings are added -/

theorem addMap_eq (stb : Builder) (m : TagMap) :
    stb.AddMap m = (tagStrings m).foldl Builder.AddString stb := by
  unfold Builder.AddMap tagStrings
  induction m generalizing stb with
  | nil => rfl
  | cons e m ih => simp [ih]

theorem nodesAddTags_eq (ns : List HLNode) (stb : Builder) :
    nodesAddTags ns stb = (ns.flatMap fun n => tagStrings n.Tags).foldl Builder.AddString stb := by
  unfold nodesAddTags
  induction ns generalizing stb with
  | nil => rfl
  | cons n ns ih =>
    rw [List.foldl_cons, ih, List.flatMap_cons, List.foldl_append, addMap_eq]

theorem waysAddTags_eq (ns : List HLWay) (stb : Builder) :
    waysAddTags ns stb = (ns.flatMap fun n => tagStrings n.Tags).foldl Builder.AddString stb := by
  unfold waysAddTags
  induction ns generalizing stb with
  | nil => rfl
  | cons n ns ih =>
    rw [List.foldl_cons, ih, List.flatMap_cons, List.foldl_append, addMap_eq]

theorem relationsAddTags_eq (ns : List HLRelation) (stb : Builder) :
    relationsAddTags ns stb
      = (ns.flatMap fun n => tagStrings n.Tags ++ n.Roles).foldl Builder.AddString stb := by
  unfold relationsAddTags
  induction ns generalizing stb with
  | nil => rfl
  | cons n ns ih =>
    rw [List.foldl_cons, ih, List.flatMap_cons, List.foldl_append, List.foldl_append, addMap_eq]

theorem assembleStrings_eq (ns : List HLNode) (ws : List HLWay) (rs : List HLRelation) :
    assembleStrings ns ws rs = (added (blockStrings ns ws rs)).Finalize := by
  unfold assembleStrings blockStrings added
  rw [nodesAddTags_eq, waysAddTags_eq, relationsAddTags_eq, List.foldl_append, List.foldl_append]

/-! ### mapRes -/

theorem mapRes_ok {α β : Type} {f : α → Res β} {g : α → β} (xs : List α)
    (h : ∀ x ∈ xs, f x = .ok (g x)) : mapRes f xs = .ok (xs.map g) := by
  induction xs with
  | nil => rfl
  | cons x xs ih =>
    unfold mapRes
    rw [h x (by simp), ih fun y hy => h y (by simp [hy])]
    rfl

/-! ### Tags -/

/-- Index of a string in the table. -/
def ix (xs : List GoStr) (s : GoStr) : UInt32 := UInt32.ofNat ((table xs).idxOf s)

/-- A map in key order. -/
def sortedTags (m : TagMap) : TagMap := (sortBy strLt (m.map (·.1))).map fun k => (k, m.get k)

theorem get_of_mem {m : TagMap} (hm : IsMap m) {k v : GoStr} (h : (k, v) ∈ m) : m.get k = v := by
  have : m.lookup k = some v := by
    unfold IsMap at hm
    induction m with
    | nil => simp at h
    | cons e m ih =>
      obtain ⟨k', v'⟩ := e
      simp only [List.map_cons, List.nodup_cons] at hm
      rw [List.lookup_cons]
      by_cases hk : k = k'
      · subst hk
        rcases List.mem_cons.1 h with h | h
        · simp at h; subst h; simp
        · exact absurd (List.mem_map_of_mem (f := (·.1)) h) hm.1
      · have : (k == k') = false := by simpa using hk
        rw [this]
        rcases List.mem_cons.1 h with h | h
        · simp at h; exact absurd h.1 hk
        · exact ih hm.2 h
  unfold TagMap.get
  rw [this]

theorem map_get_self {m : TagMap} (hm : IsMap m) : (m.map (·.1)).map (fun k => (k, m.get k)) = m := by
  rw [List.map_map]
  conv => rhs; rw [← List.map_id m]
  apply List.map_congr_left
  intro e he
  obtain ⟨k, v⟩ := e
  simp [get_of_mem hm he]

theorem sortedTags_perm {m : TagMap} (hm : IsMap m) : (sortedTags m).Perm m := by
  have := (sortBy_perm strLt (m.map (·.1))).map (fun k => (k, m.get k))
  rw [map_get_self hm] at this
  exact this

theorem sortedTags_keys (m : TagMap) : (sortedTags m).map (·.1) = sortBy strLt (m.map (·.1)) := by
  unfold sortedTags; simp [List.map_map, Function.comp_def]

theorem sortedTags_isMap {m : TagMap} (hm : IsMap m) : IsMap (sortedTags m) := by
  unfold IsMap
  rw [sortedTags_keys, (sortBy_perm _ _).nodup_iff]
  exact hm

theorem get_perm {m m' : TagMap} (hm : IsMap m) (h : m'.Perm m) (k : GoStr) (hk : k ∈ m.map (·.1)) :
    m'.get k = m.get k := by
  simp only [List.mem_map] at hk
  obtain ⟨⟨k', v⟩, he, rfl⟩ := hk
  have hm' : IsMap m' := by
    unfold IsMap; rw [(h.map (·.1)).nodup_iff]; exact hm
  rw [get_of_mem hm he, get_of_mem hm' (h.mem_iff.2 he)]

theorem sortedTags_congr {m m' : TagMap} (hm : IsMap m) (h : m'.Perm m) :
    sortedTags m' = sortedTags m := by
  unfold sortedTags
  rw [sortBy_congr strLt_strictTotal (h.map (·.1))]
  apply List.map_congr_left
  intro k hk
  rw [(sortBy_perm _ _).mem_iff] at hk
  rw [get_perm hm h k hk]

theorem pairs_eq (xs : List GoStr) (m : TagMap) (hm : IsMap m) (hs : ∀ s ∈ tagStrings m, s ∈ xs) :
    (added xs).Finalize.pairs m = .ok ((sortedTags m).map fun e => (ix xs e.1, ix xs e.2)) := by
  unfold Finalized.pairs
  rw [mapRes_ok (g := fun k => (ix xs k, ix xs (m.get k)))]
  · unfold sortedTags; simp [List.map_map, Function.comp_def]
  · intro k hk
    rw [(sortBy_perm _ _).mem_iff] at hk
    simp only [List.mem_map] at hk
    obtain ⟨⟨k', v⟩, he, rfl⟩ := hk
    have h1 : k' ∈ xs := hs _ (by unfold tagStrings; rw [List.mem_flatMap]; exact ⟨_, he, by simp⟩)
    have h2 : v ∈ xs := hs _ (by unfold tagStrings; rw [List.mem_flatMap]; exact ⟨_, he, by simp⟩)
    rw [get_of_mem hm he, getIndex_eq, getIndex_eq, if_pos (Or.inr h1), if_pos (Or.inr h2)]
    rfl

/-- A block with this string table. -/
def HasTable (b : PrimitiveBlock) (xs : List GoStr) : Prop := b.StringTable = some ⟨table xs⟩

theorem getString_ix {b : PrimitiveBlock} {xs : List GoStr} (hb : HasTable b xs)
    (hl : xs.length < 2 ^ 32) (s : GoStr) (h : s ∈ xs) : b.GetString (ix xs s) = .ok s := by
  unfold PrimitiveBlock.GetString
  rw [hb]
  simp only [ix, (table_get xs hl s (Or.inr h)).2, Res.ofOption_some]

theorem lookup_none_of_not_mem {m : TagMap} {k : GoStr} (h : k ∉ m.map (·.1)) : m.lookup k = none := by
  induction m with
  | nil => rfl
  | cons e m ih =>
    obtain ⟨k', v⟩ := e
    simp only [List.map_cons, List.mem_cons, not_or] at h
    rw [List.lookup_cons]
    have : (k == k') = false := by simpa using h.1
    rw [this]
    exact ih h.2

theorem makeTags_go {b : PrimitiveBlock} {xs : List GoStr} (hb : HasTable b xs)
    (hl : xs.length < 2 ^ 32) : ∀ (m acc : TagMap), IsMap (acc ++ m) → (∀ s ∈ tagStrings m, s ∈ xs) →
    PrimitiveBlock.makeTags.go b acc (m.map fun e => ix xs e.1) (m.map fun e => ix xs e.2)
      = .ok (acc ++ m)
  | [], acc, _, _ => by simp [PrimitiveBlock.makeTags.go]
  | (k, v) :: m, acc, hm, hs => by
    have hk : k ∈ xs := hs _ (by simp [tagStrings])
    have hv : v ∈ xs := hs _ (by simp [tagStrings])
    simp only [List.map_cons]
    unfold PrimitiveBlock.makeTags.go
    rw [getString_ix hb hl k hk]
    simp only [Res.ok_bind, List.head?_cons, Res.ofOption_some]
    rw [getString_ix hb hl v hv]
    simp only [Res.ok_bind, List.tail_cons]
    have hnot : k ∉ acc.map (·.1) := by
      intro h
      unfold IsMap at hm
      simp only [List.map_append, List.map_cons, List.nodup_append, List.mem_cons] at hm
      exact hm.2.2 k h k (Or.inl rfl) rfl
    have hset : acc.set k v = acc ++ [(k, v)] := by
      unfold TagMap.set
      rw [lookup_none_of_not_mem hnot]
      rfl
    rw [hset, makeTags_go hb hl m (acc ++ [(k, v)]) (by simpa using hm)
      (fun s h => hs s (by unfold tagStrings at h ⊢; rw [List.flatMap_cons]; simp [h]))]
    simp

theorem sortedTags_strings {m : TagMap} (hm : IsMap m) {xs : List GoStr}
    (hs : ∀ s ∈ tagStrings m, s ∈ xs) : ∀ s ∈ tagStrings (sortedTags m), s ∈ xs := by
  intro s h
  apply hs
  unfold tagStrings at *
  rw [List.mem_flatMap] at *
  obtain ⟨e, he, h⟩ := h
  exact ⟨e, (sortedTags_perm hm).mem_iff.1 he, h⟩

theorem makeTags_eq {b : PrimitiveBlock} {xs : List GoStr} (hb : HasTable b xs)
    (hl : xs.length < 2 ^ 32) (m : TagMap) (hm : IsMap m) (hs : ∀ s ∈ tagStrings m, s ∈ xs) :
    b.makeTags ((sortedTags m).map fun e => ix xs e.1) ((sortedTags m).map fun e => ix xs e.2)
      = .ok (sortedTags m) := by
  unfold PrimitiveBlock.makeTags
  rw [makeTags_go hb hl (sortedTags m) [] (by simpa using sortedTags_isMap hm)
    (sortedTags_strings hm hs)]
  rfl

/-! ### Ways -/

theorem wayOfHL_eq (xs : List GoStr) (w : HLWay) (hm : IsMap w.Tags)
    (hs : ∀ s ∈ tagStrings w.Tags, s ∈ xs) :
    wayOfHL (added xs).Finalize w = .ok ⟨w.Id, (sortedTags w.Tags).map (fun e => ix xs e.1),
      (sortedTags w.Tags).map (fun e => ix xs e.2), w.Nodes.map (·.toInt64)⟩ := by
  unfold wayOfHL Finalized.ToKeyVals
  rw [pairs_eq xs _ hm hs]
  simp [List.map_map, Function.comp_def]

theorem toHLWay_eq {b : PrimitiveBlock} {xs : List GoStr} (hb : HasTable b xs)
    (hl : xs.length < 2 ^ 32) (w : HLWay) (hm : IsMap w.Tags) (hs : ∀ s ∈ tagStrings w.Tags, s ∈ xs) :
    b.toHLWay ⟨w.Id, (sortedTags w.Tags).map (fun e => ix xs e.1),
      (sortedTags w.Tags).map (fun e => ix xs e.2), w.Nodes.map (·.toInt64)⟩
      = .ok ⟨w.Id, sortedTags w.Tags, w.Nodes⟩ := by
  unfold PrimitiveBlock.toHLWay
  dsimp only
  rw [makeTags_eq hb hl _ hm hs]
  simp [List.map_map, Function.comp_def]

/-! ### Relations -/

theorem relationOfHL_eq (xs : List GoStr) (r : HLRelation) (hm : IsMap r.Tags)
    (hs : ∀ s ∈ tagStrings r.Tags, s ∈ xs) (hr : ∀ s ∈ r.Roles, s ∈ xs) :
    relationOfHL (added xs).Finalize r = .ok ⟨r.Id, (sortedTags r.Tags).map (fun e => ix xs e.1),
      (sortedTags r.Tags).map (fun e => ix xs e.2), r.Roles.map (fun s => (ix xs s).toInt32),
      r.Members, r.MemberType.map (·.toUInt64)⟩ := by
  unfold relationOfHL Finalized.ToKeyVals
  rw [pairs_eq xs _ hm hs]
  simp only [Res.ok_bind]
  rw [mapRes_ok (g := fun s => (ix xs s).toInt32)]
  · simp [List.map_map, Function.comp_def]
  · intro s h
    rw [getIndex_eq, if_pos (Or.inr (hr s h))]
    rfl

theorem toHLRelation_eq {b : PrimitiveBlock} {xs : List GoStr} (hb : HasTable b xs)
    (hl : xs.length < 2 ^ 32) (r : HLRelation) (hm : IsMap r.Tags)
    (hs : ∀ s ∈ tagStrings r.Tags, s ∈ xs) (hr : ∀ s ∈ r.Roles, s ∈ xs) :
    b.toHLRelation ⟨r.Id, (sortedTags r.Tags).map (fun e => ix xs e.1),
      (sortedTags r.Tags).map (fun e => ix xs e.2), r.Roles.map (fun s => (ix xs s).toInt32),
      r.Members, r.MemberType.map (·.toUInt64)⟩
      = .ok ⟨r.Id, sortedTags r.Tags, r.Roles, r.Members, r.MemberType⟩ := by
  unfold PrimitiveBlock.toHLRelation
  dsimp only
  rw [makeTags_eq hb hl _ hm hs]
  simp only [Res.ok_bind]
  have : mapRes (fun role : Int32 => b.GetString role.toUInt32)
      (r.Roles.map fun s => (ix xs s).toInt32) = .ok r.Roles := by
    have key : ∀ l : List GoStr, (∀ s ∈ l, s ∈ xs) →
        mapRes (fun role : Int32 => b.GetString role.toUInt32)
          (l.map fun s => (ix xs s).toInt32) = .ok l := by
      intro l hl'
      induction l with
      | nil => rfl
      | cons s l ih =>
        rw [List.map_cons]
        unfold mapRes
        rw [UInt32.toUInt32_toInt32, getString_ix hb hl s (hl' s (by simp)), ih fun x hx => hl' x (by simp [hx])]
        rfl
    exact key _ hr
  rw [this]
  simp [List.map_map, Function.comp_def]

/-! ### Dense key/values -/

/-- The keys and values of one group. -/
def kvOf (g : List (Int32 × Int32)) : List UInt32 × List UInt32 :=
  (g.map (·.1.toUInt32), g.map (·.2.toUInt32))

/-- The full cache for groups. -/
def fullCache (gs : List (List (Int32 × Int32))) : KVCache :=
  ⟨gs.map fun g => (kvOf g).1, gs.map fun g => (kvOf g).2⟩

theorem fillCache_group : ∀ (g : List (Int32 × Int32)) (ck cv : List UInt32) (c : KVCache)
    (rest : List Int32), (∀ p ∈ g, p.1 ≠ 0) →
    fillCache ck cv c ((g.flatMap fun p => [p.1, p.2]) ++ (0 :: rest))
      = fillCache [] [] ⟨c.keys ++ [ck ++ (kvOf g).1], c.vals ++ [cv ++ (kvOf g).2]⟩ rest
  | [], ck, cv, c, rest, _ => by
    simp [kvOf]
    rw [fillCache.eq_def]
    simp
  | p :: g, ck, cv, c, rest, h => by
    have := fillCache_group g (ck ++ [p.1.toUInt32]) (cv ++ [p.2.toUInt32]) c rest
      (fun q hq => h q (by simp [hq]))
    simp only [List.flatMap_cons, List.cons_append, List.nil_append]
    rw [fillCache.eq_def]
    simp only [if_neg (h p (by simp))]
    rw [this]
    simp [kvOf]

theorem fillCache_open : ∀ (g : List (Int32 × Int32)) (ck cv : List UInt32) (c : KVCache),
    (∀ p ∈ g, p.1 ≠ 0) → fillCache ck cv c (g.flatMap fun p => [p.1, p.2]) = .ok c ∧
      ∀ k : Int32, k ≠ 0 → fillCache ck cv c ((g.flatMap fun p => [p.1, p.2]) ++ [k]) = .panic
  | [], ck, cv, c, _ => by
    refine ⟨by simp [fillCache], fun k hk => ?_⟩
    simp [fillCache, hk]
  | p :: g, ck, cv, c, h => by
    obtain ⟨h1, h2⟩ := fillCache_open g (ck ++ [p.1.toUInt32]) (cv ++ [p.2.toUInt32]) c
      (fun q hq => h q (by simp [hq]))
    simp only [List.flatMap_cons, List.cons_append, List.nil_append]
    refine ⟨?_, fun k hk => ?_⟩
    · rw [fillCache.eq_def]
      simp only [if_neg (h p (by simp))]
      exact h1
    · rw [fillCache.eq_def]
      simp only [if_neg (h p (by simp))]
      exact h2 k hk

theorem fillCache_groups_open : ∀ (gs : List (List (Int32 × Int32))) (c : KVCache) (tail : List Int32),
    (∀ g ∈ gs, ∀ p ∈ g, p.1 ≠ 0) →
    fillCache [] [] c (kvStream gs ++ tail)
      = fillCache [] [] ⟨c.keys ++ (fullCache gs).keys, c.vals ++ (fullCache gs).vals⟩ tail
  | [], c, tail, _ => by simp [kvStream, fullCache]
  | g :: gs, c, tail, h => by
    have ih := fillCache_groups_open gs ⟨c.keys ++ [(kvOf g).1], c.vals ++ [(kvOf g).2]⟩ tail
      (fun x hx => h x (by simp [hx]))
    have e : kvStream (g :: gs) ++ tail
        = (g.flatMap fun p => [p.1, p.2]) ++ (0 :: (kvStream gs ++ tail)) := by simp [kvStream]
    rw [e, fillCache_group g [] [] c _ (h g (by simp))]
    simp only [List.nil_append]
    rw [ih]
    simp [fullCache]

theorem fillCache_groups : ∀ (gs : List (List (Int32 × Int32))) (c : KVCache),
    (∀ g ∈ gs, ∀ p ∈ g, p.1 ≠ 0) →
    fillCache [] [] c (kvStream gs)
      = .ok ⟨c.keys ++ (fullCache gs).keys, c.vals ++ (fullCache gs).vals⟩
  | [], c, _ => by simp [kvStream, fillCache, fullCache]
  | g :: gs, c, h => by
    have ih := fillCache_groups gs ⟨c.keys ++ [(kvOf g).1], c.vals ++ [(kvOf g).2]⟩
      (fun g' hg' => h g' (by simp [hg']))
    have e : kvStream (g :: gs) = (g.flatMap fun p => [p.1, p.2]) ++ (0 :: kvStream gs) := by
      simp [kvStream]
    rw [e, fillCache_group g [] [] c _ (h g (by simp))]
    simp only [List.nil_append]
    rw [ih]
    simp [fullCache]

theorem kvStream_length_pos {gs : List (List (Int32 × Int32))} (h : gs ≠ []) :
    (kvStream gs).length ≠ 0 := by
  cases gs with
  | nil => exact absurd rfl h
  | cons g gs => simp [kvStream]

theorem getKeyVals_eq (dn : DenseNodes) (gs : List (List (Int32 × Int32))) (hne : gs ≠ [])
    (hk : ∀ g ∈ gs, ∀ p ∈ g, p.1 ≠ 0) (hd : dn.KeyVals = kvStream gs) (c : KVCache)
    (hc : c = ⟨[], []⟩ ∨ c = fullCache gs) (i : Nat) :
    dn.GetKeyVals c i = (match gs[i]? with
      | some g => .ok (kvOf g, fullCache gs)
      | none => .panic) := by
  unfold DenseNodes.GetKeyVals
  rw [if_neg (by rw [hd]; exact kvStream_length_pos hne)]
  have hfull : dn.ensureCache c = .ok (fullCache gs) := by
    unfold DenseNodes.ensureCache
    rcases hc with rfl | rfl
    · simp only [List.length_nil, if_true]
      rw [hd, fillCache_groups gs _ hk]
      simp
    · rw [if_neg]
      simpa [fullCache] using hne
  rw [hfull]
  simp only [Res.ok_bind, fullCache, List.getElem?_map]
  cases gs[i]? with
  | none => rfl
  | some g => rfl

/-! ### Nodes -/

/-- The key/value group of a tag map. -/
def groupOf (xs : List GoStr) (m : TagMap) : List (Int32 × Int32) :=
  (sortedTags m).map fun e => ((ix xs e.1).toInt32, (ix xs e.2).toInt32)

theorem kvOf_groupOf (xs : List GoStr) (m : TagMap) :
    kvOf (groupOf xs m) = ((sortedTags m).map (fun e => ix xs e.1), (sortedTags m).map (fun e => ix xs e.2)) := by
  simp [kvOf, groupOf, List.map_map, Function.comp_def]

theorem toKeyValLinear_eq (xs : List GoStr) (m : TagMap) (hm : IsMap m)
    (hs : ∀ s ∈ tagStrings m, s ∈ xs) :
    (added xs).Finalize.ToKeyValLinear m = .ok ((groupOf xs m).flatMap fun p => [p.1, p.2]) := by
  unfold Finalized.ToKeyValLinear
  rw [pairs_eq xs _ hm hs]
  simp [groupOf, List.flatMap_map]

theorem nodesKeyVals_eq (xs : List GoStr) (ns : List HLNode) (hm : ∀ n ∈ ns, IsMap n.Tags)
    (hs : ∀ n ∈ ns, ∀ s ∈ tagStrings n.Tags, s ∈ xs) :
    nodesKeyVals (added xs).Finalize ns = .ok (kvStream (ns.map fun n => groupOf xs n.Tags)) := by
  unfold nodesKeyVals
  rw [mapRes_ok (g := fun n : HLNode => (groupOf xs n.Tags).flatMap fun p => [p.1, p.2])]
  · simp [kvStream, List.flatMap_map]
  · intro n hn
    exact toKeyValLinear_eq xs _ (hm n hn) (hs n hn)

theorem ix_ne_zero (xs : List GoStr) (hl : xs.length < 2 ^ 32) (he : [] ∉ xs) (s : GoStr)
    (h : s ∈ xs) : (ix xs s).toInt32 ≠ 0 := by
  intro e
  have e0 : ix xs s = 0 := by
    have := congrArg Int32.toUInt32 e
    rw [UInt32.toUInt32_toInt32] at this
    exact this
  obtain ⟨h1, h2⟩ := table_get xs hl s (Or.inr h)
  obtain ⟨h3, h4⟩ := table_get xs hl [] (Or.inl rfl)
  rw [table_head xs hl he] at h4
  unfold ix at e0
  rw [e0] at h2
  have : some s = some ([] : GoStr) := by rw [← h2, ← h4]; rfl
  simp at this
  subst this
  exact he h

theorem groupOf_ne_zero (xs : List GoStr) (hl : xs.length < 2 ^ 32) (he : [] ∉ xs) (m : TagMap)
    (hm : IsMap m) (hs : ∀ s ∈ tagStrings m, s ∈ xs) : ∀ p ∈ groupOf xs m, p.1 ≠ 0 := by
  intro p hp
  unfold groupOf at hp
  simp only [List.mem_map] at hp
  obtain ⟨⟨k, v⟩, he', rfl⟩ := hp
  exact ix_ne_zero xs hl he _ (sortedTags_strings hm hs _ (by
    unfold tagStrings; rw [List.mem_flatMap]; exact ⟨_, he', by simp⟩))

/-- If the stream has one value per node, no node has tags. -/
theorem kvStream_length_eq (gs : List (List (Int32 × Int32))) :
    gs.length ≤ (kvStream gs).length ∧
      ((kvStream gs).length = gs.length → ∀ g ∈ gs, g = []) := by
  induction gs with
  | nil => simp [kvStream]
  | cons g gs ih =>
    have e : (kvStream (g :: gs)).length = 2 * g.length + 1 + (kvStream gs).length := by
      have : (g.flatMap fun p => [p.1, p.2]).length = 2 * g.length := by
        induction g with
        | nil => rfl
        | cons p g ih => simp [ih]; omega
      simp only [kvStream, List.flatMap_cons, List.length_append, this]
      simp
    rw [e]
    refine ⟨by simp; omega, fun h => ?_⟩
    simp only [List.length_cons] at h
    intro x hx
    rcases List.mem_cons.1 hx with rfl | hx
    · have : x.length = 0 := by omega
      simpa using this
    · exact ih.2 (by omega) x hx

/-- What comes back for a node. -/
def nodeBack (n : HLNode) : HLNode :=
  ⟨n.Id, sortedTags n.Tags, 0 + (100 : Int32).toInt64 * (n.Lat / 100),
    0 + (100 : Int32).toInt64 * (n.Lon / 100)⟩

theorem denseNodes_eq {b : PrimitiveBlock} {xs : List GoStr} (hb : HasTable b xs)
    (hg : b.Granularity = 100) (h1 : b.LatOffset = 0) (h2 : b.LonOffset = 0)
    (hl : xs.length < 2 ^ 32) (ns : List HLNode) (dn : DenseNodes)
    (hlat : dn.Lat = ns.map (·.Lat / 100)) (hlon : dn.Lon = ns.map (·.Lon / 100))
    (hm : ∀ n ∈ ns, IsMap n.Tags) (hs : ∀ n ∈ ns, ∀ s ∈ tagStrings n.Tags, s ∈ xs)
    (P : KVCache → Prop)
    (hkv : ∀ c i, P c → ∀ n, ns[i]? = some n → ∃ c', P c' ∧
      dn.GetKeyVals c i = .ok (((sortedTags n.Tags).map (fun e => ix xs e.1),
        (sortedTags n.Tags).map (fun e => ix xs e.2)), c')) :
    ∀ (todo : List HLNode) (i : Nat) (c : KVCache), P c → ns.drop i = todo →
      b.denseNodes dn c i (todo.map (·.Id.toInt64)) = .ok (todo.map nodeBack)
  | [], i, c, _, _ => by simp [PrimitiveBlock.denseNodes]
  | n :: todo, i, c, hc, hd => by
    have hi : ns[i]? = some n := by
      have := congrArg (·[0]?) hd
      simpa using this
    have hmem : n ∈ ns := List.mem_of_getElem? hi
    obtain ⟨c', hc', hget⟩ := hkv c i hc n hi
    rw [List.map_cons]
    unfold PrimitiveBlock.denseNodes
    rw [hget]
    simp only [Res.ok_bind]
    rw [makeTags_eq hb hl _ (hm n hmem) (hs n hmem)]
    simp only [Res.ok_bind, hlat, hlon, List.getElem?_map, hi, Option.map_some, Res.ofOption_some]
    rw [denseNodes_eq hb hg h1 h2 hl ns dn hlat hlon hm hs P hkv todo (i + 1) c' hc'
      (by rw [← List.drop_drop, hd]; rfl)]
    simp only [Res.ok_bind, hg, h1, h2]
    rfl

theorem trunc_eq (x : Int64) : (0 + (100 : Int32).toInt64 * (x / 100)).toInt = x.toInt.tdiv 100 * 100 := by
  have e : ((100 : Int32).toInt64 : Int64) = 100 := by decide
  rw [e]
  have hne : (100 : Int64) ≠ -1 := by decide
  have hd : (x / 100).toInt = x.toInt.tdiv 100 := by
    rw [Int64.toInt_div_of_ne_right _ _ hne]; rfl
  have h1 := x.le_toInt
  have h2 := x.toInt_lt
  rw [Int64.zero_add, Int64.toInt_mul, hd]
  rw [show (100 : Int64).toInt = 100 from rfl]
  have hb : (100 * x.toInt.tdiv 100 : Int) = x.toInt.tdiv 100 * 100 := Int.mul_comm _ _
  have ht : x.toInt.tdiv 100 * 100 = x.toInt - x.toInt.tmod 100 := by
    have := Int.tmod_add_mul_tdiv x.toInt 100
    omega
  rw [hb]
  have hm : -(2 ^ 63) ≤ x.toInt.tdiv 100 * 100 ∧ x.toInt.tdiv 100 * 100 < 2 ^ 63 := by
    rw [ht]
    rcases Int.lt_or_le x.toInt 0 with hneg | hpos
    · have := Int.tmod_nonneg (a := -x.toInt) 100 (by omega)
      rw [Int.neg_tmod] at this
      have h3 := Int.lt_tmod_of_pos x.toInt (b := 100) (by omega)
      omega
    · have := Int.tmod_nonneg (a := x.toInt) 100 hpos
      have h3 := Int.tmod_lt_of_pos x.toInt (b := 100) (by omega)
      omega
  exact Int.bmod_eq_of_le (by omega) (by omega)

end Osm.T

namespace Osm.T
open Osm Osm.Spec

/-! ### The assembled block -/

theorem mapRes_append {α β : Type} (f : α → Res β) (xs ys : List α) (a b : List β)
    (h1 : mapRes f xs = .ok a) (h2 : mapRes f ys = .ok b) : mapRes f (xs ++ ys) = .ok (a ++ b) := by
  induction xs generalizing a with
  | nil =>
    simp only [mapRes, Res.ok.injEq] at h1
    subst h1
    simpa using h2
  | cons x xs ih =>
    rw [List.cons_append]
    unfold mapRes at h1 ⊢
    rw [Res.bind_eq_ok] at h1
    obtain ⟨y, hy, h1⟩ := h1
    rw [Res.bind_eq_ok] at h1
    obtain ⟨ys', hys, h1⟩ := h1
    simp only [Res.ok.injEq] at h1
    rw [hy, Res.ok_bind, ih _ hys, Res.ok_bind, ← h1]
    rfl

theorem sortedTags_nil : sortedTags [] = [] := by simp [sortedTags, sortBy]

theorem flatten_if {α : Type} (p : Prop) [Decidable p] :
    (if p then ([[]] : List (List α)) else []).flatten = [] := by split <;> rfl

theorem flatten_if_list {α β : Type} (xs : List α) (f : α → β) :
    (if xs.length > 0 then [xs.map f] else []).flatten = xs.map f := by
  cases xs <;> simp

/-- The key/values written for nodes. -/
def nodesKV (xs : List GoStr) (ns : List HLNode) : List Int32 :=
  let kv := kvStream (ns.map fun n => groupOf xs n.Tags)
  if kv.length = ns.length then [] else kv

/-- The dense section. -/
def denseOf (xs : List GoStr) (ns : List HLNode) : DenseNodes :=
  ⟨ns.map (·.Id.toInt64), ns.map (·.Lat / 100), ns.map (·.Lon / 100), nodesKV xs ns⟩

/-- The way. -/
def wayOf (xs : List GoStr) (w : HLWay) : Way :=
  ⟨w.Id, (sortedTags w.Tags).map (fun e => ix xs e.1), (sortedTags w.Tags).map (fun e => ix xs e.2),
    w.Nodes.map (·.toInt64)⟩

/-- The relation. -/
def relOf (xs : List GoStr) (r : HLRelation) : Relation :=
  ⟨r.Id, (sortedTags r.Tags).map (fun e => ix xs e.1), (sortedTags r.Tags).map (fun e => ix xs e.2),
    r.Roles.map (fun s => (ix xs s).toInt32), r.Members, r.MemberType.map (·.toUInt64)⟩

/-- The groups. -/
def gNodes (xs : List GoStr) (ns : List HLNode) : List PrimitiveGroup :=
  if ns.length > 0 then [{ PrimitiveGroup.zero with Dense := some (denseOf xs ns) }] else []
/-- The groups. -/
def gWays (xs : List GoStr) (ws : List HLWay) : List PrimitiveGroup :=
  if ws.length > 0 then [{ PrimitiveGroup.zero with Ways := ws.map (wayOf xs) }] else []
/-- The groups. -/
def gRels (xs : List GoStr) (rs : List HLRelation) : List PrimitiveGroup :=
  if rs.length > 0 then [{ PrimitiveGroup.zero with Relations := rs.map (relOf xs) }] else []

/-- The assembled block. -/
def asm (ns : List HLNode) (ws : List HLWay) (rs : List HLRelation) : PrimitiveBlock :=
  let xs := blockStrings ns ws rs
  ⟨none, some ⟨table xs⟩, gNodes xs ns ++ gWays xs ws ++ gRels xs rs, 100, 1000, 0, 0⟩

theorem node_strings {ns : List HLNode} {ws : List HLWay} {rs : List HLRelation} {n : HLNode}
    (h : n ∈ ns) : ∀ s ∈ tagStrings n.Tags, s ∈ blockStrings ns ws rs := by
  intro s hs
  unfold blockStrings
  simp only [List.mem_append, List.mem_flatMap]
  exact Or.inl ⟨n, h, hs⟩

theorem way_strings {ns : List HLNode} {ws : List HLWay} {rs : List HLRelation} {n : HLWay}
    (h : n ∈ ws) : ∀ s ∈ tagStrings n.Tags, s ∈ blockStrings ns ws rs := by
  intro s hs
  unfold blockStrings
  simp only [List.mem_append, List.mem_flatMap]
  exact Or.inr (Or.inl ⟨n, h, hs⟩)

theorem rel_strings {ns : List HLNode} {ws : List HLWay} {rs : List HLRelation} {n : HLRelation}
    (h : n ∈ rs) : (∀ s ∈ tagStrings n.Tags, s ∈ blockStrings ns ws rs) ∧
      (∀ s ∈ n.Roles, s ∈ blockStrings ns ws rs) := by
  constructor
  · intro s hs
    unfold blockStrings
    simp only [List.mem_append, List.mem_flatMap]
    exact Or.inr (Or.inr ⟨n, h, Or.inl hs⟩)
  · intro s hs
    unfold blockStrings
    simp only [List.mem_append, List.mem_flatMap]
    exact Or.inr (Or.inr ⟨n, h, Or.inr hs⟩)

theorem groupIf_eq {α : Type} (xs : List α) (f : List α → Res PrimitiveGroup) (g : PrimitiveGroup)
    (h : f xs = .ok g) : groupIf xs f = .ok (if xs.length > 0 then [g] else []) := by
  unfold groupIf
  split
  · rw [h]; rfl
  · rfl

theorem make_eq (ns : List HLNode) (ws : List HLWay) (rs : List HLRelation)
    (hm : TagsAreMaps ns ws rs) : MakePrimitiveBlock ns ws rs = .ok (asm ns ws rs) := by
  unfold MakePrimitiveBlock
  dsimp only
  rw [assembleStrings_eq]
  have h1 : nodesToPrimitiveGroup (added (blockStrings ns ws rs)).Finalize ns
      = .ok { PrimitiveGroup.zero with Dense := some (denseOf (blockStrings ns ws rs) ns) } := by
    unfold nodesToPrimitiveGroup
    rw [nodesKeyVals_eq _ _ hm.1 fun n hn => node_strings hn]
    simp only [Res.ok_bind]
    rfl
  have h2 : waysToPrimitiveGroup (added (blockStrings ns ws rs)).Finalize ws
      = .ok { PrimitiveGroup.zero with Ways := ws.map (wayOf (blockStrings ns ws rs)) } := by
    unfold waysToPrimitiveGroup
    rw [mapRes_ok (g := wayOf (blockStrings ns ws rs)) ws fun w hw =>
      wayOfHL_eq _ w (hm.2.1 w hw) (way_strings hw)]
    rfl
  have h3 : relationsToPrimitiveGroup (added (blockStrings ns ws rs)).Finalize rs
      = .ok { PrimitiveGroup.zero with Relations := rs.map (relOf (blockStrings ns ws rs)) } := by
    unfold relationsToPrimitiveGroup
    rw [mapRes_ok (g := relOf (blockStrings ns ws rs)) rs fun w hw =>
      relationOfHL_eq _ w (hm.2.2 w hw) (rel_strings hw).1 (rel_strings hw).2]
    rfl
  rw [groupIf_eq _ _ _ h1, groupIf_eq _ _ _ h2, groupIf_eq _ _ _ h3]
  rfl

theorem asm_hasTable (ns : List HLNode) (ws : List HLWay) (rs : List HLRelation) :
    HasTable (asm ns ws rs) (blockStrings ns ws rs) := rfl

theorem asm_shape (ns : List HLNode) (ws : List HLWay) (rs : List HLRelation) :
    BlockShape readAll (asm ns ws rs) := by
  refine ⟨rfl, fun g hg => ?_⟩
  simp only [asm, gNodes, gWays, gRels, List.mem_append] at hg
  rcases hg with (hg | hg) | hg <;>
  · split at hg
    · simp only [List.mem_singleton] at hg
      subst hg
      exact ⟨rfl, rfl, rfl⟩
    · simp at hg

theorem asm_toWays (ns : List HLNode) (ws : List HLWay) (rs : List HLRelation)
    (hm : TagsAreMaps ns ws rs) (hl : (blockStrings ns ws rs).length < 2 ^ 32) :
    (asm ns ws rs).ToWays = .ok (ws.map fun w => ⟨w.Id, sortedTags w.Tags, w.Nodes⟩) := by
  unfold PrimitiveBlock.ToWays
  have hn : mapRes (fun pg : PrimitiveGroup => mapRes (asm ns ws rs).toHLWay pg.Ways)
      (gNodes (blockStrings ns ws rs) ns) = .ok (if ns.length > 0 then [[]] else []) := by
    unfold gNodes; split <;> rfl
  have hr : mapRes (fun pg : PrimitiveGroup => mapRes (asm ns ws rs).toHLWay pg.Ways)
      (gRels (blockStrings ns ws rs) rs) = .ok (if rs.length > 0 then [[]] else []) := by
    unfold gRels; split <;> rfl
  have hw : mapRes (fun pg : PrimitiveGroup => mapRes (asm ns ws rs).toHLWay pg.Ways)
      (gWays (blockStrings ns ws rs) ws)
      = .ok (if ws.length > 0 then [ws.map fun w => ⟨w.Id, sortedTags w.Tags, w.Nodes⟩] else []) := by
    unfold gWays
    split
    · simp only [mapRes]
      have key : ∀ l : List HLWay, (∀ w ∈ l, w ∈ ws) → mapRes (asm ns ws rs).toHLWay
          (l.map (wayOf (blockStrings ns ws rs)))
          = .ok (l.map fun w => ⟨w.Id, sortedTags w.Tags, w.Nodes⟩) := by
        intro l hlw
        induction l with
        | nil => rfl
        | cons w l ih =>
          simp only [List.map_cons, mapRes]
          rw [ih fun x hx => hlw x (by simp [hx])]
          have hw := hlw w (by simp)
          unfold wayOf
          rw [toHLWay_eq (asm_hasTable ns ws rs) hl w (hm.2.1 w hw) (way_strings hw)]
          rfl
      rw [key ws fun _ h => h]
      rfl
    · rfl
  have := mapRes_append _ _ _ _ _ (mapRes_append _ _ _ _ _ hn hw) hr
  unfold asm at this ⊢
  dsimp only at this ⊢
  rw [this]
  simp only [Res.ok_bind, Res.ok.injEq, List.flatten_append, flatten_if, flatten_if_list,
    List.nil_append, List.append_nil]

theorem asm_toRelations (ns : List HLNode) (ws : List HLWay) (rs : List HLRelation)
    (hm : TagsAreMaps ns ws rs) (hl : (blockStrings ns ws rs).length < 2 ^ 32) :
    (asm ns ws rs).ToRelations
      = .ok (rs.map fun r => ⟨r.Id, sortedTags r.Tags, r.Roles, r.Members, r.MemberType⟩) := by
  unfold PrimitiveBlock.ToRelations
  have hn : mapRes (fun pg : PrimitiveGroup => mapRes (asm ns ws rs).toHLRelation pg.Relations)
      (gNodes (blockStrings ns ws rs) ns) = .ok (if ns.length > 0 then [[]] else []) := by
    unfold gNodes; split <;> rfl
  have hr : mapRes (fun pg : PrimitiveGroup => mapRes (asm ns ws rs).toHLRelation pg.Relations)
      (gWays (blockStrings ns ws rs) ws) = .ok (if ws.length > 0 then [[]] else []) := by
    unfold gWays; split <;> rfl
  have hw : mapRes (fun pg : PrimitiveGroup => mapRes (asm ns ws rs).toHLRelation pg.Relations)
      (gRels (blockStrings ns ws rs) rs)
      = .ok (if rs.length > 0 then [rs.map fun r => ⟨r.Id, sortedTags r.Tags, r.Roles, r.Members, r.MemberType⟩] else []) := by
    unfold gRels
    split
    · simp only [mapRes]
      have key : ∀ l : List HLRelation, (∀ w ∈ l, w ∈ rs) → mapRes (asm ns ws rs).toHLRelation
          (l.map (relOf (blockStrings ns ws rs)))
          = .ok (l.map fun r => ⟨r.Id, sortedTags r.Tags, r.Roles, r.Members, r.MemberType⟩) := by
        intro l hlw
        induction l with
        | nil => rfl
        | cons w l ih =>
          simp only [List.map_cons, mapRes]
          rw [ih fun x hx => hlw x (by simp [hx])]
          have hw := hlw w (by simp)
          unfold relOf
          rw [toHLRelation_eq (asm_hasTable ns ws rs) hl w (hm.2.2 w hw) (rel_strings hw).1
            (rel_strings hw).2]
          rfl
      rw [key rs fun _ h => h]
      rfl
    · rfl
  have := mapRes_append _ _ _ _ _ (mapRes_append _ _ _ _ _ hn hr) hw
  unfold asm at this ⊢
  dsimp only at this ⊢
  rw [this]
  simp only [Res.ok_bind, Res.ok.injEq, List.flatten_append, flatten_if, flatten_if_list,
    List.nil_append, List.append_nil]

theorem groupOf_nil_iff {xs : List GoStr} {m : TagMap} (hm : IsMap m) :
    groupOf xs m = [] ↔ m = [] := by
  unfold groupOf
  rw [List.map_eq_nil_iff]
  constructor
  · intro h
    have := sortedTags_perm hm
    rw [h] at this
    exact this.nil_eq.symm
  · rintro rfl; exact sortedTags_nil

/-- The dense section gives each node its own tags, cached or not. -/
theorem denseOf_keyVals (xs : List GoStr) (ns : List HLNode) (hm : ∀ n ∈ ns, IsMap n.Tags)
    (hz : ∀ n ∈ ns, ∀ p ∈ groupOf xs n.Tags, p.1 ≠ 0)
    (c : KVCache) (i : Nat)
    (hc : c = ⟨[], []⟩ ∨ c = fullCache (ns.map fun n => groupOf xs n.Tags)) (n : HLNode)
    (hi : ns[i]? = some n) :
    ∃ c', (c' = ⟨[], []⟩ ∨ c' = fullCache (ns.map fun n => groupOf xs n.Tags)) ∧
      (denseOf xs ns).GetKeyVals c i = .ok (((sortedTags n.Tags).map (fun e => ix xs e.1),
        (sortedTags n.Tags).map (fun e => ix xs e.2)), c') := by
  have hmem : n ∈ ns := List.mem_of_getElem? hi
  by_cases hlen : (kvStream (ns.map fun n => groupOf xs n.Tags)).length = ns.length
  · have hnil := (kvStream_length_eq (ns.map fun n => groupOf xs n.Tags)).2 (by simpa using hlen)
      (groupOf xs n.Tags) (List.mem_map.2 ⟨n, hmem, rfl⟩)
    rw [groupOf_nil_iff (hm n hmem)] at hnil
    refine ⟨c, hc, ?_⟩
    unfold DenseNodes.GetKeyVals denseOf nodesKV
    simp only [hlen, if_true, hnil, sortedTags_nil]
    rfl
  · refine ⟨_, Or.inr rfl, ?_⟩
    have := getKeyVals_eq (denseOf xs ns) (ns.map fun n => groupOf xs n.Tags)
      (by intro h; rw [List.map_eq_nil_iff] at h; subst h; simp at hi)
      (by intro g hg p hp
          obtain ⟨n, hn, rfl⟩ := List.mem_map.1 hg
          exact hz n hn p hp)
      (by simp only [denseOf, nodesKV, hlen, if_false])
      c hc i
    rw [this, List.getElem?_map, hi]
    simp only [Option.map_some, kvOf_groupOf]

theorem asm_toNodes (ns : List HLNode) (ws : List HLWay) (rs : List HLRelation)
    (hm : TagsAreMaps ns ws rs) (hl : (blockStrings ns ws rs).length < 2 ^ 32)
    (hz : ∀ n ∈ ns, ∀ p ∈ groupOf (blockStrings ns ws rs) n.Tags, p.1 ≠ 0) :
    (asm ns ws rs).ToNodes = .ok (ns.map nodeBack) := by
  unfold PrimitiveBlock.ToNodes
  have hr : mapRes (asm ns ws rs).groupNodes
      (gRels (blockStrings ns ws rs) rs) = .ok (if rs.length > 0 then [[]] else []) := by
    unfold gRels; split <;> rfl
  have hw : mapRes (asm ns ws rs).groupNodes
      (gWays (blockStrings ns ws rs) ws) = .ok (if ws.length > 0 then [[]] else []) := by
    unfold gWays; split <;> rfl
  have hn : mapRes (asm ns ws rs).groupNodes
      (gNodes (blockStrings ns ws rs) ns)
      = .ok (if ns.length > 0 then [ns.map nodeBack] else []) := by
    unfold gNodes
    split
    · simp only [mapRes, PrimitiveBlock.groupNodes]
      have := denseNodes_eq (asm_hasTable ns ws rs) rfl rfl rfl hl ns
        (denseOf (blockStrings ns ws rs) ns) rfl rfl hm.1 (fun n hn => node_strings hn)
        (fun c => c = ⟨[], []⟩ ∨ c = fullCache (ns.map fun n => groupOf (blockStrings ns ws rs) n.Tags))
        (fun c i hc n hi => denseOf_keyVals _ ns hm.1 hz c i hc n hi)
        ns 0 ⟨[], []⟩ (Or.inl rfl) rfl
      have e : (denseOf (blockStrings ns ws rs) ns).Id = ns.map (·.Id.toInt64) := rfl
      rw [e, this]
      rfl
    · rfl
  have := mapRes_append _ _ _ _ _ (mapRes_append _ _ _ _ _ hn hw) hr
  unfold asm at this ⊢
  dsimp only at this ⊢
  rw [this]
  simp only [Res.ok_bind, Res.ok.injEq, List.flatten_append, flatten_if, flatten_if_list,
    List.nil_append, List.append_nil]

theorem nodeBack_survives (n : HLNode) (hm : IsMap n.Tags) : NodeSurvives n (nodeBack n) :=
  ⟨rfl, sortedTags_perm hm, trunc_eq _, trunc_eq _⟩

theorem each_map {α β : Type} (R : α → β → Prop) (f : α → β) (xs : List α)
    (h : ∀ x ∈ xs, R x (f x)) : Each R xs (xs.map f) := by
  induction xs with
  | nil => trivial
  | cons x xs ih => exact ⟨h x (by simp), ih fun y hy => h y (by simp [hy])⟩

/-! ### Order of tag maps -/

theorem tagStrings_perm {a b : TagMap} (h : a.Perm b) : (tagStrings a).Perm (tagStrings b) :=
  h.flatMap_right _

theorem flatMap_each {α : Type} {R : α → α → Prop} (f : α → List GoStr)
    (hf : ∀ a b, R a b → (f b).Perm (f a)) : ∀ {xs ys : List α}, Each R xs ys →
    (ys.flatMap f).Perm (xs.flatMap f)
  | [], [], _ => .refl _
  | x :: xs, y :: ys, h => by
    simp only [List.flatMap_cons]
    exact (hf x y h.1).append (flatMap_each f hf h.2)

theorem blockStrings_perm {ns ns' : List HLNode} {ws ws' : List HLWay} {rs rs' : List HLRelation}
    (h1 : Each NodeReordered ns ns') (h2 : Each WayReordered ws ws')
    (h3 : Each RelationReordered rs rs') :
    (blockStrings ns' ws' rs').Perm (blockStrings ns ws rs) := by
  unfold blockStrings
  refine (flatMap_each _ (fun a b h => tagStrings_perm h.1) h1).append
    ((flatMap_each _ (fun a b h => tagStrings_perm h.1) h2).append
      (flatMap_each _ (fun a b h => ?_) h3))
  exact (tagStrings_perm h.1).append (by rw [h.2.2.1])

theorem each_mapRes {α β : Type} {R : α → α → Prop} (f : α → Res β)
    (hf : ∀ a b, R a b → f b = f a) : ∀ {xs ys : List α}, Each R xs ys →
    mapRes f ys = mapRes f xs
  | [], [], _ => rfl
  | x :: xs, y :: ys, h => by
    unfold mapRes
    rw [hf x y h.1, each_mapRes f hf h.2]

theorem each_map_eq {α β : Type} {R : α → α → Prop} (f : α → β)
    (hf : ∀ a b, R a b → f b = f a) : ∀ {xs ys : List α}, Each R xs ys → ys.map f = xs.map f
  | [], [], _ => rfl
  | x :: xs, y :: ys, h => by
    rw [List.map_cons, List.map_cons, hf x y h.1, each_map_eq f hf h.2]

theorem each_map_eq2 {α β : Type} {R : α → α → Prop} {P : α → Prop} (f : α → β)
    (hf : ∀ a b, R a b → P a → f b = f a) : ∀ {xs ys : List α}, Each R xs ys → (∀ x ∈ xs, P x) →
      ys.map f = xs.map f
  | [], [], _, _ => rfl
  | x :: xs, y :: ys, h, hP => by
    rw [List.map_cons, List.map_cons, hf x y h.1 (hP x (by simp)),
      each_map_eq2 f hf h.2 fun z hz => hP z (by simp [hz])]

theorem each_all {α : Type} {R : α → α → Prop} {P : α → Prop}
    (hf : ∀ a b, R a b → P a → P b) : ∀ {xs ys : List α}, Each R xs ys → (∀ x ∈ xs, P x) →
      ∀ y ∈ ys, P y
  | [], [], _, _ => by simp
  | x :: xs, y :: ys, h, hP => by
    intro z hz
    rcases List.mem_cons.1 hz with rfl | hz
    · exact hf x _ h.1 (hP x (by simp))
    · exact each_all hf h.2 (fun z hz => hP z (by simp [hz])) z hz

theorem each_length {α : Type} {R : α → α → Prop} : ∀ {xs ys : List α}, Each R xs ys →
    ys.length = xs.length
  | [], [], _ => rfl
  | x :: xs, y :: ys, h => by simp [each_length h.2]

theorem make_congr {ns ns' : List HLNode} {ws ws' : List HLWay} {rs rs' : List HLRelation}
    (hm : TagsAreMaps ns ws rs) (h1 : Each NodeReordered ns ns') (h2 : Each WayReordered ws ws')
    (h3 : Each RelationReordered rs rs') :
    MakePrimitiveBlock ns' ws' rs' = MakePrimitiveBlock ns ws rs := by
  have hm' : TagsAreMaps ns' ws' rs' :=
    ⟨each_all (fun a b h ha => (h.1.map _).nodup_iff.2 ha) h1 hm.1,
     each_all (fun a b h ha => (h.1.map _).nodup_iff.2 ha) h2 hm.2.1,
     each_all (fun a b h ha => (h.1.map _).nodup_iff.2 ha) h3 hm.2.2⟩
  rw [make_eq ns ws rs hm, make_eq ns' ws' rs' hm']
  have hp := blockStrings_perm h1 h2 h3
  have ht : table (blockStrings ns' ws' rs') = table (blockStrings ns ws rs) := by
    have := congrArg Finalized.stringList (finalize_perm hp)
    exact this
  have hix : ix (blockStrings ns' ws' rs') = ix (blockStrings ns ws rs) := by
    funext s; unfold ix; rw [ht]
  have g1 : gNodes (blockStrings ns' ws' rs') ns' = gNodes (blockStrings ns ws rs) ns := by
    unfold gNodes denseOf nodesKV groupOf
    rw [each_length h1, hix,
      each_map_eq2 (P := fun n => IsMap n.Tags) (fun n : HLNode =>
        (sortedTags n.Tags).map fun e => ((ix (blockStrings ns ws rs) e.1).toInt32,
          (ix (blockStrings ns ws rs) e.2).toInt32))
        (fun a b hab ha => by rw [sortedTags_congr ha hab.1]) h1 hm.1,
      each_map_eq (fun n : HLNode => n.Id.toInt64) (fun a b hab => by rw [hab.2.1]) h1,
      each_map_eq (fun n : HLNode => n.Lat / 100) (fun a b hab => by rw [hab.2.2.1]) h1,
      each_map_eq (fun n : HLNode => n.Lon / 100) (fun a b hab => by rw [hab.2.2.2]) h1]
  have g2 : gWays (blockStrings ns' ws' rs') ws' = gWays (blockStrings ns ws rs) ws := by
    unfold gWays wayOf
    rw [each_length h2, hix,
      each_map_eq2 (P := fun n => IsMap n.Tags) (fun w : HLWay => (⟨w.Id,
        (sortedTags w.Tags).map (fun e => ix (blockStrings ns ws rs) e.1),
        (sortedTags w.Tags).map (fun e => ix (blockStrings ns ws rs) e.2),
        w.Nodes.map (·.toInt64)⟩ : Way))
        (fun a b hab ha => by rw [sortedTags_congr ha hab.1, hab.2.1, hab.2.2]) h2 hm.2.1]
  have g3 : gRels (blockStrings ns' ws' rs') rs' = gRels (blockStrings ns ws rs) rs := by
    unfold gRels relOf
    rw [each_length h3, hix,
      each_map_eq2 (P := fun n => IsMap n.Tags) (fun r : HLRelation => (⟨r.Id,
        (sortedTags r.Tags).map (fun e => ix (blockStrings ns ws rs) e.1),
        (sortedTags r.Tags).map (fun e => ix (blockStrings ns ws rs) e.2),
        r.Roles.map (fun s => (ix (blockStrings ns ws rs) s).toInt32), r.Members,
        r.MemberType.map (·.toUInt64)⟩ : Relation))
        (fun a b hab ha => by
          rw [sortedTags_congr ha hab.1, hab.2.1, hab.2.2.1, hab.2.2.2.1, hab.2.2.2.2]) h3 hm.2.2]
  unfold asm
  dsimp only
  rw [g1, g2, g3, ht]

theorem table_empty_added (s : GoStr) (hs : s ≠ []) : table [s, []] = [s, []] := by
  have hl : (added [s, []]).stringList = [[], s] := by
    simp [added, NewStringTableBuilder, Builder.AddString, hs]
  have f1 : (added [s, []]).freq s = 1 := by
    unfold Builder.freq; rw [added_freq]; simp [freqOf, hs]
  have f2 : (added [s, []]).freq [] = 0 := by
    unfold Builder.freq; rw [added_freq]
    have : List.count ([] : GoStr) [s, []] = 1 := by simp [List.count_cons, hs]
    simp only [freqOf, this, if_true]
    rfl
  refine (sortBy_unique (less_strictTotal (added [s, []])) _ [s, []] ?_ ?_).symm
  · rw [hl]; exact List.Perm.swap _ _ _
  · refine List.Pairwise.cons ?_ (by simp)
    intro b hb
    simp only [List.mem_singleton] at hb
    subst hb
    unfold Builder.less
    rw [f1, f2]
    rfl

end Osm.T
