import Verif.Lemmas.Hl

/-!
# Exactly when index 0 is the empty string, and exactly when nodes survive
-/

namespace Osm.T
open Osm Osm.Spec

/-- `""` sorts before every other string of the same frequency. -/
theorem strLt_empty {a : GoStr} (h : a ≠ []) : strLt [] a = true := by
  cases a with
  | nil => exact absurd rfl h
  | cons x xs => rfl

/-- The frequency kept for `""` after adding it `k ≥ 1` times is `k - 1`. -/
theorem freq_empty (xs : List GoStr) (hl : xs.length < 2 ^ 32) :
    ((added xs).freq []).toNat = if [] ∈ xs then xs.count [] - 1 else 0xffffffff := by
  unfold Builder.freq
  rw [added_freq]
  have hc := List.count_le_length (a := ([] : GoStr)) (l := xs)
  split
  · next h =>
    have := List.count_pos_iff.2 h
    simp [freqOf]
    omega
  · next h => simp [freqOf, List.count_eq_zero.2 h]

/-- The first string of the table, for any strict total order. -/
theorem table_first (xs : List GoStr) (s : GoStr) (hs : s ∈ table xs) :
    (table xs)[0]? = some s ↔ ∀ t ∈ table xs, t ≠ s → (added xs).less s t = true := by
  have h1 := table_sorted xs
  have h2 : (table xs).Pairwise (· ≠ ·) := table_nodup xs
  cases ht : table xs with
  | nil => rw [ht] at hs; simp at hs
  | cons a l =>
    rw [ht] at h1 h2 hs
    rw [List.pairwise_cons] at h1 h2
    simp only [List.getElem?_cons_zero, Option.some.injEq]
    constructor
    · rintro rfl t htm hne
      rcases List.mem_cons.1 htm with rfl | htm
      · exact absurd rfl hne
      · rcases (less_strictTotal (added xs)).total a t (fun e => hne e.symm) with h | h
        · exact h
        · rw [h1.1 t htm] at h; simp at h
    · intro h
      by_cases hsa : a = s
      · exact hsa
      · have h3 := h a (by simp) hsa
        have hsl : s ∈ l := by
          rcases List.mem_cons.1 hs with e | e
          · exact absurd e.symm hsa
          · exact e
        rw [h1.1 s hsl] at h3
        simp at h3

theorem table_first_empty (xs : List GoStr) (hl : xs.length < 2 ^ 32) :
    (table xs)[0]? = some [] ↔ ([] ∉ xs ∨ ∀ s ∈ xs, s ≠ [] → xs.count s < xs.count []) := by
  rw [table_first xs [] ((mem_table xs _).2 (Or.inl rfl))]
  have hf := freq_empty xs hl
  constructor
  · intro h
    by_cases he : [] ∈ xs
    · refine Or.inr fun s hs hne => ?_
      have := h s ((mem_table xs s).2 (Or.inr hs)) hne
      have hn := freq_nonempty xs hl s hne
      have hp := List.count_pos_iff.2 he
      have hb := strLt_empty hne
      rw [if_pos he] at hf
      unfold Builder.less at this
      simp only [ne_eq, gt_iff_lt, UInt32.lt_iff_toNat_lt, ← UInt32.toNat_inj] at this
      rw [hf, hn] at this
      grind
    · exact Or.inl he
  · intro h t ht hne
    have hn := freq_nonempty xs hl t hne
    have hc := List.count_le_length (a := t) (l := xs)
    have hb := strLt_empty hne
    unfold Builder.less
    simp only [ne_eq, gt_iff_lt, UInt32.lt_iff_toNat_lt, ← UInt32.toNat_inj]
    rw [hf, hn]
    by_cases he : [] ∈ xs
    · rw [if_pos he]
      have hp := List.count_pos_iff.2 he
      have htx : t ∈ xs := ((mem_table xs t).1 ht).resolve_left hne
      have := (h.resolve_left (fun h => h he)) t htx hne
      grind
    · rw [if_neg he]
      grind

/-! ### Nodes -/

/-- A string has index 0 iff it is the first of the table. -/
theorem ix_zero_iff (xs : List GoStr) (hl : xs.length < 2 ^ 32) (s : GoStr) (h : s ∈ xs) :
    (ix xs s).toInt32 = 0 ↔ (table xs)[0]? = some s := by
  obtain ⟨h1, h2⟩ := table_get xs hl s (Or.inr h)
  have e : (ix xs s).toInt32 = 0 ↔ ix xs s = 0 := by
    constructor
    · intro e
      have := congrArg Int32.toUInt32 e
      rw [UInt32.toUInt32_toInt32] at this
      exact this
    · intro e; rw [e]; rfl
  rw [e]
  constructor
  · intro e0
    unfold ix at e0
    rw [e0] at h2
    exact h2
  · intro h0
    unfold ix
    have : (table xs).idxOf s = 0 := by
      cases ht : table xs with
      | nil => rw [ht] at h0; simp at h0
      | cons a l => rw [ht] at h0; simp at h0; subst h0; simp
    rw [this]; rfl

theorem groupOf_zero_iff (xs : List GoStr) (hl : xs.length < 2 ^ 32) (m : TagMap) (hm : IsMap m)
    (hs : ∀ s ∈ tagStrings m, s ∈ xs) :
    (∀ p ∈ groupOf xs m, p.1 ≠ 0) ↔ ∀ e ∈ m, (table xs)[0]? ≠ some e.1 := by
  unfold groupOf
  simp only [List.mem_map, forall_exists_index, and_imp, forall_apply_eq_imp_iff₂]
  have hin : ∀ e ∈ m, e.1 ∈ xs := fun e he => hs _ (by
    unfold tagStrings; rw [List.mem_flatMap]; exact ⟨e, he, by simp⟩)
  constructor
  · intro h e he h0
    exact h e ((sortedTags_perm hm).mem_iff.2 he) ((ix_zero_iff xs hl _ (hin e he)).2 h0)
  · intro h e he h0
    have he := (sortedTags_perm hm).mem_iff.1 he
    exact h e he ((ix_zero_iff xs hl _ (hin e he)).1 h0)

theorem fillCache_extends : ∀ (fuel : Nat) (l : List Int32) (ck cv : List UInt32) (c c' : KVCache),
    l.length ≤ fuel → fillCache ck cv c l = .ok c' →
    ∃ a b, c'.keys = c.keys ++ a ∧ c'.vals = c.vals ++ b
  | fuel, [], ck, cv, c, c', _, h => by
    simp only [fillCache, Res.ok.injEq] at h
    subst h
    exact ⟨[], [], by simp, by simp⟩
  | 0, _ :: _, _, _, _, _, hf, _ => by simp at hf
  | fuel + 1, k :: rest, ck, cv, c, c', hf, h => by
    rw [fillCache.eq_def] at h
    simp only [List.length_cons] at hf
    dsimp only at h
    split at h
    · obtain ⟨a, b, h1, h2⟩ := fillCache_extends fuel rest [] [] _ c' (by omega) h
      exact ⟨[ck] ++ a, [cv] ++ b, by rw [h1]; simp, by rw [h2]; simp⟩
    · cases rest with
      | nil => simp at h
      | cons v rest =>
        simp only [List.length_cons] at hf
        exact fillCache_extends fuel rest _ _ _ c' (by omega) h

theorem set_length (m : TagMap) (k v : GoStr) : (m.set k v).length ≤ m.length + 1 := by
  unfold TagMap.set
  split <;> simp

theorem makeTags_go_length (b : PrimitiveBlock) : ∀ (ks vs : List UInt32) (acc m : TagMap),
    PrimitiveBlock.makeTags.go b acc ks vs = .ok m → m.length ≤ acc.length + ks.length
  | [], vs, acc, m, h => by
    simp only [PrimitiveBlock.makeTags.go, Res.ok.injEq] at h
    subst h; simp
  | k :: ks, vs, acc, m, h => by
    unfold PrimitiveBlock.makeTags.go at h
    simp only [Res.bind_eq_ok] at h
    obtain ⟨key, _, v, _, val, _, h⟩ := h
    have h1 := makeTags_go_length b ks vs.tail _ m h
    have h2 := set_length acc key val
    simp only [List.length_cons]
    omega

/-- Every node's tags come from the same filled cache. -/
theorem denseNodes_tags {b : PrimitiveBlock} {dn : DenseNodes} (hne : dn.KeyVals ≠ []) {c0 : KVCache}
    (h0 : fillCache [] [] ⟨[], []⟩ dn.KeyVals = .ok c0) :
    ∀ (ids : List Int64) (i : Nat) (c : KVCache) (out : List HLNode), (c = ⟨[], []⟩ ∨ c = c0) →
      b.denseNodes dn c i ids = .ok out →
      ∀ j n, out[j]? = some n → ∃ ks, c0.keys[i + j]? = some ks ∧ n.Tags.length ≤ ks.length
  | [], i, c, out, _, h, j, n, hj => by
    simp only [PrimitiveBlock.denseNodes, Res.ok.injEq] at h
    subst h; simp at hj
  | id :: ids, i, c, out, hc, h, j, n, hj => by
    unfold PrimitiveBlock.denseNodes at h
    simp only [Res.bind_eq_ok] at h
    obtain ⟨⟨kv, c'⟩, hg, tags, ht, lat, _, lon, _, rest, hr, h⟩ := h
    simp only [Res.ok.injEq] at h
    unfold DenseNodes.GetKeyVals at hg
    rw [if_neg (by simpa using hne)] at hg
    have he : dn.ensureCache c = .ok c0 := by
      unfold DenseNodes.ensureCache
      rcases hc with rfl | rfl
      · rw [if_pos (by rfl)]; exact h0
      · split
        · next hz =>
          have hk : c.keys = [] := by simpa using hz
          -- an empty cache stays what it is: refilling it gives the same
          obtain ⟨a, v, e1, e2⟩ := fillCache_extends _ dn.KeyVals [] [] _ _ (Nat.le_refl _) h0
          have hv : c.vals = [] := by
            have : ∀ (fuel : Nat) (l : List Int32) (ck cv : List UInt32) (x y : KVCache),
                l.length ≤ fuel → x.keys.length = x.vals.length → fillCache ck cv x l = .ok y →
                y.keys.length = y.vals.length := by
              intro fuel
              induction fuel with
              | zero =>
                intro l ck cv x y hl hx hy
                cases l with
                | nil => simp only [fillCache, Res.ok.injEq] at hy; subst hy; exact hx
                | cons => simp at hl
              | succ fuel ih =>
                intro l ck cv x y hl hx hy
                cases l with
                | nil => simp only [fillCache, Res.ok.injEq] at hy; subst hy; exact hx
                | cons k rest =>
                  simp only [List.length_cons] at hl
                  rw [fillCache.eq_def] at hy
                  dsimp only at hy
                  split at hy
                  · exact ih rest _ _ _ y (by omega) (by simp [hx]) hy
                  · cases rest with
                    | nil => simp at hy
                    | cons v rest =>
                      simp only [List.length_cons] at hl
                      exact ih rest _ _ _ y (by omega) hx hy
            have := this _ dn.KeyVals [] [] _ _ (Nat.le_refl _) rfl h0
            rw [hk] at this
            simpa using this.symm
          have : c = ⟨[], []⟩ := by
            obtain ⟨ck, cv⟩ := c
            simp only at hk hv
            rw [hk, hv]
          rw [this] at h0 ⊢
          exact h0
        · rfl
    rw [he] at hg
    simp only [Res.ok_bind, Res.bind_eq_ok] at hg
    obtain ⟨ks, hks, vs, hvs, hg⟩ := hg
    simp only [Res.ok.injEq, Prod.mk.injEq] at hg
    obtain ⟨rfl, rfl⟩ := hg
    subst h
    cases j with
    | zero =>
      simp only [List.getElem?_cons_zero, Option.some.injEq] at hj
      subst hj
      refine ⟨ks, ?_, ?_⟩
      · cases hk : c0.keys[i]? with
        | none => rw [hk] at hks; simp [Res.ofOption] at hks
        | some x => rw [hk] at hks; simp only [Res.ofOption_some, Res.ok.injEq] at hks; rw [hks]
      · have := makeTags_go_length b ks vs [] tags ht
        simpa using this
    | succ j =>
      simp only [List.getElem?_cons_succ] at hj
      obtain ⟨ks', h1, h2⟩ := denseNodes_tags hne h0 ids (i + 1) c0 rest (Or.inr rfl) hr j n hj
      exact ⟨ks', by rw [← h1]; congr 1; omega, h2⟩

/-- Split a list at the first element that fails `P`. -/
theorem split_first {α : Type} (P : α → Prop) [DecidablePred P] : ∀ (l : List α), (¬ ∀ x ∈ l, P x) →
    ∃ a x r, l = a ++ x :: r ∧ (∀ y ∈ a, P y) ∧ ¬ P x
  | [], h => absurd (by simp) h
  | x :: l, h => by
    by_cases hx : P x
    · obtain ⟨a, y, r, rfl, h1, h2⟩ := split_first P l (fun hl => h (by
        intro z hz
        rcases List.mem_cons.1 hz with rfl | hz
        · exact hx
        · exact hl z hz))
      refine ⟨x :: a, y, r, rfl, ?_, h2⟩
      intro z hz
      rcases List.mem_cons.1 hz with rfl | hz
      · exact hx
      · exact h1 z hz
    · exact ⟨[], x, l, rfl, by simp, hx⟩

/-- A key whose index is 0 cuts its node's tags short. -/
theorem asm_loses (ns : List HLNode) (ws : List HLWay) (rs : List HLRelation)
    (hm : TagsAreMaps ns ws rs)
    (hz : ¬ ∀ n ∈ ns, ∀ p ∈ groupOf (blockStrings ns ws rs) n.Tags, p.1 ≠ 0) (ns' : List HLNode)
    (hout : (asm ns ws rs).ToNodes = .ok ns') :
    ∃ (i : Nat) (n : HLNode), ns[i]? = some n ∧ ∀ n', ns'[i]? = some n' → n'.Tags.length < n.Tags.length := by
  obtain ⟨ns1, n, ns2, hns, hok, hbad⟩ := split_first _ ns hz
  obtain ⟨g1, p, g2, hg, hgok, hp⟩ := split_first _ _ hbad
  have hp : p.1 = 0 := by simpa using hp
  generalize hxs : blockStrings ns ws rs = xs at *
  refine ⟨ns1.length, n, by rw [hns]; simp, fun n' hn' => ?_⟩
  have hstream : kvStream (ns.map fun n => groupOf xs n.Tags)
      = kvStream ((ns1.map fun n => groupOf xs n.Tags) ++ [g1])
        ++ (p.2 :: ((g2.flatMap fun p => [p.1, p.2]) ++ [0]
          ++ kvStream (ns2.map fun n => groupOf xs n.Tags))) := by
    rw [hns]
    simp [kvStream, hg, hp]
  have hlen : (kvStream (ns.map fun n => groupOf xs n.Tags)).length ≠ ns.length := by
    intro e
    have := (kvStream_length_eq (ns.map fun n => groupOf xs n.Tags)).2 (by simpa using e)
      (groupOf xs n.Tags) (List.mem_map.2 ⟨n, by rw [hns]; simp, rfl⟩)
    rw [hg] at this
    simp at this
  have hkv : (denseOf xs ns).KeyVals = kvStream (ns.map fun n => groupOf xs n.Tags) := by
    simp only [denseOf, nodesKV, hlen, if_false]
  have hne : (denseOf xs ns).KeyVals ≠ [] := by
    intro e
    rw [hkv] at e
    have := congrArg List.length (hstream.symm.trans e)
    simp only [List.length_append, List.length_cons, List.length_nil] at this
    omega
  -- what ToNodes computed
  have hdense : ∃ out, (asm ns ws rs).denseNodes (denseOf xs ns) ⟨[], []⟩ 0 (denseOf xs ns).Id = .ok out ∧
      ns' = out := by
    unfold PrimitiveBlock.ToNodes at hout
    simp only [Res.bind_eq_ok] at hout
    obtain ⟨nss, h1, h2⟩ := hout
    simp only [Res.ok.injEq] at h2
    have hpos : ns.length > 0 := by rw [hns]; simp; omega
    have e : (asm ns ws rs).PrimitiveGroup
        = { PrimitiveGroup.zero with Dense := some (denseOf xs ns) } :: (gWays xs ws ++ gRels xs rs) := by
      unfold asm
      dsimp only
      rw [hxs]
      unfold gNodes
      rw [if_pos hpos]
      simp
    rw [e] at h1
    simp only [mapRes, Res.bind_eq_ok] at h1
    obtain ⟨out, ho, rest, hrest, h1⟩ := h1
    simp only [Res.ok.injEq] at h1
    refine ⟨out, ho, ?_⟩
    have hw : mapRes (asm ns ws rs).groupNodes (gWays xs ws) = .ok (if ws.length > 0 then [[]] else []) := by
      unfold gWays; split <;> rfl
    have hr : mapRes (asm ns ws rs).groupNodes (gRels xs rs) = .ok (if rs.length > 0 then [[]] else []) := by
      unfold gRels; split <;> rfl
    rw [mapRes_append _ _ _ _ _ hw hr] at hrest
    simp only [Res.ok.injEq] at hrest
    rw [← h2, ← h1, ← hrest]
    simp only [List.flatten_cons, List.flatten_append, flatten_if, List.append_nil]
  obtain ⟨out, ho, rfl⟩ := hdense
  -- the cache
  have hgs : ∀ g ∈ (ns1.map fun n => groupOf xs n.Tags) ++ [g1], ∀ p ∈ g, p.1 ≠ 0 := by
    intro g hgm q hq
    rcases List.mem_append.1 hgm with h | h
    · obtain ⟨m, hmm, rfl⟩ := List.mem_map.1 h
      exact hok m hmm q hq
    · simp only [List.mem_singleton] at h
      subst h
      exact hgok q hq
  have hfill := fillCache_groups_open _ ⟨[], []⟩ (p.2 :: ((g2.flatMap fun p => [p.1, p.2]) ++ [0]
          ++ kvStream (ns2.map fun n => groupOf xs n.Tags))) hgs
  rw [← hstream, ← hkv] at hfill
  have hc0 : ∃ c0, fillCache [] [] ⟨[], []⟩ (denseOf xs ns).KeyVals = .ok c0 := by
    have hid : (denseOf xs ns).Id = ns.map (·.Id.toInt64) := rfl
    rw [hid] at ho
    cases hnn : ns with
    | nil => rw [hnn] at hns; simp at hns
    | cons m ms =>
      rw [hnn, List.map_cons, ← hnn] at ho
      unfold PrimitiveBlock.denseNodes at ho
      simp only [Res.bind_eq_ok] at ho
      obtain ⟨_, hget, _⟩ := ho
      unfold DenseNodes.GetKeyVals at hget
      rw [if_neg (by simpa using hne)] at hget
      simp only [Res.bind_eq_ok] at hget
      obtain ⟨c, hc, _⟩ := hget
      rw [← hnn]
      exact ⟨c, hc⟩
  obtain ⟨c0, hc0⟩ := hc0
  rw [hc0] at hfill
  obtain ⟨a, v, e1, _⟩ := fillCache_extends _ _ _ _ _ _ (Nat.le_refl _) hfill.symm
  obtain ⟨ks, hks, hle⟩ := denseNodes_tags hne hc0 _ 0 _ _ (Or.inl rfl) ho _ _ hn'
  rw [e1] at hks
  have hkeys : ks = (kvOf g1).1 := by
    simp only [List.nil_append, Nat.zero_add, fullCache, List.map_append, List.map_cons, List.map_nil,
      List.append_assoc] at hks
    rw [List.getElem?_append_right (by simp)] at hks
    simpa using hks.symm
  subst hkeys
  have hl1 : (groupOf xs n.Tags).length = n.Tags.length := by
    unfold groupOf
    rw [List.length_map, (sortedTags_perm (hm.1 n (by rw [hns]; simp))).length_eq]
  rw [hg] at hl1
  simp only [List.length_append, List.length_cons] at hl1
  simp only [kvOf, List.length_map] at hle
  omega

/-- The nodes come back iff no key has index 0. -/
theorem asm_nodes_iff (ns : List HLNode) (ws : List HLWay) (rs : List HLRelation)
    (hm : TagsAreMaps ns ws rs) (hl : (blockStrings ns ws rs).length < 2 ^ 32) :
    (∃ ns', (asm ns ws rs).ToNodes = .ok ns' ∧ Each NodeSurvives ns ns') ↔ NoKeyAtZero ns (asm ns ws rs) := by
  unfold NoKeyAtZero
  have hiff : (∀ n ∈ ns, ∀ p ∈ groupOf (blockStrings ns ws rs) n.Tags, p.1 ≠ 0) ↔
      ∀ n ∈ ns, ∀ tag ∈ n.Tags, (table (blockStrings ns ws rs))[0]? ≠ some tag.1 := by
    constructor
    · intro h n hn
      exact (groupOf_zero_iff _ hl _ (hm.1 n hn) (node_strings hn)).1 (h n hn)
    · intro h n hn
      exact (groupOf_zero_iff _ hl _ (hm.1 n hn) (node_strings hn)).2 (h n hn)
  constructor
  · rintro ⟨ns', h1, h2⟩ st hst
    rw [asm_hasTable] at hst
    simp only [Option.some.injEq] at hst
    subst hst
    apply hiff.1
    apply Decidable.by_contra
    intro hz
    obtain ⟨i, n, hi, hlt⟩ := asm_loses ns ws rs hm hz ns' h1
    have key : ∀ (l l' : List HLNode), Each NodeSurvives l l' → ∀ (i : Nat) (n : HLNode), l[i]? = some n →
        ∃ n', l'[i]? = some n' ∧ NodeSurvives n n' := by
      intro l
      induction l with
      | nil => intro l' _ i n hi; simp at hi
      | cons a l ih =>
        intro l' he i n hi
        cases l' with
        | nil => exact he.elim
        | cons a' l' =>
          cases i with
          | zero => simp at hi; subst hi; exact ⟨a', rfl, he.1⟩
          | succ i => exact ih l' he.2 i n (by simpa using hi)
    obtain ⟨n', hn', hs⟩ := key ns ns' h2 i n hi
    have := hlt n' hn'
    rw [hs.2.1.length_eq] at this
    omega
  · intro h
    exact ⟨_, asm_toNodes ns ws rs hm hl (hiff.2 (h _ (asm_hasTable ns ws rs))),
      each_map _ _ _ fun n hn => nodeBack_survives n (hm.1 n hn)⟩


end Osm.T
