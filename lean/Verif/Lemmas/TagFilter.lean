import Verif.Lemmas.RewritePasses
import Verif.Lemmas.HlExact
import Verif.Spec.TagFilter

/-! # Tag filtering -/

namespace Osm.T
open Osm Osm.Spec

/-! ## Tags extracted from a block are maps -/

theorem set_keys (m : TagMap) (k v : GoStr) :
    ((m.set k v).map (·.1)) = if (m.lookup k).isSome then m.map (·.1) else m.map (·.1) ++ [k] := by
  unfold TagMap.set
  split
  · rw [List.map_map]
    apply List.map_congr_left
    intro e _
    simp only [Function.comp]
    split <;> simp_all
  · simp

theorem set_isMap {m : TagMap} (h : IsMap m) (k v : GoStr) : IsMap (m.set k v) := by
  unfold IsMap
  rw [set_keys]
  split
  · exact h
  · next hl =>
    rw [List.nodup_append]
    refine ⟨h, by simp, ?_⟩
    intro a ha b hb hab
    obtain rfl := List.mem_singleton.1 hb
    subst hab
    apply hl
    obtain ⟨e, he, rfl⟩ := List.mem_map.1 ha
    cases hlk : m.lookup e.1 with
    | some _ => rfl
    | none =>
      have := List.lookup_eq_none_iff.1 hlk e he
      simp at this

theorem makeTags_go_isMap {b : PrimitiveBlock} : ∀ (ks vs : List UInt32) (acc m : TagMap), IsMap acc →
    PrimitiveBlock.makeTags.go b acc ks vs = .ok m → IsMap m
  | [], _, acc, m, ha, h => by
    simp only [PrimitiveBlock.makeTags.go, Res.ok.injEq] at h
    subst h
    exact ha
  | k :: ks, vs, acc, m, ha, h => by
    unfold PrimitiveBlock.makeTags.go at h
    obtain ⟨key, _, h⟩ := Res.bind_eq_ok.1 h
    obtain ⟨v, _, h⟩ := Res.bind_eq_ok.1 h
    obtain ⟨val, _, h⟩ := Res.bind_eq_ok.1 h
    exact makeTags_go_isMap ks _ _ m (set_isMap ha _ _) h

theorem makeTags_isMap {b : PrimitiveBlock} {ks vs : List UInt32} {m : TagMap} (h : b.makeTags ks vs = .ok m) : IsMap m :=
  makeTags_go_isMap ks vs [] m (by simp [IsMap]) h

theorem denseNodes_isMap {b : PrimitiveBlock} {dn : DenseNodes} : ∀ (ids : List Int64) (c : KVCache) (i : Nat) (ns : List HLNode),
    b.denseNodes dn c i ids = .ok ns → ∀ n ∈ ns, IsMap n.Tags
  | [], c, i, ns, h => by
    unfold PrimitiveBlock.denseNodes at h
    cases h
    simp
  | id :: ids, c, i, ns, h => by
    unfold PrimitiveBlock.denseNodes at h
    obtain ⟨⟨kv, c'⟩, _, h⟩ := Res.bind_eq_ok.1 h
    obtain ⟨tags, ht, h⟩ := Res.bind_eq_ok.1 h
    obtain ⟨lat, _, h⟩ := Res.bind_eq_ok.1 h
    obtain ⟨lon, _, h⟩ := Res.bind_eq_ok.1 h
    obtain ⟨rest, hr, h⟩ := Res.bind_eq_ok.1 h
    cases h
    intro n hn
    rcases List.mem_cons.1 hn with rfl | hn
    · exact makeTags_isMap ht
    · exact denseNodes_isMap ids _ _ rest hr n hn

theorem toNodes_isMap {b : PrimitiveBlock} {ns : List HLNode} (h : b.ToNodes = .ok ns) : ∀ n ∈ ns, IsMap n.Tags := by
  unfold PrimitiveBlock.ToNodes at h
  obtain ⟨nss, h1, h⟩ := Res.bind_eq_ok.1 h
  cases h
  intro n hn
  obtain ⟨l, hl, hn⟩ := List.mem_flatten.1 hn
  obtain ⟨g, _, hg⟩ := WayIndex.mapRes_back h1 l hl
  unfold PrimitiveBlock.groupNodes at hg
  split at hg
  · cases hg; simp at hn
  · exact denseNodes_isMap _ _ _ _ hg n hn

theorem toWays_isMap {b : PrimitiveBlock} {ws : List HLWay} (h : b.ToWays = .ok ws) : ∀ n ∈ ws, IsMap n.Tags := by
  unfold PrimitiveBlock.ToWays at h
  obtain ⟨nss, h1, h⟩ := Res.bind_eq_ok.1 h
  cases h
  intro n hn
  obtain ⟨l, hl, hn⟩ := List.mem_flatten.1 hn
  obtain ⟨g, _, hg⟩ := WayIndex.mapRes_back h1 l hl
  obtain ⟨w, _, hw⟩ := WayIndex.mapRes_back hg n hn
  unfold PrimitiveBlock.toHLWay at hw
  obtain ⟨tags, ht, hw⟩ := Res.bind_eq_ok.1 hw
  cases hw
  exact makeTags_isMap ht

theorem toRelations_isMap {b : PrimitiveBlock} {rs : List HLRelation} (h : b.ToRelations = .ok rs) :
    ∀ n ∈ rs, IsMap n.Tags := by
  unfold PrimitiveBlock.ToRelations at h
  obtain ⟨nss, h1, h⟩ := Res.bind_eq_ok.1 h
  cases h
  intro n hn
  obtain ⟨l, hl, hn⟩ := List.mem_flatten.1 hn
  obtain ⟨g, _, hg⟩ := WayIndex.mapRes_back h1 l hl
  obtain ⟨w, _, hw⟩ := WayIndex.mapRes_back hg n hn
  unfold PrimitiveBlock.toHLRelation at hw
  obtain ⟨tags, ht, hw⟩ := Res.bind_eq_ok.1 hw
  obtain ⟨roles, _, hw⟩ := Res.bind_eq_ok.1 hw
  cases hw
  exact makeTags_isMap ht

theorem trim_readAll {b : PrimitiveBlock} (h : BlockShape readAll b) : trimBlock b = b := by
  obtain ⟨h1, h2⟩ := h
  obtain ⟨raw, st, gs, g, d, la, lo⟩ := b
  simp only [readAll, Bool.false_eq_true, if_false] at h1
  subst h1
  unfold trimBlock
  simp only [Option.map_none, PrimitiveBlock.mk.injEq, true_and, and_true]
  conv => rhs; rw [← List.map_id gs]
  apply List.map_congr_left
  intro g hg
  obtain ⟨a, b, c⟩ := h2 g hg
  simp only [readAll, Bool.false_eq_true, if_false] at a b c
  unfold trimGroup
  rw [a, b, c]
  simp only [Option.map_none, List.map_nil, id]
  obtain ⟨_, _, _, _, _, _⟩ := g
  simp_all

end Osm.T

namespace Osm.TagFilter
open Osm Osm.Pb Osm.T Osm.Pbf Osm.Spec

/-! ## Which tags -/

theorem noTag_iff (s : GoStr) : ∀ fs, noTag s fs = true ↔ ∀ f ∈ fs, s ≠ f
  | [] => by simp [noTag]
  | f :: fs => by
    unfold noTag
    split
    · next h => subst h; simp
    · next h =>
      rw [noTag_iff s fs]
      simp only [List.mem_cons, forall_eq_or_imp, iff_and_self]
      intro _ h'
      exact h h'.symm

theorem noPrefix_iff (s : GoStr) : ∀ ps, noPrefix s ps = true ↔ ∀ p ∈ ps, ¬ p <+: s
  | [] => by simp [noPrefix]
  | p :: ps => by
    unfold noPrefix
    split
    · next h =>
      rw [List.isPrefixOf_iff_prefix] at h
      simp [h]
    · next h =>
      rw [List.isPrefixOf_iff_prefix] at h
      rw [noPrefix_iff s ps]
      simp [h]

theorem keys_eq : (∀ d ∈ deleteTags, d ∈ droppedKeys.map asciiBytes) ∧ (∀ d ∈ droppedKeys.map asciiBytes, d ∈ deleteTags) := by
  decide +kernel
theorem prefixes_eq : (∀ d ∈ deletePrefixes, d ∈ droppedPrefixes.map asciiBytes) ∧
    (∀ d ∈ droppedPrefixes.map asciiBytes, d ∈ deletePrefixes) := by decide +kernel

theorem keepTag_iff (k : GoStr) : keepTag k = true ↔ Wanted k := by
  unfold keepTag Wanted
  have h1 := noTag_iff k deleteTags
  have h2 := noPrefix_iff k deletePrefixes
  have h3 : (∀ f ∈ deleteTags, k ≠ f) ↔ ∀ d ∈ droppedKeys, k ≠ asciiBytes d := by
    constructor
    · intro h d hd
      exact h _ (keys_eq.2 _ (List.mem_map_of_mem hd))
    · intro h f hf
      obtain ⟨d, hd, rfl⟩ := List.mem_map.1 (keys_eq.1 f hf)
      exact h d hd
  have h4 : (∀ p ∈ deletePrefixes, ¬ p <+: k) ↔ ∀ p ∈ droppedPrefixes, ¬ asciiBytes p <+: k := by
    constructor
    · intro h d hd
      exact h _ (prefixes_eq.2 _ (List.mem_map_of_mem hd))
    · intro h f hf
      obtain ⟨d, hd, rfl⟩ := List.mem_map.1 (prefixes_eq.1 f hf)
      exact h d hd
  rw [← h3, ← h4, ← h1, ← h2]
  split <;> simp_all

theorem deleteUnwanted_eq : ∀ (ks : List GoStr) (m : TagMap),
    deleteUnwanted ks m = m.filter fun e => e.1 ∉ ks ∨ Wanted e.1
  | [], m => by
    unfold deleteUnwanted
    rw [List.filter_eq_self.2]
    simp
  | k :: ks, m => by
    unfold deleteUnwanted
    rw [deleteUnwanted_eq ks]
    split
    · next h =>
      have hk : ¬ Wanted k := by rw [← keepTag_iff]; simpa using h
      unfold delete
      rw [List.filter_filter]
      apply List.filter_congr
      intro e _
      by_cases he : e.1 = k
      · rw [he]; simp [hk]
      · simp [he]
    · next h =>
      have hk : Wanted k := by rw [← keepTag_iff]; simpa using h
      apply List.filter_congr
      intro e _
      by_cases he : e.1 = k
      · rw [he]; simp [hk]
      · simp [he]

theorem deleteUnwanted_all (m : TagMap) : deleteUnwanted (m.map (·.1)) m = wantedTags m := by
  rw [deleteUnwanted_eq]
  unfold wantedTags
  apply List.filter_congr
  intro e he
  have : e.1 ∈ m.map (·.1) := List.mem_map_of_mem he
  simp [this]

theorem wantedTags_pos (m : TagMap) : (wantedTags m).length > 0 ↔ ∃ e ∈ m, Wanted e.1 := by
  unfold wantedTags
  rw [gt_iff_lt, List.length_pos_iff_exists_mem]
  simp only [List.mem_filter, decide_eq_true_eq]

theorem wantedNodes_cons (n : HLNode) (ns : List HLNode) : wantedNodes (n :: ns) =
    (if (wantedTags n.Tags).length > 0 then [{ n with Tags := wantedTags n.Tags }] else []) ++ wantedNodes ns := by
  unfold wantedNodes
  rw [List.filter_cons]
  by_cases h : ∃ e ∈ n.Tags, Wanted e.1
  · rw [if_pos (by simpa using h), if_pos ((wantedTags_pos _).2 h)]
    rfl
  · rw [if_neg (by simpa using h), if_neg (fun h' => h ((wantedTags_pos _).1 h'))]
    rfl

theorem wantedNodes_le (ns : List HLNode) : (wantedNodes ns).length ≤ ns.length := by
  unfold wantedNodes
  rw [List.length_map]
  exact List.length_filter_le _ _

theorem wantedNodes_isMap {ns : List HLNode} (h : ∀ n ∈ ns, IsMap n.Tags) : ∀ n ∈ wantedNodes ns, IsMap n.Tags := by
  intro n hn
  unfold wantedNodes at hn
  obtain ⟨m, hm, rfl⟩ := List.mem_map.1 hn
  have := h m (List.mem_filter.1 hm).1
  exact List.Nodup.sublist (List.Sublist.map _ List.filter_sublist) this

/-! ## The loop -/

theorem filterLoop_eq : ∀ (rest : List HLNode) (i : Nat) (st : Filtered), st.nodes.drop i = rest → st.idx ≤ i →
    ∃ st', filterLoop rest.length i st = .ok st' ∧
      st'.nodes.take st'.idx = st.nodes.take st.idx ++ wantedNodes rest ∧
      st'.localKept = st.localKept + UInt64.ofNat (wantedNodes rest).length ∧
      st'.localDropped = st.localDropped + UInt64.ofNat (rest.length - (wantedNodes rest).length)
  | [], i, st, h, hi => ⟨st, rfl, by simp [wantedNodes], by simp [wantedNodes], by simp⟩
  | n :: rest, i, st, h, hi => by
    have hlt : i < st.nodes.length := by
      rcases Nat.lt_or_ge i st.nodes.length with h' | h'
      · exact h'
      · rw [List.drop_of_length_le h'] at h; cases h
    have hget : st.nodes[i]? = some n := by
      have : (st.nodes.drop i)[0]? = some n := by rw [h]; rfl
      simpa using this
    have hdrop : st.nodes.drop (i + 1) = rest := by
      rw [← List.drop_drop, h]; rfl
    have hle := wantedNodes_le rest
    rw [List.length_cons]
    unfold filterLoop
    rw [hget, Res.ofOption_some, Res.ok_bind, deleteUnwanted_all, wantedNodes_cons]
    unfold filterStep
    dsimp only
    split
    · next hp =>
      rw [if_pos (by omega), Res.ok_bind]
      obtain ⟨st', h1, h2, h3, h4⟩ := filterLoop_eq rest (i + 1)
        ⟨st.nodes.set st.idx { n with Tags := wantedTags n.Tags }, st.idx + 1, st.localKept + 1, st.localDropped⟩
        (by dsimp only; rw [List.drop_set_of_lt (by omega)]; exact hdrop) (by dsimp only; omega)
      refine ⟨st', h1, ?_, ?_, ?_⟩
      · rw [h2]
        dsimp only
        rw [List.take_set, List.take_add_one, List.getElem?_eq_getElem (by omega : st.idx < st.nodes.length)]
        rw [Option.toList_some, List.set_append_right _ _ (by rw [List.length_take]; omega)]
        rw [List.length_take, Nat.min_eq_left (by omega), Nat.sub_self]
        simp
      · rw [h3]
        apply UInt64.toNat_inj.1
        simp only [UInt64.toNat_add, UInt64.toNat_ofNat', List.length_append, List.length_singleton]
        simp
        omega
      · rw [h4]
        dsimp only
        congr 2
        simp only [List.length_append, List.length_singleton]
        omega
    · next hp =>
      rw [Res.ok_bind]
      obtain ⟨st', h1, h2, h3, h4⟩ := filterLoop_eq rest (i + 1)
        ⟨st.nodes, st.idx, st.localKept, st.localDropped + 1⟩ hdrop (by dsimp only; omega)
      refine ⟨st', h1, ?_, ?_, ?_⟩
      · rw [h2]
        rfl
      · rw [h3]
        rfl
      · rw [h4]
        apply UInt64.toNat_inj.1
        simp only [UInt64.toNat_add, UInt64.toNat_ofNat', List.nil_append]
        simp
        omega

theorem filterNodes_eq (ns : List HLNode) : ∃ idx, filterNodes ns =
    .ok ⟨wantedNodes ns, idx, UInt64.ofNat (wantedNodes ns).length, UInt64.ofNat (ns.length - (wantedNodes ns).length)⟩ := by
  obtain ⟨st', h1, h2, h3, h4⟩ := filterLoop_eq ns 0 ⟨ns, 0, 0, 0⟩ rfl (Nat.le_refl _)
  refine ⟨st'.idx, ?_⟩
  unfold filterNodes
  rw [h1, Res.ok_bind, h2, h3, h4]
  simp

/-! ## A block -/

theorem filterIter_pending {inflate : Inflate} {sched : Block → Sched} {b : Block} {s : Sent}
    (h : filterIter inflate sched [] b = .ok s) : s.pending = [] := by
  unfold filterIter at h
  split at h
  · cases h; rfl
  · obtain ⟨raw, _, h⟩ := Res.bind_eq_ok.1 h
    obtain ⟨pb, _, h⟩ := Res.bind_eq_ok.1 h
    unfold filterBlock at h
    obtain ⟨ns, _, h⟩ := Res.bind_eq_ok.1 h
    obtain ⟨ws, _, h⟩ := Res.bind_eq_ok.1 h
    obtain ⟨rs, _, h⟩ := Res.bind_eq_ok.1 h
    obtain ⟨f, _, h⟩ := Res.bind_eq_ok.1 h
    unfold send at h
    split at h
    · obtain ⟨pb', _, h⟩ := Res.bind_eq_ok.1 h
      obtain ⟨blob, _, h⟩ := Res.bind_eq_ok.1 h
      cases h
      rfl
    · next hn =>
      cases h
      simp only [nodesToBuffer, gt_iff_lt, not_or, Nat.not_lt, Nat.le_zero, Nat.add_eq_zero_iff, List.length_eq_zero_iff] at hn
      simp [hn.1.1]

theorem filterWorker_eq (inflate : Inflate) (sched : Block → Sched) : ∀ (bs : List Block),
    filterWorker inflate sched [] bs = mapRes (filterIter inflate sched []) bs
  | [] => rfl
  | b :: bs => by
    unfold filterWorker mapRes
    cases h : filterIter inflate sched [] b with
    | ok s =>
      rw [Res.ok_bind, Res.ok_bind, filterIter_pending h, filterWorker_eq inflate sched bs]
    | panic => rfl
    | hang => rfl

/-- What the worker sends for an item. -/
def ItemSent (inflate : Inflate) : Option Item → Rewrite.Out → Prop
  | none, x => x = (filler, [])
  | some it, x => (x.1 = osmHeader ∨ x.1 = osmData) ∧ x.2.length < 2 ^ 31 ∧
      ∃ c, HasContent inflate readAll x.1 x.2 c ∧ Shows it c

theorem assemble_eq (p ns : List HLNode) (ws : List HLWay) (rs : List HLRelation) :
    assemble p ns ws rs = MakePrimitiveBlock ns ws rs := rfl

theorem iter_content (inflate : Inflate) (sched : Block → Sched) (hsched : ∀ b, (sched b).pooled.length < 2 ^ 63)
    {b : Block} (hf : b.Data.Fits) (hlen : b.Data.bytes.length < 2 ^ 31) (hkind : b.Kind = osmHeader ∨ b.Kind = osmData)
    {c : Content} (hc : HasContent inflate readAll b.Kind b.Data.bytes c) {it : Item} (hit : IsItem c it)
    (hfew : it.FewStrings) {s : Sent} (hs : filterIter inflate sched [] b = .ok s) :
    ItemSent inflate it.wanted s.msg ∧ s.kept = UInt64.ofNat it.kept ∧ s.dropped = UInt64.ofNat (it.nodes - it.kept) := by
  unfold filterIter at hs
  cases c with
  | other k bs =>
    obtain ⟨h1, h2, h3⟩ := hc
    rw [if_pos h3] at hs
    cases hs
    cases it with
    | entities => cases hit
    | other k' bs' =>
      obtain ⟨rfl, rfl⟩ := hit
      exact ⟨⟨hkind, hlen, .other _ _, ⟨h1, h2, h3⟩, rfl⟩, rfl, rfl⟩
  | data c =>
    cases it with
    | other => cases hit
    | entities ns ws rs =>
    obtain ⟨h1, h2⟩ := hc
    rw [if_neg (by simp [h1])] at hs
    obtain ⟨i, data, kind⟩ := b
    subst h1
    obtain ⟨raw, pb, r1, r2, r3⟩ := h2 i data.spare (sched ⟨i, data, osmData⟩) hf (hsched _)
    have r2' : ReadPrimitiveBlock reader raw = .ok pb := r2
    rw [trim_readAll (readBlock_shape _ _ _ r2)] at r3
    subst r3
    obtain ⟨i1, i2, i3⟩ := hit
    rw [r1, Res.ok_bind, r2', Res.ok_bind] at hs
    obtain ⟨idx, hfn⟩ := filterNodes_eq ns
    unfold filterBlock at hs
    rw [i1, Res.ok_bind, i2, Res.ok_bind, i3, Res.ok_bind, hfn, Res.ok_bind] at hs
    unfold send at hs
    have hm : TagsAreMaps (wantedNodes ns) ws rs :=
      ⟨wantedNodes_isMap (toNodes_isMap i1), toWays_isMap i2, toRelations_isMap i3⟩
    split at hs
    · next hne =>
      rw [assemble_eq, make_eq _ _ _ hm, Res.ok_bind] at hs
      obtain ⟨blob, hb, hs⟩ := Res.bind_eq_ok.1 hs
      cases hs
      refine ⟨?_, rfl, rfl⟩
      have hw : (Item.entities ns ws rs).wanted = some (.entities (wantedNodes ns) ws rs) := by
        unfold Item.wanted
        refine if_neg ?_
        rintro ⟨e1, rfl, rfl⟩
        simp [e1, nodesToBuffer] at hne
      rw [hw]
      obtain ⟨w1, w2⟩ := written_reads inflate (asm_shape _ _ _) hb
      rw [trim_readAll (asm_shape _ _ _)] at w1
      refine ⟨.inr rfl, w2, .data _, ⟨rfl, w1⟩, _, rfl, fun he => ?_, asm_nodes_iff _ ws rs hm hfew, ?_, ?_⟩
      · exact ⟨_, asm_toNodes _ ws rs hm hfew fun n hn p hp =>
          groupOf_ne_zero _ hfew he _ (hm.1 n hn) (node_strings hn) p hp,
          each_map _ _ _ fun n hn => nodeBack_survives n (hm.1 n hn)⟩
      · exact ⟨_, asm_toWays _ ws rs hm hfew, each_map _ _ _ fun w hw => ⟨rfl, sortedTags_perm (hm.2.1 w hw), rfl⟩⟩
      · exact ⟨_, asm_toRelations _ ws rs hm hfew, each_map _ _ _ fun r hr =>
          ⟨rfl, sortedTags_perm (hm.2.2 r hr), rfl, rfl, rfl⟩⟩
    · next hne =>
      cases hs
      refine ⟨?_, rfl, rfl⟩
      have hw : (Item.entities ns ws rs).wanted = none := by
        unfold Item.wanted
        refine if_pos ?_
        simp only [nodesToBuffer, gt_iff_lt, not_or, Nat.not_lt, Nat.le_zero, Nat.add_eq_zero_iff,
          List.length_eq_zero_iff] at hne
        exact ⟨hne.1.1, hne.2.1, hne.2.2⟩
      rw [hw]
      rfl

/-! ## A file -/

/-- What the writer writes. -/
def written (xs : List Rewrite.Out) : List Rewrite.Out := xs.filter fun x => x.1 ≠ filler

theorem writeLoop_exec (f : String) : ∀ (xs : List Rewrite.Out) (n : Nat) (fs : FS) (d : List UInt8),
    fs f = some ⟨d, d.length⟩ →
    ∃ fs', (writeLoop f n xs).exec fs = .ok (n + (xs.length - (written xs).length), fs') ∧
      fs' f = some ⟨d ++ fileOf (written xs), (d ++ fileOf (written xs)).length⟩ ∧
      ∀ g, g ≠ f → fs' g = fs g
  | [], n, fs, d, h => ⟨fs, rfl, by simpa [fileOf, written] using h, fun _ _ => rfl⟩
  | (k, x) :: xs, n, fs, d, h => by
    have hle : (written xs).length ≤ xs.length := List.length_filter_le _ _
    by_cases hk : k = filler
    · obtain ⟨fs', e1, e2, e3⟩ := writeLoop_exec f xs (n + 1) fs d h
      have : written ((k, x) :: xs) = written xs := by simp [written, hk]
      rw [this]
      refine ⟨fs', ?_, e2, e3⟩
      unfold writeLoop
      rw [if_pos hk, e1]
      congr 2
      rw [List.length_cons]
      omega
    · obtain ⟨w1, w2⟩ := RelIndex.append_exec f fs d (Rewrite.frameHeader k x) h
      obtain ⟨w3, w4⟩ := RelIndex.append_exec f _ _ x w1
      obtain ⟨fs', e1, e2, e3⟩ := writeLoop_exec f xs n _ _ w3
      have hwr : written ((k, x) :: xs) = (k, x) :: written xs := by simp [written, hk]
      rw [hwr]
      refine ⟨fs', ?_, ?_, ?_⟩
      · unfold writeLoop
        rw [if_neg hk]
        show (FWrite f _ >>= fun _ => FWrite f x >>= fun _ => writeLoop f n xs).exec fs = _
        unfold FWrite
        rw [Prog.exec_bind, Prog.exec_emit, Res.ok_bind, Prog.exec_bind, Prog.exec_emit, Res.ok_bind, e1]
        congr 2
        rw [List.length_cons, List.length_cons]
        omega
      · have : fileOf ((k, x) :: written xs) = Rewrite.frameHeader k x ++ (x ++ fileOf (written xs)) := by
          show frame k x ++ fileOf (written xs) = _
          rw [Rewrite.frame_eq, List.append_assoc]
        rw [this]
        simpa using e2
      · intro g hg
        rw [e3 g hg, w4 g hg, w2 g hg]

theorem output_exec (f : String) (xs : List Rewrite.Out) (fs : FS) :
    ∃ fs', (output f xs).exec fs = .ok (xs.length - (written xs).length, fs') ∧ Holds fs' f (fileOf (written xs)) ∧
      ∀ g, g ≠ f → fs' g = fs g := by
  obtain ⟨fs', e1, e2, e3⟩ := writeLoop_exec f xs 0 ((FsOp.create f).run fs) [] (by simp [FsOp.run, FS.set])
  refine ⟨fs', ?_, ?_, ?_⟩
  · unfold output OsCreate
    rw [Prog.exec_bind, Prog.exec_emit, Res.ok_bind]
    simpa using e1
  · unfold Holds
    rw [e2]
    exact ⟨_, rfl⟩
  · intro g hg
    rw [e3 g hg]
    simp [FsOp.run, FS.set, hg]

/-- The items of a file, one per block. -/
def Items (cs : List Content) (its : List Item) : Prop := Matches IsItem cs its

theorem works_items (inflate : Inflate) (sched : Block → Sched) (hsched : ∀ b, (sched b).pooled.length < 2 ^ 63) :
    ∀ (bs : List Block) (cs : List Content) (its : List Item) (xs : List Rewrite.Out),
    (∀ b ∈ bs, b.Data.Fits ∧ b.Data.bytes.length < 2 ^ 31 ∧ (b.Kind = osmHeader ∨ b.Kind = osmData)) →
    Matches (fun b c => HasContent inflate readAll b.Kind b.Data.bytes c) bs cs → Matches IsItem cs its →
    (∀ it ∈ its, it.FewStrings) → mapRes (filterWork inflate sched) bs = .ok xs →
    Matches (ItemSent inflate) (its.map Item.wanted) xs
  | [], cs, its, xs, _, hc, hi, _, hx => by
    cases hc
    cases hi
    cases hx
    exact .nil
  | b :: bs, cs, its, xs, hb, hc, hi, hfew, hx => by
    cases hc with
    | cons h1 h2 =>
      cases hi with
      | cons i1 i2 =>
        unfold mapRes at hx
        obtain ⟨x, e1, hx⟩ := Res.bind_eq_ok.1 hx
        obtain ⟨ys, e2, hx⟩ := Res.bind_eq_ok.1 hx
        cases hx
        unfold filterWork at e1
        obtain ⟨s, e3, e1⟩ := Res.bind_eq_ok.1 e1
        cases e1
        obtain ⟨f1, f2, f3⟩ := hb b (by simp)
        exact .cons (iter_content inflate sched hsched f1 f2 f3 h1 i1 (hfew _ (by simp)) e3).1
          (works_items inflate sched hsched bs _ _ ys (fun b hb' => hb b (by simp [hb'])) h2 i2
            (fun it h => hfew it (by simp [h])) e2)

theorem sent_written (inflate : Inflate) : ∀ {os : List (Option Item)} {xs : List Rewrite.Out},
    Matches (ItemSent inflate) os xs →
    (∀ x ∈ written xs, Writable x) ∧ xs.length = os.length ∧ (written xs).length = (os.filterMap id).length ∧
    ∃ cs', Matches (fun x c => HasContent inflate readAll x.1 x.2 c) (written xs) cs' ∧
      Matches Shows (os.filterMap id) cs' := by
  intro os xs h
  induction h with
  | nil => exact ⟨by simp [written], rfl, rfl, [], .nil, .nil⟩
  | @cons o x os xs h1 h2 ih =>
    obtain ⟨a1, a2, a3, cs', a4, a5⟩ := ih
    cases o with
    | none =>
      have hx : x = (filler, []) := h1
      have : written (x :: xs) = written xs := by rw [hx]; simp [written]
      rw [this]
      exact ⟨a1, by simp [a2], a3, cs', a4, a5⟩
    | some it =>
      obtain ⟨k1, k2, c, k3, k4⟩ := h1
      have hne : x.1 ≠ filler := by
        rcases k1 with k1 | k1 <;> rw [k1] <;> decide +kernel
      have : written (x :: xs) = x :: written xs := by simp [written, hne]
      rw [this]
      refine ⟨fun y hy => ?_, by simp [a2], by simp [a3], c :: cs', .cons k3 a4, .cons k4 a5⟩
      rcases List.mem_cons.1 hy with rfl | hy
      · exact ⟨k1, k2⟩
      · exact a1 y hy

end Osm.TagFilter
