import Verif.Lemmas.HlExact
import Verif.Props.Messages

/-!
# C18–C24: string tables and block assembly
-/

namespace Osm.Props
open Osm Osm.T Osm.Spec

/-! ## C18 -/

/-- C18: after adding any strings (fewer than 2^32 additions), each of them has an index at which the
table has it, two strings never share an index, and a non-empty string that was not added has none:
asking for it panics. -/
theorem C18_index_and_table_agree (xs : List GoStr) (hl : xs.length < 2 ^ 32) :
    (∀ s ∈ xs, ∃ i, (added xs).Finalize.GetIndex s = .ok i ∧
      (added xs).Finalize.ToStringTable.S[i.toNat]? = some s) ∧
    (∀ s t i, (added xs).Finalize.GetIndex s = .ok i → (added xs).Finalize.GetIndex t = .ok i →
      s = t) ∧
    (∀ s, s ≠ [] → s ∉ xs → (added xs).Finalize.GetIndex s = .panic) := by
  refine ⟨fun s hs => ?_, fun s t i h1 h2 => ?_, fun s hne hs => ?_⟩
  · rw [getIndex_eq, if_pos (Or.inr hs)]
    exact ⟨_, rfl, (table_get xs hl s (Or.inr hs)).2⟩
  · rw [getIndex_eq] at h1 h2
    split at h1
    · next hs =>
      split at h2
      · next ht =>
        have a := (table_get xs hl s hs).2
        have b := (table_get xs hl t ht).2
        simp only [Res.ok.injEq] at h1 h2
        rw [h1] at a
        rw [h2] at b
        rw [a] at b
        simpa using b
      · simp at h2
    · simp at h1
  · rw [getIndex_eq, if_neg (by simp [hne, hs])]

/-- Three additions of two strings: indices 1 and 2, and a panic for a third string. -/
example : ∃ i j, (added [[97], [98], [97]]).Finalize.GetIndex [97] = .ok i ∧
    (added [[97], [98], [97]]).Finalize.GetIndex [98] = .ok j ∧ i ≠ j ∧
    (added [[97], [98], [97]]).Finalize.GetIndex [99] = .panic := by
  obtain ⟨h1, h2, h3⟩ := C18_index_and_table_agree [[97], [98], [97]] (by decide)
  obtain ⟨i, hi, _⟩ := h1 [97] (by decide)
  obtain ⟨j, hj, _⟩ := h1 [98] (by decide)
  refine ⟨i, j, hi, hj, ?_, h3 [99] (by decide) (by decide)⟩
  rintro rfl
  exact absurd (h2 _ _ _ hi hj) (by decide)

/-! ## C19 -/

/-- C19: the non-empty strings of the table are those added, each once, by descending number of
additions and then ascending bytes. -/
theorem C19_table_order (xs : List GoStr) (hl : xs.length < 2 ^ 32) :
    (∀ s, s ≠ [] → (s ∈ (added xs).Finalize.ToStringTable.S ↔ s ∈ xs)) ∧
    (added xs).Finalize.ToStringTable.S.Nodup ∧
    ((added xs).Finalize.ToStringTable.S.filter (· ≠ [])).Pairwise (Before xs) := by
  refine ⟨fun s hs => ?_, table_nodup xs, table_before xs hl⟩
  exact (mem_table xs s).trans (by simp [hs])

/-- C19: the order of the additions does not matter at all (no bound on their number): same table,
same indices. -/
theorem C19_insertion_order_irrelevant (xs ys : List GoStr) (h : xs.Perm ys) :
    (added xs).Finalize.ToStringTable = (added ys).Finalize.ToStringTable ∧
    ∀ s, (added xs).Finalize.GetIndex s = (added ys).Finalize.GetIndex s := by
  have := finalize_perm h
  rw [this]
  exact ⟨rfl, fun _ => rfl⟩

example : Before [[98], [97], [98]] [98] [97] ∧ Before [[98], [97]] [97] [98] ∧
    [[98], [97], [98]].Perm [[98], [98], ([97] : GoStr)] := by
  refine ⟨?_, ?_, ?_⟩
  · simp [Before]
  · exact Or.inr ⟨rfl, by decide⟩
  · decide

/-! ## C20 -/

/-- C20, when the empty string is not itself added: index 0 of the table is the empty string.
Missing: the case where `""` is added, for which the claim is false (next theorem). -/
theorem C20_index_zero_is_empty_partial (xs : List GoStr) (hl : xs.length < 2 ^ 32)
    (he : [] ∉ xs) :
    (added xs).Finalize.ToStringTable.S[0]? = some [] ∧
    (added xs).Finalize.GetIndex [] = .ok 0 := by
  have h := table_head xs hl he
  have h2 := table_get xs hl [] (Or.inl rfl)
  rw [h] at h2
  refine ⟨h2.2, ?_⟩
  rw [getIndex_eq, if_pos (Or.inl rfl), h]
  rfl

/-- C20 is false in general: adding `""` wraps its reserved count 2^32-1 to 0, and any other added
string takes index 0. -/
theorem C20_false_when_empty_string_added (s : GoStr) (hs : s ≠ []) :
    (added [s, []]).Finalize.ToStringTable.S = [s, []] ∧
    (added [s, []]).Finalize.GetIndex s = .ok 0 := by
  have ht : table [s, []] = [s, []] := table_empty_added s hs
  refine ⟨ht, ?_⟩
  rw [getIndex_eq, if_pos (Or.inr (by simp)), ht]
  simp

example : ([110] : GoStr) ≠ [] := by decide

/-- C20, exactly, for every sequence of additions: index 0 of the table is the empty string iff `""`
was never added, or was added more often than every other string. -/
theorem C20_exact (xs : List GoStr) (hl : xs.length < 2 ^ 32) :
    (added xs).Finalize.ToStringTable.S[0]? = some [] ↔
      ([] ∉ xs ∨ ∀ s ∈ xs, s ≠ [] → xs.count s < xs.count []) :=
  table_first_empty xs hl

/-- Both sides occur: `"" "" a` keeps index 0, `"" a` does not. -/
example : (added [[], [], [97]]).Finalize.ToStringTable.S[0]? = some [] ∧
    (added [[], [97]]).Finalize.ToStringTable.S[0]? ≠ some [] := by
  rw [C20_exact _ (by decide), Ne, C20_exact _ (by decide)]
  decide

/-! ## C21 -/

/-- C21, for blocks in which no tag and no role is the empty string (or no node has tags): assembling
nodes (with any ways and relations beside them) gives a block, and extracting its nodes gives the same
nodes in the same order, coordinates truncated to multiples of 100.
Missing: blocks in which `""` occurs, for which the claim is false (`C21_false_with_empty_value`). -/
theorem C21_nodes_survive_partial (ns : List HLNode) (ws : List HLWay) (rs : List HLRelation)
    (hm : TagsAreMaps ns ws rs) (hl : (blockStrings ns ws rs).length < 2 ^ 32)
    (he : [] ∉ blockStrings ns ws rs ∨ ∀ n ∈ ns, n.Tags = []) :
    ∃ b, MakePrimitiveBlock ns ws rs = .ok b ∧
      ∃ ns', b.ToNodes = .ok ns' ∧ Each NodeSurvives ns ns' := by
  refine ⟨_, make_eq ns ws rs hm, _, asm_toNodes ns ws rs hm hl ?_,
    each_map _ _ _ fun n hn => nodeBack_survives n (hm.1 n hn)⟩
  intro n hn p hp
  rcases he with he | he
  · exact groupOf_ne_zero _ hl he _ (hm.1 n hn) (node_strings hn) p hp
  · rw [(groupOf_nil_iff (hm.1 n hn)).2 (he n hn)] at hp
    simp at hp

/-- C21 through a file: the assembled block, written anywhere and read back. -/
theorem C21_nodes_survive_write_partial (ns : List HLNode) (ws : List HLWay) (rs : List HLRelation)
    (hm : TagsAreMaps ns ws rs) (hl : (blockStrings ns ws rs).length < 2 ^ 32)
    (he : [] ∉ blockStrings ns ws rs ∨ ∀ n ∈ ns, n.Tags = []) (b : PrimitiveBlock)
    (hb : MakePrimitiveBlock ns ws rs = .ok b) (pre out : List UInt8)
    (hw : b.Write pre = .ok out) :
    ∃ msg, out = pre ++ msg ∧ ∀ spare, (Slice.mk msg spare).Fits →
      ∃ b' ns', ReadPrimitiveBlock readAll ⟨msg, spare⟩ = .ok b' ∧ b'.ToNodes = .ok ns' ∧
        Each NodeSurvives ns ns' := by
  obtain ⟨b0, h0, ns', h1, h2⟩ := C21_nodes_survive_partial ns ws rs hm hl he
  have e : b0 = b := by rw [h0] at hb; simpa using hb
  subst e
  have hs : BlockShape readAll b0 := by
    rw [make_eq ns ws rs hm] at h0
    simp only [Res.ok.injEq] at h0
    subst h0
    exact asm_shape ns ws rs
  obtain ⟨msg, hmsg, hread⟩ := C14_block_round_trip_assembled b0 hs pre out hw
  exact ⟨msg, hmsg, fun spare hf => ⟨b0, ns', hread spare hf, h1, h2⟩⟩

/-- C21 is false with an empty tag value: the node `{"a": ""}` comes back without tags. -/
theorem C21_false_with_empty_value :
    ∃ b, MakePrimitiveBlock [⟨7, [([97], [])], 0, 0⟩] [] [] = .ok b ∧
      b.ToNodes = .ok [⟨7, [], 0, 0⟩] := by
  refine ⟨_, make_eq _ _ _ (by simp [TagsAreMaps, IsMap]), ?_⟩
  have ht : table [[97], []] = [[97], []] := table_empty_added [97] (by decide)
  have hs : sortedTags [([97], [])] = [([97], ([] : GoStr))] := by
    simp [sortedTags, sortBy, TagMap.get]
  have hx : blockStrings [⟨7, [([97], [])], 0, 0⟩] [] [] = [[97], []] := by decide
  have hg : groupOf [[97], []] [([97], [])] = [(0, 1)] := by
    unfold groupOf ix
    rw [hs, ht]
    decide
  unfold asm gNodes denseOf nodesKV
  rw [hx]
  dsimp only
  simp only [List.map_cons, List.map_nil, hg]
  rfl

/-- C21, exactly: the nodes of a block come back (coordinates truncated to multiples of 100) iff no tag
of a node has as its key the string at index 0 of the block's table. (By `C20_exact` that string is `""`
unless `""` occurs in the block and some string occurs at least as often.) -/
theorem C21_exact (ns : List HLNode) (ws : List HLWay) (rs : List HLRelation)
    (hm : TagsAreMaps ns ws rs) (hl : (blockStrings ns ws rs).length < 2 ^ 32) (b : PrimitiveBlock)
    (hb : MakePrimitiveBlock ns ws rs = .ok b) :
    (∃ ns', b.ToNodes = .ok ns' ∧ Each NodeSurvives ns ns') ↔ NoKeyAtZero ns b := by
  rw [make_eq ns ws rs hm] at hb
  simp only [Res.ok.injEq] at hb
  subst hb
  exact asm_nodes_iff ns ws rs hm hl

/-- A block with an empty value that survives, because its frequent string is no key: `k=""`, `l=v`, `m=v`,
so `v` is at index 0. -/
example : ∃ b ns', MakePrimitiveBlock [⟨1, [([107], []), ([108], [118]), ([109], [118])], 0, 0⟩] [] [] = .ok b ∧
    b.ToNodes = .ok ns' ∧
    Each NodeSurvives [⟨1, [([107], []), ([108], [118]), ([109], [118])], 0, 0⟩] ns' := by
  have hm : TagsAreMaps [⟨1, [([107], []), ([108], [118]), ([109], [118])], 0, 0⟩] [] [] := by
    simp [TagsAreMaps, IsMap]
  have hx : blockStrings [⟨1, [([107], []), ([108], [118]), ([109], [118])], 0, 0⟩] [] []
      = [[107], [], [108], [118], [109], [118]] := by decide
  have ht : (table [[107], [], [108], [118], [109], [118]])[0]? = some [118] := by
    rw [table_first _ _ ((mem_table _ _).2 (by decide))]
    intro t ht hne
    rw [mem_table] at ht
    have : t = [] ∨ t = [107] ∨ t = [108] ∨ t = [109] := by simp at ht; grind
    rcases this with rfl | rfl | rfl | rfl <;> decide
  have h := (C21_exact _ _ _ hm (by decide) _ (make_eq _ _ _ hm)).2 (by
    intro st hst n hn tag htag
    rw [asm_hasTable, hx] at hst
    simp only [Option.some.injEq] at hst
    subst hst
    rw [ht]
    simp only [List.mem_singleton] at hn
    subst hn
    simp only [List.mem_cons, List.not_mem_nil, or_false] at htag
    rcases htag with rfl | rfl | rfl <;> decide)
  obtain ⟨ns', h1, h2⟩ := h
  exact ⟨_, ns', make_eq _ _ _ hm, h1, h2⟩

/-- The hypotheses are met by a block with a tagged and an untagged node. -/
example : TagsAreMaps [⟨7, [([97], [98]), ([99], [98])], 123, -123⟩, ⟨8, [], 0, 0⟩] [] [] ∧
    [] ∉ blockStrings [⟨7, [([97], [98]), ([99], [98])], 123, -123⟩, ⟨8, [], 0, 0⟩] [] [] ∧
    NodeSurvives ⟨7, [([97], [98]), ([99], [98])], 123, -123⟩
      ⟨7, [([99], [98]), ([97], [98])], 100, -100⟩ := by
  refine ⟨by simp [TagsAreMaps, IsMap], by decide, rfl, ?_, by decide, by decide⟩
  unfold SameTags
  decide

/-! ## C22 -/

/-- C22: assembling ways and relations (with any nodes beside them) and extracting them gives the same
ones in the same order. -/
theorem C22_ways_and_relations_survive (ns : List HLNode) (ws : List HLWay) (rs : List HLRelation)
    (hm : TagsAreMaps ns ws rs) (hl : (blockStrings ns ws rs).length < 2 ^ 32) :
    ∃ b, MakePrimitiveBlock ns ws rs = .ok b ∧
      (∃ ws', b.ToWays = .ok ws' ∧ Each WaySurvives ws ws') ∧
      (∃ rs', b.ToRelations = .ok rs' ∧ Each RelationSurvives rs rs') := by
  refine ⟨_, make_eq ns ws rs hm,
    ⟨_, asm_toWays ns ws rs hm hl,
      each_map _ _ _ fun w hw => ⟨rfl, sortedTags_perm (hm.2.1 w hw), rfl⟩⟩,
    ⟨_, asm_toRelations ns ws rs hm hl,
      each_map _ _ _ fun r hr => ⟨rfl, sortedTags_perm (hm.2.2 r hr), rfl, rfl, rfl⟩⟩⟩

/-- C22 through a file. -/
theorem C22_ways_and_relations_survive_write (ns : List HLNode) (ws : List HLWay)
    (rs : List HLRelation) (hm : TagsAreMaps ns ws rs)
    (hl : (blockStrings ns ws rs).length < 2 ^ 32) (b : PrimitiveBlock)
    (hb : MakePrimitiveBlock ns ws rs = .ok b) (pre out : List UInt8)
    (hw : b.Write pre = .ok out) :
    ∃ msg, out = pre ++ msg ∧ ∀ spare, (Slice.mk msg spare).Fits →
      ∃ b', ReadPrimitiveBlock readAll ⟨msg, spare⟩ = .ok b' ∧
        (∃ ws', b'.ToWays = .ok ws' ∧ Each WaySurvives ws ws') ∧
        (∃ rs', b'.ToRelations = .ok rs' ∧ Each RelationSurvives rs rs') := by
  obtain ⟨b0, h0, h1, h2⟩ := C22_ways_and_relations_survive ns ws rs hm hl
  have e : b0 = b := by rw [h0] at hb; simpa using hb
  subst e
  have hs : BlockShape readAll b0 := by
    rw [make_eq ns ws rs hm] at h0
    simp only [Res.ok.injEq] at h0
    subst h0
    exact asm_shape ns ws rs
  obtain ⟨msg, hmsg, hread⟩ := C14_block_round_trip_assembled b0 hs pre out hw
  exact ⟨msg, hmsg, fun spare hf => ⟨b0, hread spare hf, h1, h2⟩⟩

/-- A way and a relation, with empty strings among the tags and roles. -/
example : TagsAreMaps [] [⟨1, [([97], []), ([], [98])], [5, 6]⟩] [⟨-2, [], [[], [99]], [1, 2], [0, 1]⟩] := by
  simp [TagsAreMaps, IsMap]

/-! ## C23 -/

/-- C23: permuting the iteration order of any of the tag maps gives the same block. -/
theorem C23_assembly_deterministic (ns ns' : List HLNode) (ws ws' : List HLWay)
    (rs rs' : List HLRelation) (hm : TagsAreMaps ns ws rs) (h1 : Each NodeReordered ns ns')
    (h2 : Each WayReordered ws ws') (h3 : Each RelationReordered rs rs') :
    MakePrimitiveBlock ns' ws' rs' = MakePrimitiveBlock ns ws rs := by
  exact make_congr hm h1 h2 h3

example : Each NodeReordered [⟨1, [([97], [98]), ([99], [100])], 0, 0⟩]
    [⟨1, [([99], [100]), ([97], [98])], 0, 0⟩] := by
  refine ⟨⟨?_, rfl, rfl, rfl⟩, trivial⟩
  unfold SameTags
  decide

/-! ## C24 -/

/-- C24: with a well-formed key/value stream of at least one node (`gs` are the pairs of each node,
keys not 0), any sequence of questions gives for each node its own group, and for an index past the end
a panic. -/
theorem C24_right_node (dn : DenseNodes) (gs : List (List (Int32 × Int32))) (hne : gs ≠ [])
    (hk : ∀ g ∈ gs, ∀ p ∈ g, p.1 ≠ 0) (hd : dn.KeyVals = kvStream gs) (is : List Nat) :
    ((∀ i ∈ is, i < gs.length) →
      askAll dn ⟨[], []⟩ is = .ok (is.map fun i =>
        ((gs.getD i []).map (·.1.toUInt32), (gs.getD i []).map (·.2.toUInt32)))) ∧
    ((∃ i ∈ is, gs.length ≤ i) → askAll dn ⟨[], []⟩ is = .panic) := by
  have key : ∀ c, (c = ⟨[], []⟩ ∨ c = fullCache gs) →
    ((∀ i ∈ is, i < gs.length) →
      askAll dn c is = .ok (is.map fun i =>
        ((gs.getD i []).map (·.1.toUInt32), (gs.getD i []).map (·.2.toUInt32)))) ∧
    ((∃ i ∈ is, gs.length ≤ i) → askAll dn c is = .panic) := by
    induction is with
    | nil => intro c _; exact ⟨fun _ => rfl, fun h => by simp at h⟩
    | cons i is ih =>
      intro c hc
      unfold askAll
      rw [getKeyVals_eq dn gs hne hk hd c hc i]
      constructor
      · intro h
        have hi := h i (by simp)
        rw [List.getElem?_eq_getElem hi]
        simp only [Res.ok_bind]
        rw [(ih _ (Or.inr rfl)).1 fun j hj => h j (by simp [hj])]
        simp [kvOf, List.getD_eq_getElem?_getD, List.getElem?_eq_getElem hi]
      · rintro ⟨j, hj, hle⟩
        rcases Nat.lt_or_ge i gs.length with hi | hi
        · rw [List.getElem?_eq_getElem hi]
          simp only [Res.ok_bind]
          have : j ∈ is := by
            rcases List.mem_cons.1 hj with rfl | h
            · omega
            · exact h
          rw [(ih _ (Or.inr rfl)).2 ⟨j, this, hle⟩]
          rfl
        · rw [List.getElem?_eq_none hi]
          rfl
  exact key _ (Or.inl rfl)

/-- C24: a stream whose last group is not terminated answers for the nodes before it, and panics for the
others; a key without a value panics for every node. -/
theorem C24_unterminated (dn : DenseNodes) (gs : List (List (Int32 × Int32))) (g : List (Int32 × Int32))
    (hk : ∀ g ∈ gs, ∀ p ∈ g, p.1 ≠ 0) (hg : ∀ p ∈ g, p.1 ≠ 0) (i : Nat) :
    (dn.KeyVals = kvStream gs ++ (g.flatMap fun p => [p.1, p.2]) → dn.KeyVals ≠ [] →
      (i < gs.length → askAll dn ⟨[], []⟩ [i] = .ok [((gs.getD i []).map (·.1.toUInt32),
        (gs.getD i []).map (·.2.toUInt32))]) ∧
      (gs.length ≤ i → askAll dn ⟨[], []⟩ [i] = .panic)) ∧
    (∀ k : Int32, k ≠ 0 → dn.KeyVals = kvStream gs ++ (g.flatMap fun p => [p.1, p.2]) ++ [k] →
      askAll dn ⟨[], []⟩ [i] = .panic) := by
  constructor
  · intro hd hne
    have hc : dn.ensureCache ⟨[], []⟩ = .ok (fullCache gs) := by
      unfold DenseNodes.ensureCache
      rw [if_pos (by trivial), hd, fillCache_groups_open gs _ _ hk, (fillCache_open g [] [] _ hg).1]
      simp
    have hl : dn.KeyVals.length ≠ 0 := by simpa using hne
    constructor
    · intro hi
      unfold askAll DenseNodes.GetKeyVals
      rw [if_neg hl, hc]
      simp [fullCache, kvOf, List.getD_eq_getElem?_getD, List.getElem?_eq_getElem hi, askAll]
    · intro hi
      unfold askAll DenseNodes.GetKeyVals
      rw [if_neg hl, hc]
      simp [fullCache, List.getElem?_eq_none (by simpa using hi : (gs.map fun g => (kvOf g).1).length ≤ i)]
  · intro k hk0 hd
    have hl : dn.KeyVals.length ≠ 0 := by rw [hd]; simp
    have hc : dn.ensureCache ⟨[], []⟩ = .panic := by
      unfold DenseNodes.ensureCache
      rw [if_pos (by trivial), hd, List.append_assoc, fillCache_groups_open gs _ _ hk,
        (fillCache_open g [] [] _ hg).2 k hk0]
    unfold askAll DenseNodes.GetKeyVals
    rw [if_neg hl, hc]
    rfl

example : askAll ⟨[], [], [], [1, 2, 0, 3]⟩ ⟨[], []⟩ [0] = .panic := by decide

/-- C24: without key/values no node has tags. -/
theorem C24_no_tags (dn : DenseNodes) (hd : dn.KeyVals = []) (is : List Nat) :
    askAll dn ⟨[], []⟩ is = .ok (is.map fun _ => ([], [])) := by
  induction is with
  | nil => rfl
  | cons i is ih =>
    unfold askAll DenseNodes.GetKeyVals
    rw [hd]
    simp only [List.length_nil, if_true, Res.ok_bind]
    rw [ih]
    rfl

/-- Three nodes, the middle one without tags, asked for out of order and twice. -/
example : askAll ⟨[1, 2, 3], [0, 0, 0], [0, 0, 0], kvStream [[(1, 2), (3, 4)], [], [(5, 0)]]⟩
    ⟨[], []⟩ [2, 0, 1, 2] = .ok [([5], [0]), ([1, 3], [2, 4]), ([], []), ([5], [0])] := by decide

end Osm.Props
