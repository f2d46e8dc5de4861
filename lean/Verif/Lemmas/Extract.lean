import Verif.Lemmas.TagFilter
import Verif.Spec.Extract

/-! # Extraction of the entities of a block -/

namespace Osm.T
open Osm Osm.Spec

theorem getString_strAt {b : PrimitiveBlock} {id : UInt32} {s : GoStr} (h : strAt b id = some s) : b.GetString id = .ok s := by
  unfold strAt at h
  unfold PrimitiveBlock.GetString
  cases hs : b.StringTable with
  | none => rw [hs] at h; cases h
  | some st =>
    rw [hs] at h
    exact Res.ofOption_eq_ok.2 h

theorem strAt_getString {b : PrimitiveBlock} {id : UInt32} {s : GoStr} (h : b.GetString id = .ok s) : strAt b id = some s := by
  unfold PrimitiveBlock.GetString at h
  unfold strAt
  cases hs : b.StringTable with
  | none => rw [hs] at h; cases h
  | some st =>
    rw [hs] at h
    exact Res.ofOption_eq_ok.1 h

theorem lookup_set (m : TagMap) (k v k' : GoStr) :
    (m.set k v).lookup k' = if k' = k then some v else m.lookup k' := by
  unfold TagMap.set
  split
  · next hs =>
    induction m with
    | nil => simp at hs
    | cons e m ih =>
      obtain ⟨a, w⟩ := e
      rw [List.map_cons]
      by_cases ha : a = k
      · subst ha
        rw [if_pos rfl, List.lookup_cons, List.lookup_cons]
        by_cases hk : k' = a
        · subst hk; simp
        · rw [if_neg hk]
          have : (k' == a) = false := by simpa using hk
          rw [this]
          dsimp only
          clear ih hs
          induction m with
          | nil => rfl
          | cons e m ih =>
            obtain ⟨c, x⟩ := e
            rw [List.map_cons, List.lookup_cons]
            by_cases hc : c = a
            · subst hc
              rw [if_pos rfl, List.lookup_cons, this]
              exact ih
            · rw [if_neg hc, List.lookup_cons, ih]
      · rw [if_neg ha, List.lookup_cons, List.lookup_cons]
        have hka : (k == a) = false := by
          rw [beq_eq_false_iff_ne]; exact fun h => ha h.symm
        rw [List.lookup_cons, hka] at hs
        rw [ih hs]
        by_cases hk : k' = a
        · subst hk
          simp [ha]
        · have : (k' == a) = false := by simpa using hk
          rw [this]
  · next hs =>
    rw [List.lookup_append]
    have hn : m.lookup k = none := by
      cases h : m.lookup k with
      | none => rfl
      | some _ => rw [h] at hs; exact absurd rfl hs
    by_cases hk : k' = k
    · subst hk
      rw [hn, if_pos rfl]
      simp
    · rw [if_neg hk]
      have : (k' == k) = false := by simpa using hk
      rw [List.lookup_cons, this]
      cases m.lookup k' <;> rfl

theorem makeTags_go_lookup {b : PrimitiveBlock} : ∀ (ps : List (GoStr × GoStr)) (ks vs : List UInt32) (acc : TagMap),
    ks.map (strAt b) = ps.map (fun p => some p.1) → vs.map (strAt b) = ps.map (fun p => some p.2) →
    ∃ m, PrimitiveBlock.makeTags.go b acc ks vs = .ok m ∧ ∀ k, m.lookup k = (ps.reverse.lookup k).or (acc.lookup k) := by
  intro ps
  induction ps with
  | nil =>
    intro ks vs acc h1 h2
    have : ks = [] := List.map_eq_nil_iff.1 h1
    subst this
    exact ⟨acc, by simp [PrimitiveBlock.makeTags.go], fun k => by simp⟩
  | cons p ps ih =>
    intro ks vs acc h1 h2
    cases ks with
    | nil => cases h1
    | cons k ks =>
    cases vs with
    | nil => cases h2
    | cons v vs =>
      simp only [List.map_cons, List.cons.injEq] at h1 h2
      unfold PrimitiveBlock.makeTags.go
      rw [getString_strAt h1.1]
      simp only [Res.ok_bind, List.head?_cons, Res.ofOption_some]
      rw [getString_strAt h2.1]
      simp only [Res.ok_bind, List.tail_cons]
      obtain ⟨m, hm, hl⟩ := ih ks vs (acc.set p.1 p.2) h1.2 h2.2
      refine ⟨m, hm, fun k' => ?_⟩
      rw [hl, lookup_set, List.reverse_cons, List.lookup_append, List.lookup_cons]
      by_cases hk : k' = p.1
      · subst hk
        cases (ps.reverse.lookup p.1) <;> simp
      · have : (k' == p.1) = false := by simpa using hk
        rw [this, if_neg hk]
        cases (ps.reverse.lookup k') <;> simp

theorem strings_of {b : PrimitiveBlock} : ∀ {ks vs : List UInt32}, KeysOk b ks vs → ∃ ps : List (GoStr × GoStr),
    ks.map (strAt b) = ps.map (fun p => some p.1) ∧ vs.map (strAt b) = ps.map (fun p => some p.2)
  | [], [], _ => ⟨[], rfl, rfl⟩
  | [], _ :: _, h => by have := h.1; simp at this
  | _ :: _, [], h => by have := h.1; simp at this
  | k :: ks, v :: vs, h => by
    obtain ⟨h1, h2⟩ := h
    obtain ⟨ps, e1, e2⟩ := strings_of (b := b) (ks := ks) (vs := vs) ⟨by simpa using h1, fun x hx => h2 x (by
      simp only [List.mem_append, List.mem_cons] at hx ⊢
      rcases hx with hx | hx
      · exact Or.inl (Or.inr hx)
      · exact Or.inr (Or.inr hx))⟩
    obtain ⟨s, hs⟩ := Option.isSome_iff_exists.1 (h2 k (by simp))
    obtain ⟨t, ht⟩ := Option.isSome_iff_exists.1 (h2 v (by simp))
    exact ⟨(s, t) :: ps, by simp [e1, hs], by simp [e2, ht]⟩

theorem makeTags_are {b : PrimitiveBlock} {ks vs : List UInt32} (h : KeysOk b ks vs) :
    ∃ m, b.makeTags ks vs = .ok m ∧ TagsAre b ks vs m := by
  obtain ⟨ps, h1, h2⟩ := strings_of h
  obtain ⟨m, hm, hl⟩ := makeTags_go_lookup ps ks vs [] h1 h2
  refine ⟨m, hm, ps, h1, h2, makeTags_isMap hm, fun k => ?_⟩
  rw [hl]
  simp

theorem coord_eq (o : Int64) (g : Int32) (x : Int64) :
    (o + g.toInt64 * x).toInt = (o.toInt + g.toInt * x.toInt).bmod (2 ^ 64) := by
  rw [Int64.toInt_add, Int64.toInt_mul, Int32.toInt_toInt64]
  simp [Int.add_bmod_bmod]

theorem denseNodes_are {b : PrimitiveBlock} {dn : DenseNodes} {gs : List (List (Int32 × Int32))}
    (hlat : dn.Lat.length = dn.Id.length) (hlon : dn.Lon.length = dn.Id.length) (hgs : gs.length = dn.Id.length)
    (hk : ∀ g ∈ gs, KeysOk b (g.map (·.1.toUInt32)) (g.map (·.2.toUInt32))) (P : KVCache → Prop)
    (hkv : ∀ c (i : Nat) g, P c → gs[i]? = some g → ∃ c', P c' ∧
      dn.GetKeyVals c i = .ok ((g.map (·.1.toUInt32), g.map (·.2.toUInt32)), c')) :
    ∀ (ids : List Int64) (i : Nat) (c : KVCache), P c → dn.Id.drop i = ids →
      ∃ ns, b.denseNodes dn c i ids = .ok ns ∧ ns.length = ids.length ∧
        ∀ (j : Nat) (n : HLNode), ns[j]? = some n → ∃ id lat lon g, dn.Id[i + j]? = some id ∧ dn.Lat[i + j]? = some lat ∧
          dn.Lon[i + j]? = some lon ∧ gs[i + j]? = some g ∧ NodeIs b id lat lon g n := by
  intro ids
  induction ids with
  | nil =>
    intro i c _ _
    exact ⟨[], by simp [PrimitiveBlock.denseNodes], rfl, fun j n h => by simp at h⟩
  | cons id ids ih =>
    intro i c hc hd
    have hi : dn.Id[i]? = some id := by
      have := congrArg (·[0]?) hd
      simpa using this
    have hlt : i < dn.Id.length := (List.getElem?_eq_some_iff.1 hi).1
    have hd' : dn.Id.drop (i + 1) = ids := by rw [← List.drop_drop, hd]; rfl
    have hg := List.getElem?_eq_getElem (show i < gs.length by omega)
    obtain ⟨c', hc', hget⟩ := hkv c i _ hc hg
    obtain ⟨m, hm, hta⟩ := makeTags_are (hk _ (List.mem_of_getElem? hg))
    have h1 := List.getElem?_eq_getElem (show i < dn.Lat.length by omega)
    have h2 := List.getElem?_eq_getElem (show i < dn.Lon.length by omega)
    obtain ⟨ns, hns, hlen, hall⟩ := ih (i + 1) c' hc' hd'
    unfold PrimitiveBlock.denseNodes
    rw [hget]
    simp only [Res.ok_bind]
    rw [hm]
    simp only [Res.ok_bind, h1, h2, Res.ofOption_some, hns]
    refine ⟨_, rfl, by simp [hlen], ?_⟩
    intro j n hn
    cases j with
    | zero =>
      simp only [List.getElem?_cons_zero, Option.some.injEq] at hn
      subst hn
      exact ⟨_, _, _, _, hi, h1, h2, hg, rfl, hta, coord_eq _ _ _, coord_eq _ _ _⟩
    | succ j =>
      rw [List.getElem?_cons_succ] at hn
      have := hall j n hn
      rw [show i + 1 + j = i + (j + 1) by omega] at this
      exact this

theorem groupNodes_are {b : PrimitiveBlock} (hs : Sound b) (g : T.PrimitiveGroup) (hg : g ∈ b.PrimitiveGroup) :
    ∃ ns, b.groupNodes g = .ok ns ∧ GroupNodesAre b g ns := by
  unfold PrimitiveBlock.groupNodes GroupNodesAre
  cases hd : g.Dense with
  | none => exact ⟨[], rfl, rfl⟩
  | some dn =>
    obtain ⟨h1, h2, gs, ⟨h3, h4⟩, h5⟩ := hs.dense g hg dn hd
    dsimp only
    have key : ∃ P : KVCache → Prop, P ⟨[], []⟩ ∧ ∀ c (i : Nat) g, P c → gs[i]? = some g → ∃ c', P c' ∧
        dn.GetKeyVals c i = .ok ((g.map (·.1.toUInt32), g.map (·.2.toUInt32)), c') := by
      by_cases hne : gs = []
      · exact ⟨fun _ => True, trivial, fun c i g _ h => by rw [hne] at h; simp at h⟩
      rcases h4 with ⟨h4, h6⟩ | ⟨h4, h6⟩
      · refine ⟨fun _ => True, trivial, fun c i g _ h => ⟨c, trivial, ?_⟩⟩
        rw [h6 g (List.mem_of_getElem? h)]
        unfold DenseNodes.GetKeyVals
        rw [h4]
        rfl
      · refine ⟨fun c => c = ⟨[], []⟩ ∨ c = fullCache gs, Or.inl rfl, fun c i g hc h => ⟨fullCache gs, Or.inr rfl, ?_⟩⟩
        rw [getKeyVals_eq dn gs hne h6 h4 c hc i, h]
        rfl
    obtain ⟨P, hP0, hP⟩ := key
    obtain ⟨ns, hns, hlen, hall⟩ := denseNodes_are h1 h2 h3 h5 P hP dn.Id 0 ⟨[], []⟩ hP0 rfl
    refine ⟨ns, hns, hlen, gs, ⟨h3, h4⟩, fun i n hn => ?_⟩
    have := hall i n hn
    rwa [Nat.zero_add] at this

theorem mapRes_each {α β : Type} {f : α → Res β} {R : α → β → Prop} : ∀ {as : List α},
    (∀ a ∈ as, ∃ b, f a = .ok b ∧ R a b) → ∃ bs, mapRes f as = .ok bs ∧ Each R as bs
  | [], _ => ⟨[], rfl, trivial⟩
  | a :: as, h => by
    obtain ⟨b, h1, h2⟩ := h a (by simp)
    obtain ⟨bs, h3, h4⟩ := mapRes_each (as := as) fun x hx => h x (by simp [hx])
    refine ⟨b :: bs, ?_, h2, h4⟩
    unfold mapRes
    rw [h1, Res.ok_bind, h3]
    rfl

theorem each_append {α β : Type} {R : α → β → Prop} : ∀ {as as' : List α} {bs bs' : List β}, Each R as bs →
    Each R as' bs' → Each R (as ++ as') (bs ++ bs')
  | [], _, [], _, _, h => h
  | [], _, _ :: _, _, h, _ => absurd h (by simp [Each])
  | _ :: _, _, [], _, h, _ => absurd h (by simp [Each])
  | _ :: _, _, _ :: _, _, h, h' => ⟨h.1, each_append h.2 h'⟩

theorem each_flatten {α β γ : Type} {R : α → β → Prop} {f : γ → List α} : ∀ {gs : List γ} {bss : List (List β)},
    Each (fun g bs => Each R (f g) bs) gs bss → Each R (gs.flatMap f) bss.flatten
  | [], [], _ => trivial
  | [], _ :: _, h => absurd h (by simp [Each])
  | _ :: _, [], h => absurd h (by simp [Each])
  | g :: gs, bs :: bss, h => by
    rw [List.flatMap_cons, List.flatten_cons]
    exact each_append h.1 (each_flatten h.2)

theorem toNodes_are {b : PrimitiveBlock} (hs : Sound b) : ∃ ns, b.ToNodes = .ok ns ∧ NodesAre b ns := by
  obtain ⟨nss, h1, h2⟩ := mapRes_each (groupNodes_are hs)
  unfold PrimitiveBlock.ToNodes
  rw [h1]
  exact ⟨_, rfl, nss, h2, rfl⟩

theorem toWays_are {b : PrimitiveBlock} (hs : Sound b) : ∃ ws, b.ToWays = .ok ws ∧ WaysAre b ws := by
  have h : ∀ g ∈ b.PrimitiveGroup, ∃ ws, mapRes b.toHLWay g.Ways = .ok ws ∧ Each (WayIs b) g.Ways ws := by
    intro g hg
    apply mapRes_each
    intro w hw
    obtain ⟨m, h1, h2⟩ := makeTags_are (hs.ways g hg w hw)
    unfold PrimitiveBlock.toHLWay
    rw [h1]
    exact ⟨_, rfl, rfl, h2, rfl⟩
  obtain ⟨wss, h1, h2⟩ := mapRes_each h
  unfold PrimitiveBlock.ToWays
  rw [h1]
  exact ⟨_, rfl, each_flatten h2⟩

theorem roles_are {b : PrimitiveBlock} : ∀ {ss : List Int32}, (∀ s ∈ ss, (strAt b s.toUInt32).isSome) →
    ∃ rs, mapRes (fun role : Int32 => b.GetString role.toUInt32) ss = .ok rs ∧
      ss.map (fun s => strAt b s.toUInt32) = rs.map some
  | [], _ => ⟨[], rfl, rfl⟩
  | s :: ss, h => by
    obtain ⟨rs, h1, h2⟩ := roles_are (ss := ss) fun x hx => h x (by simp [hx])
    obtain ⟨t, ht⟩ := Option.isSome_iff_exists.1 (h s (by simp))
    refine ⟨t :: rs, ?_, by simp [h2, ht]⟩
    unfold mapRes
    rw [getString_strAt ht, Res.ok_bind, h1]
    rfl

theorem toRelations_are {b : PrimitiveBlock} (hs : Sound b) : ∃ rs, b.ToRelations = .ok rs ∧ RelationsAre b rs := by
  have h : ∀ g ∈ b.PrimitiveGroup, ∃ rs, mapRes b.toHLRelation g.Relations = .ok rs ∧
      Each (RelationIs b) g.Relations rs := by
    intro g hg
    apply mapRes_each
    intro r hr
    obtain ⟨hk, hro⟩ := hs.relations g hg r hr
    obtain ⟨m, h1, h2⟩ := makeTags_are hk
    obtain ⟨rs, h3, h4⟩ := roles_are hro
    unfold PrimitiveBlock.toHLRelation
    rw [h1, Res.ok_bind, h3]
    exact ⟨_, rfl, rfl, h2, h4, rfl, rfl⟩
  obtain ⟨rss, h1, h2⟩ := mapRes_each h
  unfold PrimitiveBlock.ToRelations
  rw [h1]
  exact ⟨_, rfl, each_flatten h2⟩

end Osm.T
