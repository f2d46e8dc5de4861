import Verif.Lemmas.Filtered
import Verif.Spec.Count

/-! # The indexes of a rewritten file (C111) -/

namespace Osm.Format
open Osm Osm.Spec Osm.Spec.OsmFormat Osm.T Osm.Pbf Osm.Interrupt

theorem mapRefs_addNodes (f : Int64 → Int64) (b : PrimitiveBlock) (dn : DenseNodes) : ∀ (ids : List Int64) (st : NodeIndexer.State)
    (i : Nat), NodeIndexer.addNodes (mapRefs f b) dn st i ids = NodeIndexer.addNodes b dn st i ids
  | [], _, _ => rfl
  | id :: ids, st, i => by
    show (NodeIndexer.addNode (mapRefs f b) dn st i id >>= fun st => NodeIndexer.addNodes (mapRefs f b) dn st (i + 1) ids) =
      (NodeIndexer.addNode b dn st i id >>= fun st => NodeIndexer.addNodes b dn st (i + 1) ids)
    have : NodeIndexer.addNode (mapRefs f b) dn st i id = NodeIndexer.addNode b dn st i id := rfl
    rw [this]
    cases NodeIndexer.addNode b dn st i id with
    | ok st' => exact mapRefs_addNodes f b dn ids st' (i + 1)
    | _ => rfl

theorem mapRefs_addGroups (f : Int64 → Int64) (b : PrimitiveBlock) : ∀ (gs : List T.PrimitiveGroup) (st : NodeIndexer.State),
    foldRes (NodeIndexer.addGroup (mapRefs f b)) st
      (gs.map fun g => { g with Ways := g.Ways.map fun w => { w with Refs := w.Refs.map f } }) =
    foldRes (NodeIndexer.addGroup b) st gs
  | [], _ => rfl
  | g :: gs, st => by
    rw [List.map_cons]
    have : NodeIndexer.addGroup (mapRefs f b) st { g with Ways := g.Ways.map fun w => { w with Refs := w.Refs.map f } } =
        NodeIndexer.addGroup b st g := by
      unfold NodeIndexer.addGroup
      dsimp only
      cases g.Dense with
      | none => rfl
      | some dn => exact mapRefs_addNodes f b dn dn.Id st 0
    show (NodeIndexer.addGroup (mapRefs f b) st _ >>= fun st => foldRes _ st _) =
      (NodeIndexer.addGroup b st g >>= fun st => foldRes _ st gs)
    rw [this]
    cases NodeIndexer.addGroup b st g with
    | ok st' => exact mapRefs_addGroups f b gs st'
    | _ => rfl

theorem mapRefs_nodeWork (f : Int64 → Int64) (c : Content) :
    NodeIndexer.work (inside (c.mapRefs f)) = NodeIndexer.work (inside c) := by
  cases c with
  | other k bs => rfl
  | data b =>
    show (foldRes (NodeIndexer.addGroup (mapRefs f b)) NodeIndexer.State.init (mapRefs f b).PrimitiveGroup >>= _) =
      (foldRes (NodeIndexer.addGroup b) NodeIndexer.State.init b.PrimitiveGroup >>= _)
    rw [mapRefs_groups, mapRefs_addGroups]

theorem mapRefs_relWork (f : Int64 → Int64) (c : Content) : RelIndex.work (inside (c.mapRefs f)) = RelIndex.work (inside c) := by
  cases c with
  | other k bs => rfl
  | data b =>
    show (RelIndex.initBlock (mapRefs f b) >>= _) = (RelIndex.initBlock b >>= _)
    rw [initBlock_core (a := mapRefs f b) (b := b)]
    unfold relsOf
    rw [mapRefs_groups, List.flatMap_map]

theorem mapRefs_works {O : Type} {w : Option PrimitiveBlock → Res O} {f : Int64 → Int64}
    (h : ∀ c : Content, w (inside (c.mapRefs f)) = w (inside c)) (cs : List Content) :
    mapRes w (cs.map inside) = mapRes w ((cs.map (·.mapRefs f)).map inside) := by
  rw [mapRes_pre, mapRes_pre, mapRes_pre]
  exact congrArg (fun g => mapRes g cs) (funext fun c => (h c).symm)

/-! ### What entitycount counts -/

theorem fileGroups_mapRefs (f : Int64 → Int64) (cs : List Content) : fileGroups (cs.map (·.mapRefs f)) =
    (fileGroups cs).map fun g => { g with Ways := g.Ways.map fun w => { w with Refs := w.Refs.map f } } := by
  unfold fileGroups
  rw [List.flatMap_map, List.map_flatMap]
  exact congrArg (fun g => cs.flatMap g) (funext fun c => by cases c <;> rfl)

theorem nodeIds_mapRefs (f : Int64 → Int64) (cs : List Content) : nodeIds (cs.map (·.mapRefs f)) = nodeIds cs := by
  unfold nodeIds
  rw [fileGroups_mapRefs, List.flatMap_map]

theorem fileWays_mapRefs (f : Int64 → Int64) (cs : List Content) :
    fileWays (cs.map (·.mapRefs f)) = (fileWays cs).map fun w => { w with Refs := w.Refs.map f } := by
  unfold fileWays
  rw [fileGroups_mapRefs, List.flatMap_map, List.map_flatMap]

theorem fileRelations_mapRefs (f : Int64 → Int64) (cs : List Content) : fileRelations (cs.map (·.mapRefs f)) = fileRelations cs := by
  unfold fileRelations
  rw [fileGroups_mapRefs, List.flatMap_map]

theorem fileWays_eq (cs : List Content) : fileWays cs = (cs.filterMap inside).flatMap waysOf := by
  induction cs with
  | nil => rfl
  | cons c cs ih =>
    unfold fileWays fileGroups at ih ⊢
    rw [List.flatMap_cons, List.flatMap_append, ih]
    cases c <;> rfl

theorem fileRelations_eq (cs : List Content) : fileRelations cs = (cs.filterMap inside).flatMap relsOf := by
  induction cs with
  | nil => rfl
  | cons c cs ih =>
    unfold fileRelations fileGroups at ih ⊢
    rw [List.flatMap_cons, List.flatMap_append, ih]
    cases c <;> rfl

theorem left_core {τ α : Type} (of : PrimitiveBlock → List α) (core : α → τ)
    (h : ∀ b y, filt (.data b) = .ok y → ((y.bind inside).toList.flatMap of).map core = (of b).map core) :
    ∀ {cs : List Content} {ys : List (Option Content)}, mapRes filt cs = .ok ys →
      (((ys.filterMap id).filterMap inside).flatMap of).map core = ((cs.filterMap inside).flatMap of).map core
  | [], ys, e => by cases e; rfl
  | c :: cs, ys, e => by
    rw [mapRes_cons] at e
    obtain ⟨y, h1, e'⟩ := Res.bind_eq_ok.1 e
    obtain ⟨zs, h2, e''⟩ := Res.bind_eq_ok.1 e'
    cases e''
    have ih := left_core of core h h2
    have hd : ((y.bind inside).toList.flatMap of).map core = ((inside c).toList.flatMap of).map core := by
      cases c with
      | other k bs => cases h1; rfl
      | data b =>
        rw [h b y h1]
        simp [inside]
    have e1 : ∀ (y : Option Content) (zs : List (Option Content)), ((y :: zs).filterMap id).filterMap inside =
        (y.bind inside).toList ++ (zs.filterMap id).filterMap inside := by
      intro y zs
      cases y with
      | none => rfl
      | some c => cases c <;> rfl
    have e2 : (c :: cs).filterMap inside = (inside c).toList ++ cs.filterMap inside := by cases c <;> rfl
    rw [e1, e2, List.flatMap_append, List.flatMap_append, List.map_append, List.map_append, hd, ih]

theorem left_ways {cs : List Content} {ys : List (Option Content)} (h : mapRes filt cs = .ok ys) :
    (fileWays (ys.filterMap id)).map wayCore = (fileWays cs).map wayCore := by
  rw [fileWays_eq, fileWays_eq]
  refine left_core waysOf wayCore (fun b y h => ?_) h
  unfold filt at h
  obtain ⟨ns, i1, h1⟩ := Res.bind_eq_ok.1 h
  obtain ⟨ws, i2, h2⟩ := Res.bind_eq_ok.1 h1
  obtain ⟨rs, i3, h3⟩ := Res.bind_eq_ok.1 h2
  cases h3
  unfold kept
  split
  · show (([asm (wantedNodes ns) ws rs] : List PrimitiveBlock).flatMap waysOf).map wayCore = _
    rw [List.flatMap_cons, List.flatMap_nil, List.append_nil, asm_ways, toWays_core i2]
  · have hw : ws = [] := List.eq_nil_of_length_eq_zero (by omega)
    have hc := toWays_core i2 []
    rw [hw] at hc
    exact hc

theorem left_relations {cs : List Content} {ys : List (Option Content)} (h : mapRes filt cs = .ok ys) :
    (fileRelations (ys.filterMap id)).map relCore = (fileRelations cs).map relCore := by
  rw [fileRelations_eq, fileRelations_eq]
  refine left_core relsOf relCore (fun b y h => ?_) h
  unfold filt at h
  obtain ⟨ns, i1, h1⟩ := Res.bind_eq_ok.1 h
  obtain ⟨ws, i2, h2⟩ := Res.bind_eq_ok.1 h1
  obtain ⟨rs, i3, h3⟩ := Res.bind_eq_ok.1 h2
  cases h3
  unfold kept
  split
  · show (([asm (wantedNodes ns) ws rs] : List PrimitiveBlock).flatMap relsOf).map relCore = _
    rw [List.flatMap_cons, List.flatMap_nil, List.append_nil, asm_rels, toRelations_core i3]
  · have hw : rs = [] := List.eq_nil_of_length_eq_zero (by omega)
    have hc := toRelations_core i3 []
    rw [hw] at hc
    exact hc

end Osm.Format
