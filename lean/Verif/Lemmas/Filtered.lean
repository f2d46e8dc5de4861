import Verif.Lemmas.Content
import Verif.Lemmas.Programs
import Verif.Lemmas.RelIndex

/-! # The indexes of a filtered file (C110) -/

namespace Osm.Format
open Osm Osm.Spec Osm.Spec.OsmFormat Osm.T Osm.Pbf Osm.Interrupt

theorem foldRes_app {σ α : Type} (f : σ → α → Res σ) : ∀ (xs ys : List α) (s : σ),
    foldRes f s (xs ++ ys) = foldRes f s xs >>= fun s => foldRes f s ys
  | [], _, _ => rfl
  | x :: xs, ys, s => by
    show (f s x >>= fun s => foldRes f s (xs ++ ys)) = ((f s x >>= fun s => foldRes f s xs) >>= fun s => foldRes f s ys)
    cases f s x with
    | ok s' => exact foldRes_app f xs ys s'
    | _ => rfl

theorem foldRes_groups {σ α β : Type} (f : σ → α → Res σ) (g : β → List α) : ∀ (bs : List β) (s : σ),
    foldRes (fun s b => foldRes f s (g b)) s bs = foldRes f s (bs.flatMap g)
  | [], _ => rfl
  | b :: bs, s => by
    rw [List.flatMap_cons, foldRes_app]
    show (foldRes f s (g b) >>= fun s => foldRes (fun s b => foldRes f s (g b)) s bs) = _
    cases foldRes f s (g b) with
    | ok s' => exact foldRes_groups f g bs s'
    | _ => rfl

theorem foldRes_core {σ α τ : Type} {f : σ → α → Res σ} {p : α → τ} (h : ∀ s a b, p a = p b → f s a = f s b) :
    ∀ {xs ys : List α} (s : σ), xs.map p = ys.map p → foldRes f s xs = foldRes f s ys
  | [], [], _, _ => rfl
  | [], _ :: _, _, e => by cases e
  | _ :: _, [], _, e => by cases e
  | x :: xs, y :: ys, s, e => by
    obtain ⟨e1, e2⟩ := List.cons.inj e
    show (f s x >>= fun s => foldRes f s xs) = (f s y >>= fun s => foldRes f s ys)
    rw [h s x y e1]
    cases f s y with
    | ok s' => exact foldRes_core h s' e2
    | _ => rfl

theorem mapRes_cons {α β : Type} (f : α → Res β) (x : α) (xs : List α) :
    mapRes f (x :: xs) = f x >>= fun y => mapRes f xs >>= fun ys => .ok (y :: ys) := rfl

theorem mapRes_app {α β : Type} (f : α → Res β) : ∀ xs ys : List α,
    mapRes f (xs ++ ys) = mapRes f xs >>= fun a => mapRes f ys >>= fun b => .ok (a ++ b)
  | [], ys => by
    show mapRes f ys = mapRes f ys >>= fun b => .ok b
    cases mapRes f ys <;> rfl
  | x :: xs, ys => by
    rw [List.cons_append, mapRes_cons, mapRes_cons, mapRes_app f xs ys]
    cases f x with
    | ok y =>
      simp only [Res.ok_bind]
      cases mapRes f xs with
      | ok a =>
        simp only [Res.ok_bind]
        cases mapRes f ys <;> rfl
      | _ => rfl
    | _ => rfl

theorem mapRes_groups {α β γ : Type} (f : α → Res β) (g : γ → List α) : ∀ bs : List γ,
    (mapRes (fun b => mapRes f (g b)) bs >>= fun xss => .ok xss.flatten) = mapRes f (bs.flatMap g)
  | [] => rfl
  | b :: bs => by
    rw [List.flatMap_cons, mapRes_app, ← mapRes_groups f g bs, mapRes_cons]
    cases mapRes f (g b) with
    | ok y =>
      simp only [Res.ok_bind]
      cases mapRes (fun b => mapRes f (g b)) bs <;> rfl
    | _ => rfl

theorem mapRes_core {α β τ : Type} {f : α → Res β} {p : α → τ} {q : β → τ} (h : ∀ a b, f a = .ok b → q b = p a) :
    ∀ {xs : List α} {ys : List β}, mapRes f xs = .ok ys → ys.map q = xs.map p
  | [], ys, e => by cases e; rfl
  | x :: xs, ys, e => by
    rw [mapRes_cons] at e
    obtain ⟨y, h1, e'⟩ := Res.bind_eq_ok.1 e
    obtain ⟨zs, h2, e''⟩ := Res.bind_eq_ok.1 e'
    cases e''
    rw [List.map_cons, List.map_cons, h _ _ h1, mapRes_core h h2]

theorem mapRes_same {α β τ : Type} {f : α → Res β} {p : α → τ} (h : ∀ a b, p a = p b → f a = f b) :
    ∀ {xs ys : List α}, xs.map p = ys.map p → mapRes f xs = mapRes f ys
  | [], [], _ => rfl
  | [], _ :: _, e => by cases e
  | _ :: _, [], e => by cases e
  | x :: xs, y :: ys, e => by
    obtain ⟨e1, e2⟩ := List.cons.inj e
    rw [mapRes_cons, mapRes_cons, h x y e1, mapRes_same h e2]

/-! ### What the index programs look at -/

def waysOf (b : PrimitiveBlock) : List Way := b.PrimitiveGroup.flatMap (·.Ways)
def relsOf (b : PrimitiveBlock) : List Relation := b.PrimitiveGroup.flatMap (·.Relations)
def wayCore (w : Way) : Int64 × List Int64 := (w.ID, w.Refs)
def relCore (r : Relation) : Int64 × List Int64 × List UInt64 := (r.ID, r.MemIDs, r.MemberType)

theorem i64_back (xs : List Int64) : (xs.map (·.toUInt64)).map (·.toInt64) = xs := by
  rw [List.map_map]
  conv => rhs; rw [← List.map_id xs]
  exact List.map_congr_left fun x _ => by simp

theorem u64_back (xs : List UInt64) : (xs.map (·.toInt64)).map (·.toUInt64) = xs := by
  rw [List.map_map]
  conv => rhs; rw [← List.map_id xs]
  exact List.map_congr_left fun x _ => by simp

theorem toWays_core {b : PrimitiveBlock} {ws : List HLWay} (h : b.ToWays = .ok ws) (xs : List GoStr) :
    (ws.map (wayOf xs)).map wayCore = (waysOf b).map wayCore := by
  unfold PrimitiveBlock.ToWays at h
  have h : mapRes b.toHLWay (waysOf b) = .ok ws := (mapRes_groups b.toHLWay (fun g : T.PrimitiveGroup => g.Ways) b.PrimitiveGroup).symm.trans h
  rw [List.map_map]
  refine mapRes_core (fun a w h => ?_) h
  unfold PrimitiveBlock.toHLWay at h
  obtain ⟨t, _, h'⟩ := Res.bind_eq_ok.1 h
  cases h'
  show (a.ID, (a.Refs.map (·.toUInt64)).map (·.toInt64)) = (a.ID, a.Refs)
  rw [i64_back]

theorem toRelations_core {b : PrimitiveBlock} {rs : List HLRelation} (h : b.ToRelations = .ok rs) (xs : List GoStr) :
    (rs.map (relOf xs)).map relCore = (relsOf b).map relCore := by
  unfold PrimitiveBlock.ToRelations at h
  have h : mapRes b.toHLRelation (relsOf b) = .ok rs := (mapRes_groups b.toHLRelation (fun g : T.PrimitiveGroup => g.Relations) b.PrimitiveGroup).symm.trans h
  rw [List.map_map]
  refine mapRes_core (fun a w h => ?_) h
  unfold PrimitiveBlock.toHLRelation at h
  obtain ⟨t, _, h'⟩ := Res.bind_eq_ok.1 h
  obtain ⟨r, _, h''⟩ := Res.bind_eq_ok.1 h'
  cases h''
  show (a.ID, a.MemIDs, (a.MemberType.map (·.toInt64)).map (·.toUInt64)) = (a.ID, a.MemIDs, a.MemberType)
  rw [u64_back]

theorem asm_ways (ns : List HLNode) (ws : List HLWay) (rs : List HLRelation) :
    waysOf (asm ns ws rs) = ws.map (wayOf (blockStrings ns ws rs)) := by
  have e : waysOf (asm ns ws rs) = (gNodes (blockStrings ns ws rs) ns ++ gWays (blockStrings ns ws rs) ws ++
    gRels (blockStrings ns ws rs) rs).flatMap (·.Ways) := rfl
  rw [e, List.flatMap_append, List.flatMap_append]
  unfold gNodes gWays gRels
  have h1 : ∀ d, (if ns.length > 0 then [{ PrimitiveGroup.zero with Dense := d }] else []).flatMap (·.Ways) = ([] : List Way) := by
    intro d; split <;> rfl
  have h2 : ∀ d, (if rs.length > 0 then [{ PrimitiveGroup.zero with Relations := d }] else []).flatMap (·.Ways) = ([] : List Way) := by
    intro d; split <;> rfl
  rw [h1, h2, List.nil_append, List.append_nil]
  cases ws with
  | nil => rfl
  | cons w ws => rw [if_pos (by simp)]; simp

theorem asm_rels (ns : List HLNode) (ws : List HLWay) (rs : List HLRelation) :
    relsOf (asm ns ws rs) = rs.map (relOf (blockStrings ns ws rs)) := by
  have e : relsOf (asm ns ws rs) = (gNodes (blockStrings ns ws rs) ns ++ gWays (blockStrings ns ws rs) ws ++
    gRels (blockStrings ns ws rs) rs).flatMap (·.Relations) := rfl
  rw [e, List.flatMap_append, List.flatMap_append]
  unfold gNodes gWays gRels
  have h1 : ∀ d, (if ns.length > 0 then [{ PrimitiveGroup.zero with Dense := d }] else []).flatMap (·.Relations) =
      ([] : List Relation) := by
    intro d; split <;> rfl
  have h2 : ∀ d, (if ws.length > 0 then [{ PrimitiveGroup.zero with Ways := d }] else []).flatMap (·.Relations) =
      ([] : List Relation) := by
    intro d; split <;> rfl
  rw [h1, h2, List.nil_append, List.nil_append]
  cases rs with
  | nil => rfl
  | cons w ws => rw [if_pos (by simp)]; simp

theorem indexBlock_core (shift amt : Int64) {a b : PrimitiveBlock} (h : (waysOf a).map wayCore = (waysOf b).map wayCore) :
    WayIndexer.indexBlock shift amt a = WayIndexer.indexBlock shift amt b := by
  unfold WayIndexer.indexBlock
  rw [foldRes_groups, foldRes_groups]
  have : foldRes (WayIndexer.addWay shift amt) ⟨[], []⟩ (waysOf a) = foldRes (WayIndexer.addWay shift amt) ⟨[], []⟩ (waysOf b) := by
    refine foldRes_core (p := wayCore) (fun s x y e => ?_) _ h
    have e1 : x.ID = y.ID := congrArg Prod.fst e
    have e2 : x.Refs = y.Refs := congrArg Prod.snd e
    unfold WayIndexer.addWay
    rw [e1, e2]
  unfold waysOf at this
  rw [this]

theorem initBlock_eq (b : PrimitiveBlock) :
    RelIndex.initBlock b = mapRes RelIndex.relationWords (relsOf b) >>= fun ws => .ok ws.flatten := by
  unfold RelIndex.initBlock relsOf
  rw [← mapRes_groups]
  cases mapRes (fun pg : T.PrimitiveGroup => mapRes RelIndex.relationWords pg.Relations) b.PrimitiveGroup with
  | ok ws => simp only [Res.ok_bind, List.flatten_flatten]
  | _ => rfl

theorem initBlock_core {a b : PrimitiveBlock} (h : (relsOf a).map relCore = (relsOf b).map relCore) :
    RelIndex.initBlock a = RelIndex.initBlock b := by
  rw [initBlock_eq, initBlock_eq]
  rw [mapRes_same (p := relCore) (fun x y e => ?_) h]
  have e1 : x.ID = y.ID := congrArg Prod.fst e
  have e2 : x.MemIDs = y.MemIDs := congrArg (fun z => z.2.1) e
  have e3 : x.MemberType = y.MemberType := congrArg (fun z => z.2.2) e
  unfold RelIndex.relationWords
  rw [e1, e2, e3]

/-! ### A file and what is left of it -/

/-- The block in a content. -/
def inside : Content → Option PrimitiveBlock
  | .other _ _ => none
  | .data b => some b

theorem contents_blocks {inflate : Inflate} {file : List UInt8} {cs : List Content} (h : IsOsmContents inflate file cs) :
    IsOsmFile inflate file (cs.map inside) := by
  obtain ⟨xs, h1, h2⟩ := h
  refine ⟨xs, h1, ?_⟩
  clear h1
  induction h2 with
  | nil => exact .nil
  | cons h _ ih =>
    refine .cons ?_ ih
    cases h with
    | header bs => exact .header bs
    | data bs p b hp hb => exact .data bs p b hp hb

theorem filt_ways {c : Content} {y : Option Content} (h : filt c = .ok y) (shift amt : Int64) :
    (∃ c', y = some c' ∧ WayIndexer.work shift amt (inside c) = WayIndexer.work shift amt (inside c')) ∨
      (y = none ∧ ∃ x, WayIndexer.work shift amt (inside c) = .ok x ∧ Option.toList x = []) := by
  cases c with
  | other k bs => cases h; exact .inl ⟨_, rfl, rfl⟩
  | data b =>
    unfold filt at h
    obtain ⟨ns, i1, h1⟩ := Res.bind_eq_ok.1 h
    obtain ⟨ws, i2, h2⟩ := Res.bind_eq_ok.1 h1
    obtain ⟨rs, i3, h3⟩ := Res.bind_eq_ok.1 h2
    cases h3
    unfold kept
    split
    · refine .inl ⟨_, rfl, indexBlock_core shift amt ?_⟩
      rw [asm_ways, toWays_core i2]
    · next hk =>
      refine .inr ⟨rfl, none, ?_, rfl⟩
      have hw : ws = [] := List.eq_nil_of_length_eq_zero (by omega)
      have hc := toWays_core i2 []
      rw [hw] at hc
      have hz : WayIndexer.indexBlock shift amt b = WayIndexer.indexBlock shift amt (asm [] [] []) :=
        indexBlock_core shift amt (by rw [← hc]; rfl)
      exact hz.trans rfl

theorem filt_rels {c : Content} {y : Option Content} (h : filt c = .ok y) :
    (∃ c', y = some c' ∧ RelIndex.work (inside c) = RelIndex.work (inside c')) ∨
      (y = none ∧ ∃ x, RelIndex.work (inside c) = .ok x ∧ x.getD [] = []) := by
  cases c with
  | other k bs => cases h; exact .inl ⟨_, rfl, rfl⟩
  | data b =>
    unfold filt at h
    obtain ⟨ns, i1, h1⟩ := Res.bind_eq_ok.1 h
    obtain ⟨ws, i2, h2⟩ := Res.bind_eq_ok.1 h1
    obtain ⟨rs, i3, h3⟩ := Res.bind_eq_ok.1 h2
    cases h3
    have hwork : ∀ {a b : PrimitiveBlock}, (relsOf a).map relCore = (relsOf b).map relCore →
        RelIndex.work (some a) = RelIndex.work (some b) := fun h => by
      show (RelIndex.initBlock _ >>= fun ws => _) = (RelIndex.initBlock _ >>= fun ws => _)
      rw [initBlock_core h]
    unfold kept
    split
    · refine .inl ⟨_, rfl, hwork ?_⟩
      rw [asm_rels, toRelations_core i3]
    · next hk =>
      refine .inr ⟨rfl, some [], ?_, rfl⟩
      have hw : rs = [] := List.eq_nil_of_length_eq_zero (by omega)
      have hc := toRelations_core i3 []
      rw [hw] at hc
      have hz : RelIndex.work (some b) = RelIndex.work (some (asm [] [] [])) := hwork (by rw [← hc]; rfl)
      exact hz.trans rfl

theorem no_contents {inflate : Inflate} {file : List UInt8} (h : IsOsmContents inflate file []) : file = [] := by
  obtain ⟨xs, h1, h2⟩ := h
  cases h2
  cases h1
  rfl

theorem contents_nil {inflate : Inflate} {cs : List Content} (h : IsOsmContents inflate [] cs) : cs = [] := by
  obtain ⟨ys, y1, y2⟩ := h
  have hy : ys = [] := by
    generalize hz : ([] : List UInt8) = z at y1
    cases y1 with
    | nil => rfl
    | cons size header blob rest kind dataSize xs hs =>
      have := congrArg List.length hz
      simp only [List.length_append, List.length_nil] at this
      omega
  subst hy
  cases y2
  rfl

theorem added_eq {β γ : Type} {a b : Res β} {g : β → γ}
    (h : (a >>= fun x => .ok (g x)) = (b >>= fun x => Res.ok (g x))) :
    (∃ x y, a = .ok x ∧ b = .ok y ∧ g x = g y) ∨ (a = .panic ∧ b = .panic) ∨ (a = .hang ∧ b = .hang) := by
  cases a with
  | ok x =>
    cases b with
    | ok y => exact .inl ⟨x, y, rfl, rfl, Res.ok.inj h⟩
    | panic => have h' : Res.ok (g x) = .panic := h; cases h'
    | hang => have h' : Res.ok (g x) = .hang := h; cases h'
  | panic =>
    cases b with
    | ok y => have h' : .panic = Res.ok (g y) := h; cases h'
    | panic => exact .inr (.inl ⟨rfl, rfl⟩)
    | hang => have h' : (Res.panic : Res γ) = .hang := h; cases h'
  | hang =>
    cases b with
    | ok y => have h' : .hang = Res.ok (g y) := h; cases h'
    | panic => have h' : (Res.hang : Res γ) = .panic := h; cases h'
    | hang => exact .inr (.inr ⟨rfl, rfl⟩)

/-- The workers of the blocks that are dropped add nothing. -/
theorem dropped {O Q : Type} {f : Option PrimitiveBlock → Res O} {h : O → List Q}
    (hf : ∀ c y, filt c = .ok y → (∃ c', y = some c' ∧ f (inside c) = f (inside c')) ∨
      (y = none ∧ ∃ x, f (inside c) = .ok x ∧ h x = [])) :
    ∀ {cs : List Content} {ys : List (Option Content)}, mapRes filt cs = .ok ys →
      (mapRes f (cs.map inside) >>= fun xs => .ok (xs.flatMap h)) =
        (mapRes f ((ys.filterMap id).map inside) >>= fun xs => Res.ok (xs.flatMap h))
  | [], ys, e => by cases e; rfl
  | c :: cs, ys, e => by
    rw [mapRes_cons] at e
    obtain ⟨y, h1, e'⟩ := Res.bind_eq_ok.1 e
    obtain ⟨zs, h2, e''⟩ := Res.bind_eq_ok.1 e'
    cases e''
    have ih := dropped hf h2
    rw [List.map_cons, mapRes_cons]
    have key : ∀ (r : Res O) (as bs : List (Option PrimitiveBlock)),
        (mapRes f as >>= fun xs => .ok (xs.flatMap h)) = (mapRes f bs >>= fun xs => Res.ok (xs.flatMap h)) →
        ((r >>= fun y => mapRes f as >>= fun ys => .ok (y :: ys)) >>= fun xs => .ok (xs.flatMap h)) =
        ((r >>= fun y => mapRes f bs >>= fun ys => .ok (y :: ys)) >>= fun xs => Res.ok (xs.flatMap h)) := by
      intro r as bs hab
      cases r with
      | ok x =>
        simp only [Res.ok_bind]
        rcases added_eq hab with ⟨x', y', e1, e2, e3⟩ | ⟨e1, e2⟩ | ⟨e1, e2⟩
        · rw [e1, e2]
          simp only [Res.ok_bind, List.flatMap_cons, e3]
        · rw [e1, e2]
        · rw [e1, e2]
      | _ => rfl
    rcases hf c y h1 with ⟨c', rfl, hc⟩ | ⟨rfl, x, hx, hn⟩
    · show _ = (mapRes f (inside c' :: (zs.filterMap id).map inside) >>= fun xs => Res.ok (xs.flatMap h))
      rw [mapRes_cons, ← hc]
      exact key _ _ _ ih
    · show _ = (mapRes f ((zs.filterMap id).map inside) >>= fun xs => Res.ok (xs.flatMap h))
      rw [← ih, hx, Res.ok_bind]
      cases mapRes f (cs.map inside) with
      | ok xs => simp only [Res.ok_bind, List.flatMap_cons, hn, List.nil_append]
      | _ => rfl

theorem mapRes_panics {α β : Type} {xs : List α} (h : xs ≠ []) : mapRes (fun _ => (Res.panic : Res β)) xs = .panic := by
  cases xs with
  | nil => exact absurd rfl h
  | cons x xs => rfl

/-- Runs whose workers add the same. -/
theorem process_added {α O Q : Type} {h : O → List Q} {R : α × FS → α × FS → Prop} (cut : Option Nat)
    {w1 w2 : Block → Res O} {i1 i2 : String} {o1 o2 : List O → Prog α} {f1 f2 : List UInt8} {b1 b2 : List Block}
    (h1 : split f1 = .ok b1) (h2 : split f2 = .ok b2)
    (hm : (mapRes w1 (handed cut b1) >>= fun xs => .ok (xs.flatMap h)) = (mapRes w2 (handed cut b2) >>= fun xs => Res.ok (xs.flatMap h)))
    {fs1 fs2 : FS} (hi1 : Holds fs1 i1 f1) (hi2 : Holds fs2 i2 f2)
    (ho : ∀ xs ys, xs.flatMap h = ys.flatMap h → Alike R ((o1 xs).exec fs1) ((o2 ys).exec fs2)) :
    Alike R ((process cut w1 i1 o1).exec fs1) ((process cut w2 i2 o2).exec fs2) := by
  rw [Content.process_exec_eq cut w1 i1 o1 h1 fs1 hi1, Content.process_exec_eq cut w2 i2 o2 h2 fs2 hi2]
  rcases added_eq hm with ⟨x', y', e1, e2, e3⟩ | ⟨e1, e2⟩ | ⟨e1, e2⟩
  · rw [e1, e2]
    exact ho _ _ e3
  · rw [e1, e2]
    exact .panic
  · rw [e1, e2]
    exact .hang

theorem wayBatches_list (idx loc : String) (shift : Int64) : ∀ (bs : List (Option WayIndexer.IndexElement)) (count len : Int64),
    WayIndexer.writeBatches idx loc shift count len bs =
      WayIndexer.writeBatches idx loc shift count len ((bs.flatMap Option.toList).map some)
  | [], _, _ => rfl
  | none :: bs, count, len => wayBatches_list idx loc shift bs count len
  | some b :: bs, count, len => by
    show _ = WayIndexer.writeBatches idx loc shift count len (some b :: (bs.flatMap Option.toList).map some)
    unfold WayIndexer.writeBatches
    congr 1; funext ws; congr 1; funext _; congr 1; funext _; congr 1; funext n
    exact wayBatches_list idx loc shift bs _ _

theorem wayOutput_list (out : String) (shift : Int64) (chunks : Nat → Nat) (cancelled : Nat → Bool)
    {xs ys : List (Option WayIndexer.IndexElement)} (h : xs.flatMap Option.toList = ys.flatMap Option.toList) :
    WayIndexer.Output out shift chunks cancelled xs = WayIndexer.Output out shift chunks cancelled ys := by
  rw [WayIndexer.output_shape, WayIndexer.output_shape, wayBatches_list, wayBatches_list _ _ _ ys, h]

/-! ### The first file of relindex -/

theorem writeBlocks_at (f : String) (bs : List (Option (List Int64))) : ∀ (fs : FS) (d : List UInt8),
    fs f = some ⟨d, d.length⟩ →
    ∃ fs', (RelIndex.writeBlocks f bs).exec fs = .ok ((), fs') ∧
      fs' f = some ⟨d ++ Int64SliceAsByteSlice (bs.flatMap (·.getD [])), (d ++ Int64SliceAsByteSlice (bs.flatMap (·.getD []))).length⟩ ∧
      ∀ g, g ≠ f → fs' g = fs g := by
  induction bs with
  | nil =>
    intro fs d h
    refine ⟨fs, rfl, ?_, fun _ _ => rfl⟩
    rw [h]
    simp [Int64SliceAsByteSlice, bytesOf]
  | cons b bs ih =>
    intro fs d h
    cases b with
    | none =>
      obtain ⟨fs', h1, h2, h3⟩ := ih fs d h
      exact ⟨fs', h1, h2, h3⟩
    | some ws =>
      obtain ⟨w1, w2⟩ := RelIndex.append_exec f fs d (Int64SliceAsByteSlice ws) h
      obtain ⟨fs', h1, h2, h3⟩ := ih _ _ w1
      refine ⟨fs', ?_, ?_, ?_⟩
      · unfold RelIndex.writeBlocks
        rw [Prog.exec_bind]
        unfold FWriteSliceI64
        rw [Prog.exec_emit, Res.ok_bind]
        exact h1
      · rw [List.flatMap_cons, int64SliceAsByteSlice_append, ← List.append_assoc]
        exact h2
      · intro g hg
        rw [h3 g hg, w2 g hg]

theorem initOutput_at (f : String) (bs : List (Option (List Int64))) (fs : FS) :
    ∃ fs', (RelIndex.InitOutput f bs).exec fs = .ok ((), fs') ∧
      fs' f = some ⟨Int64SliceAsByteSlice (bs.flatMap (·.getD [])), (Int64SliceAsByteSlice (bs.flatMap (·.getD []))).length⟩ ∧
      ∀ g, g ≠ f → fs' g = fs g := by
  obtain ⟨fs', h1, h2, h3⟩ := writeBlocks_at f bs ((FsOp.create f).run fs) [] (set_same _ _ _)
  refine ⟨fs', ?_, h2, fun g hg => ?_⟩
  · unfold RelIndex.InitOutput
    rw [Prog.exec_bind]
    unfold OsCreate
    rw [Prog.exec_emit, Res.ok_bind]
    exact h1
  · rw [h3 g hg]
    exact set_other _ _ hg

theorem relindex_list (out wayIndex : String) {n : Nat} (hn : 0 < n) {xs ys : List (Option (List Int64))}
    (h : xs.flatMap (·.getD []) = ys.flatMap (·.getD [])) {fs1 fs2 : FS} (hw : SameData wayIndex fs1 fs2) :
    Alike (fun r s => r.1 = s.1 ∧ SameData out r.2 s.2) ((RelIndex.relindex out wayIndex n xs).exec fs1)
      ((RelIndex.relindex out wayIndex n ys).exec fs2) := by
  obtain ⟨k, rfl⟩ : ∃ k, n = k + 1 := ⟨n - 1, by omega⟩
  obtain ⟨g1, a1, a2, a3⟩ := initOutput_at (RelIndex.makePassFilename out 0 (k + 1)) xs fs1
  obtain ⟨g2, b1, b2, b3⟩ := initOutput_at (RelIndex.makePassFilename out 0 (k + 1)) ys fs2
  unfold RelIndex.relindex
  rw [Prog.exec_bind, Prog.exec_bind, a1, b1, Res.ok_bind, Res.ok_bind]
  have hag : Repeat.Agree (fun g => g = wayIndex) (fun g => g = RelIndex.makePassFilename out 0 (k + 1)) g1 g2 := by
    have he : g1 (RelIndex.makePassFilename out 0 (k + 1)) = g2 (RelIndex.makePassFilename out 0 (k + 1)) := by rw [a2, b2, h]
    refine ⟨fun g hg => ?_, fun g hg => by rw [hg]; exact he⟩
    rw [hg]
    unfold SameData
    by_cases e : wayIndex = RelIndex.makePassFilename out 0 (k + 1)
    · rw [e, he]
    · rw [a3 _ e, b3 _ e]
      exact hw
  exact (Repeat.rel_bind (P := Repeat.Agree (fun g => g = wayIndex) (fun g => g = RelIndex.makePassFilename out 0 (k + 1)))
    (Repeat.rel_open fun a b h => Repeat.agree_data h (.inl rfl)) fun _ =>
    Repeat.rel_bind (Repeat.rel_mmap fun a b h => Repeat.agree_data h (.inl rfl)) fun m =>
    Repeat.rel_bind (Repeat.rel_lift rfl) fun ix => Repeat.rel_relPasses out ix _ k 0 _ (by omega) rfl) g1 g2 hag

end Osm.Format
