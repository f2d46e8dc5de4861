import Verif.Spec.Programs
import Verif.Lemmas.Spare
import Verif.Lemmas.TagFilter
import Verif.Lemmas.RewritePasses
import Verif.Lemmas.NodeOutput
import Verif.Lemmas.WayOutput
import Verif.Lemmas.RelPasses

namespace Osm.Programs
open Osm Osm.Pb Osm.T Osm.Pbf Osm.Spec

/-! ## Decoding a source block -/

/-- Read with options, against everything decoded. -/
def OptAgrees (o : PBReader) : Option PrimitiveBlock → Option PrimitiveBlock → Prop
  | none, none => True
  | some p, some f => BlockAgrees o p f
  | _, _ => False

theorem decode_source {inflate : Inflate} (sched : Block → Sched) (o : PBReader) {b : Block} {full : Option PrimitiveBlock}
    (h : SourceBlock inflate b full) : ∃ part, decodeBlock inflate sched o b = .ok part ∧ OptAgrees o part full := by
  cases h with
  | other hk => exact ⟨none, by unfold decodeBlock; rw [if_pos hk], trivial⟩
  | data blob p full hk hb hp hf =>
    obtain ⟨blob', e1, e2⟩ := grows_blob (s := ⟨b.Data.bytes, []⟩) (t := b.Data) ⟨rfl, b.Data.spare, rfl⟩ _ hb
    obtain ⟨raw, e3, e4, _⟩ := payload_raw (sched b) (payload_trim e2 hp)
    obtain ⟨full', e5, e6⟩ := grows_block readAll (s := ⟨p, []⟩) (t := raw) ⟨e4, raw.spare, rfl⟩ _ hf
    rw [trim_readAll (readBlock_shape _ _ _ e5), trim_readAll (readBlock_shape _ _ _ hf)] at e6
    subst e6
    obtain ⟨part, e7, e8⟩ := readBlock_agrees o raw full' e5
    refine ⟨some part, ?_, e8⟩
    unfold decodeBlock rawOf
    rw [if_neg (by simpa using hk), e1, Res.ok_bind, e3, Res.ok_bind, e7, Res.ok_bind]

theorem works_source {O : Type} {inflate : Inflate} (sched : Block → Sched) (o : PBReader)
    (work : Option PrimitiveBlock → Res O) (hw : ∀ p f, OptAgrees o p f → work p = work f) {bs : List Block}
    {fulls : List (Option PrimitiveBlock)} (h : Matches (SourceBlock inflate) bs fulls) :
    mapRes (blockWork inflate sched o work) bs = mapRes work fulls := by
  induction h with
  | nil => rfl
  | cons h _ ih =>
    obtain ⟨part, h1, h2⟩ := decode_source sched o h
    unfold mapRes
    rw [ih]
    unfold blockWork
    rw [h1, Res.ok_bind, hw _ _ h2]

/-! ## What the workers look at -/

theorem groups_dense {o : PBReader} (ho : o.SkipDenseNodes = false) : ∀ {ps fs : List T.PrimitiveGroup},
    GroupsAgree o ps fs → ps.map (·.Dense) = fs.map (·.Dense)
  | [], [], _ => rfl
  | _ :: _, _ :: _, h => by
    rw [List.map_cons, List.map_cons, groups_dense ho h.2]
    have := h.1.1
    rw [ho] at this
    rw [this.2]
  | [], _ :: _, h => h.elim
  | _ :: _, [], h => h.elim

theorem groups_ways {o : PBReader} (ho : o.SkipWays = false) : ∀ {ps fs : List T.PrimitiveGroup},
    GroupsAgree o ps fs → ps.map (·.Ways) = fs.map (·.Ways)
  | [], [], _ => rfl
  | _ :: _, _ :: _, h => by
    rw [List.map_cons, List.map_cons, groups_ways ho h.2]
    have := h.1.2.1
    rw [ho] at this
    rw [this.2]
  | [], _ :: _, h => h.elim
  | _ :: _, [], h => h.elim

theorem groups_relations {o : PBReader} (ho : o.SkipRelations = false) : ∀ {ps fs : List T.PrimitiveGroup},
    GroupsAgree o ps fs → ps.map (·.Relations) = fs.map (·.Relations)
  | [], [], _ => rfl
  | _ :: _, _ :: _, h => by
    rw [List.map_cons, List.map_cons, groups_relations ho h.2]
    have := h.1.2.2
    rw [ho] at this
    rw [this.2]
  | [], _ :: _, h => h.elim
  | _ :: _, [], h => h.elim

theorem foldRes_congr {α β σ τ : Type} {f : σ → α → Res σ} {g : σ → β → Res σ} {p : α → τ} {q : β → τ}
    (h : ∀ s a b, p a = q b → f s a = g s b) : ∀ {as : List α} {bs : List β} (s : σ), as.map p = bs.map q →
    foldRes f s as = foldRes g s bs
  | [], [], _, _ => rfl
  | a :: as, b :: bs, s, e => by
    simp only [List.map_cons, List.cons.injEq] at e
    unfold foldRes
    rw [h s a b e.1]
    congr 1
    funext s'
    exact foldRes_congr h s' e.2
  | [], _ :: _, _, e => by cases e
  | _ :: _, [], _, e => by cases e

theorem mapRes_congr {α β γ τ : Type} {f : α → Res γ} {g : β → Res γ} {p : α → τ} {q : β → τ}
    (h : ∀ a b, p a = q b → f a = g b) : ∀ {as : List α} {bs : List β}, as.map p = bs.map q → mapRes f as = mapRes g bs
  | [], [], _ => rfl
  | a :: as, b :: bs, e => by
    simp only [List.map_cons, List.cons.injEq] at e
    unfold mapRes
    rw [h a b e.1, mapRes_congr h e.2]
  | [], _ :: _, e => by cases e
  | _ :: _, [], e => by cases e

theorem addNodes_congr {p f : PrimitiveBlock} (h : NodeIndexer.nodeLocation p = NodeIndexer.nodeLocation f)
    (dn : DenseNodes) : ∀ (ids : List Int64) st idx,
    NodeIndexer.addNodes p dn st idx ids = NodeIndexer.addNodes f dn st idx ids := by
  intro ids
  induction ids with
  | nil => intro st idx; rfl
  | cons id ids ih =>
    intro st idx
    unfold NodeIndexer.addNodes NodeIndexer.addNode
    rw [h]
    congr 1
    funext st'
    exact ih _ _

theorem nodeWork_agrees (p f : Option PrimitiveBlock) (h : OptAgrees nodeReader p f) :
    NodeIndexer.work p = NodeIndexer.work f := by
  cases p with
  | none =>
    cases f with
    | none => rfl
    | some f => exact h.elim
  | some p =>
    cases f with
    | none => exact h.elim
    | some f =>
      obtain ⟨_, h1, h2, _, h3, h4⟩ := (h : BlockAgrees nodeReader p f)
      have hl : NodeIndexer.nodeLocation p = NodeIndexer.nodeLocation f := by
        funext lat lon
        unfold NodeIndexer.nodeLocation
        rw [h2, h3, h4]
      show NodeIndexer.indexBlock p = NodeIndexer.indexBlock f
      unfold NodeIndexer.indexBlock
      rw [foldRes_congr (g := NodeIndexer.addGroup f) (p := (·.Dense)) (q := (·.Dense)) ?_ _ (groups_dense rfl h1)]
      intro st a b e
      unfold NodeIndexer.addGroup
      rw [e]
      cases b.Dense with
      | none => rfl
      | some dn => exact addNodes_congr hl dn _ _ _

theorem wayWork_congr (shift : Int64) {p f : PrimitiveBlock}
    (h : p.PrimitiveGroup.map (·.Ways) = f.PrimitiveGroup.map (·.Ways)) :
    wayWork shift (some p) = wayWork shift (some f) := by
  unfold wayWork
  congr 1
  funext amt
  show WayIndexer.indexBlock shift amt p = WayIndexer.indexBlock shift amt f
  unfold WayIndexer.indexBlock
  rw [foldRes_congr (p := fun g : T.PrimitiveGroup => g.Ways) (q := fun g : T.PrimitiveGroup => g.Ways) ?_ _ h]
  intro st a b e
  rw [e]

theorem wayWork_agrees (shift : Int64) (p f : Option PrimitiveBlock) (h : OptAgrees wayReader p f) :
    wayWork shift p = wayWork shift f := by
  cases p with
  | none =>
    cases f with
    | none => rfl
    | some f => exact h.elim
  | some p =>
    cases f with
    | none => exact h.elim
    | some f =>
      obtain ⟨_, h1, _⟩ := (h : BlockAgrees wayReader p f)
      exact wayWork_congr shift (groups_ways rfl h1)

theorem relWork_agrees (p f : Option PrimitiveBlock) (h : OptAgrees relReader p f) :
    RelIndex.work p = RelIndex.work f := by
  cases p with
  | none =>
    cases f with
    | none => rfl
    | some f => exact h.elim
  | some p =>
    cases f with
    | none => exact h.elim
    | some f =>
      obtain ⟨_, h1, _⟩ := (h : BlockAgrees relReader p f)
      unfold RelIndex.work RelIndex.initBlock
      dsimp only
      rw [mapRes_congr (p := fun g : T.PrimitiveGroup => g.Relations) (q := fun g : T.PrimitiveGroup => g.Relations) ?_ (groups_relations rfl h1)]
      intro a b e
      rw [e]

/-! ## The rewritten file -/

/-- The rewriter's view of a block. -/
def SeesWays : Content → Option PrimitiveBlock → Prop
  | .other _ _, none => True
  | .data c, some f => c.PrimitiveGroup.map (·.Ways) = f.PrimitiveGroup.map (·.Ways)
  | _, _ => False

theorem trim_ways (b : PrimitiveBlock) : (trimBlock b).PrimitiveGroup.map (·.Ways) = b.PrimitiveGroup.map (·.Ways) := by
  simp [trimBlock, trimGroup, Function.comp_def]

theorem source_contents {inflate : Inflate} {bs : List Block} {fulls : List (Option PrimitiveBlock)}
    (h : Matches (SourceBlock inflate) bs fulls) :
    ∃ cs, Matches (fun b c => HasContent inflate Rewrite.reader b.Kind b.Data.bytes c) bs cs ∧ Matches SeesWays cs fulls := by
  induction h with
  | nil => exact ⟨[], .nil, .nil⟩
  | @cons b full _ _ h _ ih =>
    obtain ⟨cs, h1, h2⟩ := ih
    cases h with
    | other hk =>
      exact ⟨.other b.Kind b.Data.bytes :: cs, .cons ⟨rfl, rfl, hk⟩ h1, .cons (show SeesWays (.other _ _) none from trivial) h2⟩
    | data blob p full hk hb hp hf =>
      obtain ⟨part, e1, e2⟩ := readBlock_agrees Rewrite.reader _ _ hf
      refine ⟨.data (trimBlock part) :: cs, .cons ⟨hk, reads_of_bare hb hp e1⟩ h1, .cons ?_ h2⟩
      show (trimBlock part).PrimitiveGroup.map (·.Ways) = full.PrimitiveGroup.map (·.Ways)
      rw [trim_ways]
      exact groups_ways rfl e2.2.1

theorem mapRefs_ways (f : Int64 → Int64) {a b : PrimitiveBlock}
    (h : a.PrimitiveGroup.map (·.Ways) = b.PrimitiveGroup.map (·.Ways)) :
    (mapRefs f a).PrimitiveGroup.map (·.Ways) = (mapRefs f b).PrimitiveGroup.map (·.Ways) := by
  have : ∀ x : PrimitiveBlock, (mapRefs f x).PrimitiveGroup.map (·.Ways) =
      (x.PrimitiveGroup.map (·.Ways)).map (List.map fun w => { w with Refs := w.Refs.map f }) := by
    intro x
    simp [mapRefs, Function.comp_def]
  rw [this, this, h]

theorem works_rewritten {inflate : Inflate} (sched : Block → Sched) (hsched : ∀ b, (sched b).pooled.length < 2 ^ 63)
    (shift : Int64) (f : Int64 → Int64) {cs : List Content} {fulls : List (Option PrimitiveBlock)}
    (h : Matches SeesWays cs fulls) : ∀ {bs : List Block}, (∀ b ∈ bs, b.Data.Fits) →
    Matches (fun b c => HasContent inflate Rewrite.reader b.Kind b.Data.bytes c) bs (cs.map (·.mapRefs f)) →
    mapRes (blockWork inflate sched wayReader (wayWork shift)) bs =
      mapRes (wayWork shift) (fulls.map (Option.map (mapRefs f))) := by
  induction h with
  | nil => intro bs _ hm; cases hm; rfl
  | @cons c full cs fulls h _ ih =>
    intro bs hf hm
    rw [List.map_cons] at hm
    cases hm with
    | @cons b _ bs _ hb hm =>
      unfold mapRes
      rw [List.map_cons]
      rw [ih (fun b hb => hf b (List.mem_cons_of_mem _ hb)) hm]
      have : blockWork inflate sched wayReader (wayWork shift) b = wayWork shift (full.map (mapRefs f)) := by
        unfold blockWork decodeBlock
        cases c with
        | other k d =>
          obtain ⟨_, _, hk⟩ := hb
          cases full with
          | none => rw [if_pos hk, Res.ok_bind]; rfl
          | some _ => exact h.elim
        | data c =>
          obtain ⟨hk, hr⟩ := hb
          cases full with
          | none => exact h.elim
          | some full =>
            obtain ⟨raw, pb, r1, r2, r3⟩ := hr b.Index b.Data.spare (sched b) (hf b List.mem_cons_self) (hsched b)
            rw [← hk] at r1
            rw [if_neg (by simpa using hk), r1, Res.ok_bind,
              show ReadPrimitiveBlock wayReader raw = .ok pb from r2, Res.ok_bind, Res.ok_bind]
            refine wayWork_congr shift ?_
            rw [← trim_ways, r3]
            exact mapRefs_ways f h
      rw [this]

/-! ## Running a command -/

theorem process_exec {O : Type} (work : Block → Res O) (inp : String) (output : List O → Prog Unit) {file : List UInt8}
    {bs : List Block} {xs : List O} (hs : split file = .ok bs) (hx : mapRes work bs = .ok xs) (fs : FS)
    (hin : Holds fs inp file) : (process work inp output).exec fs = (output xs).exec fs := by
  obtain ⟨pos, hin⟩ := hin
  have hne : file ≠ [] := by
    rintro rfl
    cases hs
  unfold process
  rw [Prog.exec_bind, exec_OsOpen_some hin, Res.ok_bind, Prog.exec_bind, exec_MMapMap]
  dsimp only
  rw [hin]
  dsimp only
  rw [if_neg hne, Res.ok_bind, Prog.exec_bind, Prog.exec_lift, hs, Res.ok_bind, Res.ok_bind, Prog.exec_bind, Prog.exec_lift,
    hx, Res.ok_bind, Res.ok_bind]

end Osm.Programs
