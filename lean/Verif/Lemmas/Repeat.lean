import Verif.Spec.Repeat
import Verif.Lemmas.Programs
import Verif.Lemmas.Cancel

/-! # Two runs of the same program -/

namespace Osm.Repeat
open Osm Osm.Pb Osm.T Osm.Pbf Osm.Spec

/-! ## Results -/

theorem alike_rfl {α : Type} {R : α → α → Prop} (h : ∀ a, R a a) (x : Res α) : Alike R x x := by
  cases x with
  | ok a => exact .ok _ _ (h a)
  | panic => exact .panic
  | hang => exact .hang

theorem Alike.bind {α β γ δ : Type} {R : α → β → Prop} {S : γ → δ → Prop} {x : Res α} {y : Res β} {f : α → Res γ}
    {g : β → Res δ} (h : Alike R x y) (hf : ∀ a b, R a b → Alike S (f a) (g b)) : Alike S (x >>= f) (y >>= g) := by
  cases h with
  | ok a b hr => exact hf a b hr
  | panic => exact .panic
  | hang => exact .hang

theorem Alike.mono {α β : Type} {R S : α → β → Prop} {x : Res α} {y : Res β} (h : Alike R x y) (hs : ∀ a b, R a b → S a b) :
    Alike S x y := by
  cases h with
  | ok a b hr => exact .ok _ _ (hs _ _ hr)
  | panic => exact .panic
  | hang => exact .hang

theorem alike_eq {α : Type} {x y : Res α} (h : Alike Eq x y) : x = y := by
  cases h with
  | ok a b hr => rw [hr]
  | panic => rfl
  | hang => rfl

theorem alike_of_eq {α : Type} {x y : Res α} (h : x = y) : Alike Eq x y := h ▸ alike_rfl (fun _ => rfl) x

/-! ## Programs -/

/-- From related files, the programs end the same way with related files. -/
def Rel {α : Type} (P Q : FS → FS → Prop) (p q : Prog α) : Prop :=
  ∀ f1 f2, P f1 f2 → Alike (fun r s => r.1 = s.1 ∧ Q r.2 s.2) (p.exec f1) (q.exec f2)

theorem rel_bind {α β : Type} {P Q R : FS → FS → Prop} {p q : Prog α} {f g : α → Prog β} (h : Rel P Q p q)
    (hf : ∀ a, Rel Q R (f a) (g a)) : Rel P R (p >>= f) (q >>= g) := by
  intro f1 f2 hp
  rw [Prog.exec_bind, Prog.exec_bind]
  refine Alike.bind (h f1 f2 hp) ?_
  rintro ⟨a, g1⟩ ⟨_, g2⟩ ⟨rfl, h2⟩
  exact hf a g1 g2 h2

theorem rel_lift {α : Type} {P : FS → FS → Prop} {x y : Res α} (h : x = y) : Rel P P (Prog.lift x) (Prog.lift y) := by
  intro f1 f2 hp
  subst h
  rw [Prog.exec_lift, Prog.exec_lift]
  exact Alike.bind (alike_of_eq rfl) fun a b e => .ok _ _ ⟨e, hp⟩

theorem rel_pure {α : Type} {P : FS → FS → Prop} (a : α) : Rel P P (Prog.pure a) (Prog.pure a) :=
  fun _ _ hp => .ok _ _ ⟨rfl, hp⟩

theorem rel_mono {α : Type} {P P' Q Q' : FS → FS → Prop} {p q : Prog α} (h : Rel P Q p q) (h1 : ∀ a b, P' a b → P a b)
    (h2 : ∀ a b, Q a b → Q' a b) : Rel P' Q' p q :=
  fun f1 f2 hp => Alike.mono (h f1 f2 (h1 _ _ hp)) fun _ _ hr => ⟨hr.1, h2 _ _ hr.2⟩

/-- The files in `I` have the same bytes, those in `C` also the same position. -/
def Agree (I C : String → Prop) (f1 f2 : FS) : Prop :=
  (∀ f, I f → SameData f f1 f2) ∧ ∀ f, C f → f1 f = f2 f

/-- One more file. -/
def with' (C : String → Prop) (f : String) : String → Prop := fun g => g = f ∨ C g

theorem agree_data {I C : String → Prop} {f1 f2 : FS} (h : Agree I C f1 f2) {f : String} (hf : I f ∨ C f) :
    SameData f f1 f2 := by
  rcases hf with hf | hf
  · exact h.1 f hf
  · unfold SameData; rw [h.2 f hf]

theorem sameData_isSome {f : String} {f1 f2 : FS} (h : SameData f f1 f2) : (f1 f).isSome = (f2 f).isSome := by
  have := congrArg Option.isSome h
  simpa using this

theorem rel_open {P : FS → FS → Prop} {f : String} (hf : ∀ a b, P a b → SameData f a b) :
    Rel P P (OsOpen f) (OsOpen f) := by
  intro f1 f2 h
  rw [exec_OsOpen, exec_OsOpen, sameData_isSome (hf _ _ h)]
  split
  · exact .ok _ _ ⟨rfl, h⟩
  · exact .panic

theorem rel_mmap {P : FS → FS → Prop} {f : String} (hf : ∀ a b, P a b → SameData f a b) :
    Rel P (fun a b => P a b) (MMapMap f) (MMapMap f) := by
  intro f1 f2 h
  rw [exec_MMapMap, exec_MMapMap]
  have := hf _ _ h
  unfold SameData at this
  cases h1 : f1 f with
  | none =>
    cases h2 : f2 f with
    | none => exact .panic
    | some y => rw [h1, h2] at this; cases this
  | some x =>
    cases h2 : f2 f with
    | none => rw [h1, h2] at this; cases this
    | some y =>
      rw [h1, h2] at this
      simp only [Option.map_some, Option.some.injEq] at this
      dsimp only
      rw [this]
      split
      · exact .panic
      · exact .ok _ _ ⟨rfl, h⟩

theorem rel_create {I C : String → Prop} (f : String) :
    Rel (Agree I C) (Agree I (with' C f)) (OsCreate f) (OsCreate f) := by
  intro f1 f2 h
  unfold OsCreate
  rw [Prog.exec_emit, Prog.exec_emit]
  refine .ok _ _ ⟨rfl, fun g hg => ?_, fun g hg => ?_⟩
  · by_cases e : g = f
    · subst e; simp [FsOp.run, SameData]
    · simp only [FsOp.run, SameData, set_other _ _ e]; exact h.1 g hg
  · by_cases e : g = f
    · subst e; simp [FsOp.run]
    · simp only [FsOp.run, set_other _ _ e]; exact h.2 g (hg.resolve_left e)

theorem rel_remove {I C : String → Prop} (f : String) :
    Rel (Agree I C) (Agree I (with' C f)) (OsRemoveTry f) (OsRemoveTry f) := by
  intro f1 f2 h
  unfold OsRemoveTry
  rw [Prog.exec_emit, Prog.exec_emit]
  refine .ok _ _ ⟨rfl, fun g hg => ?_, fun g hg => ?_⟩
  · by_cases e : g = f
    · subst e; simp [FsOp.run, SameData]
    · simp only [FsOp.run, SameData, set_other _ _ e]; exact h.1 g hg
  · by_cases e : g = f
    · subst e; simp [FsOp.run]
    · simp only [FsOp.run, set_other _ _ e]; exact h.2 g (hg.resolve_left e)

theorem rel_write {I C : String → Prop} {f : String} (hf : C f) (bs : List UInt8) :
    Rel (Agree I C) (Agree I C) (Prog.emit (.write f bs)) (Prog.emit (.write f bs)) := by
  intro f1 f2 h
  rw [Prog.exec_emit, Prog.exec_emit]
  refine .ok _ _ ⟨rfl, fun g hg => ?_, fun g hg => ?_⟩
  · by_cases e : g = f
    · subst e; simp [FsOp.run, SameData, h.2 _ hf]
    · simp only [FsOp.run, SameData, set_other _ _ e]; exact h.1 g hg
  · by_cases e : g = f
    · subst e; simp [FsOp.run, h.2 _ hf]
    · simp only [FsOp.run, set_other _ _ e]; exact h.2 g hg

theorem mapRes_on {α β : Type} {f g : α → Res β} : ∀ {as : List α}, (∀ a ∈ as, f a = g a) → mapRes f as = mapRes g as
  | [], _ => rfl
  | a :: as, h => by
    unfold mapRes
    rw [h a (by simp), mapRes_on fun x hx => h x (by simp [hx])]

/-- The common part of the commands. -/
theorem rel_process {α O : Type} {P Q : FS → FS → Prop} (cut : Option Nat) {w1 w2 : Block → Res O} {inp : String}
    {o1 o2 : List O → Prog α} (hf : ∀ a b, P a b → SameData inp a b)
    (hw : ∀ a b, P a b → ∀ x, a inp = some x → AllBlocks (fun b => w1 b = w2 b) x.data)
    (ho : ∀ xs, Rel P Q (o1 xs) (o2 xs)) :
    Rel P Q (Interrupt.process cut w1 inp o1) (Interrupt.process cut w2 inp o2) := by
  intro f1 f2 h
  have hd := hf _ _ h
  unfold SameData at hd
  unfold Interrupt.process
  simp only [Prog.exec_bind, exec_OsOpen, exec_MMapMap, Prog.exec_lift]
  cases h1 : f1 inp with
  | none =>
    cases h2 : f2 inp with
    | none => exact .panic
    | some y => rw [h1, h2] at hd; cases hd
  | some x =>
    cases h2 : f2 inp with
    | none => rw [h1, h2] at hd; cases hd
    | some y =>
      rw [h1, h2] at hd
      simp only [Option.map_some, Option.some.injEq] at hd
      simp only [Option.isSome_some, if_true, Res.ok_bind, h1, h2]
      rw [← hd]
      by_cases he : x.data = []
      · rw [if_pos he, if_pos he]; exact .panic
      · rw [if_neg he, if_neg he]
        simp only [Res.ok_bind]
        cases hs : split x.data with
        | panic => exact .panic
        | hang => exact .hang
        | ok bs =>
          simp only [Res.ok_bind]
          have hm : mapRes w1 (Interrupt.handed cut bs) = mapRes w2 (Interrupt.handed cut bs) :=
            mapRes_on fun b hb => hw _ _ h x h1 bs hs b (Interrupt.mem_handed hb)
          rw [hm]
          cases mapRes w2 (Interrupt.handed cut bs) with
          | panic => exact .panic
          | hang => exact .hang
          | ok xs => exact ho xs _ _ h

/-! ## Blocks -/

/-- What a block delivers, if it does not depend on chance how much that is. -/
theorem rawOf_alike {inflate : Inflate} {b : Block} (h : NotLonger inflate b) (s1 s2 : Sched) :
    Alike (fun x y => x.bytes = y.bytes) (rawOf inflate s1 b) (rawOf inflate s2 b) := by
  unfold rawOf
  cases hb : ReadBlob b.Data with
  | panic => exact .panic
  | hang => exact .hang
  | ok blob =>
    rw [Res.ok_bind, Res.ok_bind]
    obtain ⟨raw, size, z⟩ := blob
    cases raw with
    | some r => exact .ok _ _ rfl
    | none =>
      cases z with
      | none => exact .panic
      | some z =>
        show Alike _ (decodeZLib inflate s1 z.bytes size) (decodeZLib inflate s2 z.bytes size)
        cases hi : inflate z.bytes with
        | none =>
          have : ∀ s, decodeZLib inflate s z.bytes size = .panic := fun s => by unfold decodeZLib; rw [hi]
          rw [this, this]; exact .panic
        | some p =>
          cases size with
          | none =>
            have : ∀ s, decodeZLib inflate s z.bytes none = .panic := fun s => by unfold decodeZLib; rw [hi]
            rw [this, this]; exact .panic
          | some size =>
            rcases Int.lt_trichotomy p.length size.toInt with hp | hp | hp
            · rw [decodeZLib_short s1 hi hp, decodeZLib_short s2 hi hp]; exact .panic
            · obtain ⟨x, hx, _⟩ := decodeZLib_exact s1 hi hp.symm
              obtain ⟨y, hy, _⟩ := decodeZLib_exact s2 hi hp.symm
              rw [hx, hy]
              exact .ok _ _ rfl
            · have h0 : size.toInt ≤ 0 := by
                rcases h z size p hb hi with h | h <;> omega
              by_cases hneg : size.toInt < 0
              · have : ∀ s, decodeZLib inflate s z.bytes (some size) = .panic := fun s => by
                  unfold decodeZLib; rw [hi]; dsimp only; rw [if_pos hneg]
                rw [this, this]; exact .panic
              · have : ∀ s, ∃ sp, decodeZLib inflate s z.bytes (some size) = .ok ⟨[], sp⟩ := fun s => by
                  unfold decodeZLib
                  rw [hi]
                  dsimp only
                  rw [if_neg hneg]
                  unfold inflateLoop
                  rw [if_neg (by omega), Res.ok_bind, show size.toInt.toNat = 0 by omega]
                  exact ⟨_, rfl⟩
                obtain ⟨x, hx⟩ := this s1
                obtain ⟨y, hy⟩ := this s2
                rw [hx, hy]
                exact .ok _ _ rfl

theorem definite_notLonger {inflate : Inflate} {o : PBReader} {b : Block} (hk : b.Kind = osmData)
    (h : Definite inflate o b) : NotLonger inflate b := by
  intro z size stream h1 h2
  rcases h hk z size stream h1 h2 with h | h | ⟨h, _⟩
  · exact .inl h
  · exact .inr (by omega)
  · exact .inr (by omega)

/-- What a data block decodes to, likewise. -/
theorem decode_alike {inflate : Inflate} {o : PBReader} {b : Block} (hk : b.Kind = osmData) (h : Definite inflate o b)
    (s1 s2 : Sched) :
    Alike (fun p q => trimBlock p = trimBlock q) (rawOf inflate s1 b >>= ReadPrimitiveBlock o)
      (rawOf inflate s2 b >>= ReadPrimitiveBlock o) := by
  have key : (∃ raw, (∀ s, rawOf inflate s b = .ok raw)) ∨ (∃ p c, ReadPrimitiveBlock o ⟨p, []⟩ = .ok c ∧
      ∀ s, ∃ sp, rawOf inflate s b = .ok ⟨p, sp⟩) ∨ (∀ s, rawOf inflate s b = .panic) ∨ (∀ s, rawOf inflate s b = .hang) := by
    unfold rawOf
    cases hb : ReadBlob b.Data with
    | panic => exact .inr (.inr (.inl fun _ => rfl))
    | hang => exact .inr (.inr (.inr fun _ => rfl))
    | ok blob =>
      simp only [Res.ok_bind]
      obtain ⟨raw, size, z⟩ := blob
      cases raw with
      | some r => exact .inl ⟨r, fun _ => rfl⟩
      | none =>
        cases z with
        | none => exact .inr (.inr (.inl fun _ => rfl))
        | some z =>
          cases hi : inflate z.bytes with
          | none =>
            refine .inr (.inr (.inl fun s => ?_))
            show decodeZLib inflate s z.bytes size = _
            unfold decodeZLib; rw [hi]
          | some p =>
            cases size with
            | none =>
              refine .inr (.inr (.inl fun s => ?_))
              show decodeZLib inflate s z.bytes none = _
              unfold decodeZLib; rw [hi]
            | some size =>
              rcases h hk z size p hb hi with h | h | ⟨h, c, hc⟩
              · by_cases hneg : size.toInt < 0
                · refine .inr (.inr (.inl fun s => ?_))
                  show decodeZLib inflate s z.bytes (some size) = _
                  unfold decodeZLib; rw [hi]; dsimp only; rw [if_pos hneg]
                · refine .inr (.inl ⟨[], _, rfl, fun s => ?_⟩)
                  show ∃ sp, decodeZLib inflate s z.bytes (some size) = _
                  unfold decodeZLib
                  rw [hi]
                  dsimp only
                  rw [if_neg hneg]
                  unfold inflateLoop
                  rw [if_neg (by omega), Res.ok_bind, show size.toInt.toNat = 0 by omega]
                  exact ⟨_, rfl⟩
              · exact .inr (.inr (.inl fun s => decodeZLib_short s hi h))
              · refine .inr (.inl ⟨p, c, hc, fun s => ?_⟩)
                obtain ⟨x, hx, _⟩ := decodeZLib_exact s hi h.symm
                exact ⟨x, hx⟩
  rcases key with ⟨raw, hr⟩ | ⟨p, c, hc, hr⟩ | hr | hr
  · rw [hr, hr]; exact alike_rfl (R := fun p q => trimBlock p = trimBlock q) (fun _ => rfl) _
  · obtain ⟨x, hx⟩ := hr s1
    obtain ⟨y, hy⟩ := hr s2
    obtain ⟨c1, e1, e2⟩ := grows_block o (s := ⟨p, []⟩) (t := ⟨p, x⟩) ⟨rfl, x, rfl⟩ _ hc
    obtain ⟨c2, e3, e4⟩ := grows_block o (s := ⟨p, []⟩) (t := ⟨p, y⟩) ⟨rfl, y, rfl⟩ _ hc
    rw [hx, hy, Res.ok_bind, Res.ok_bind, e1, e3]
    exact .ok _ _ (e2.trans e4.symm)
  · rw [hr, hr]; exact .panic
  · rw [hr, hr]; exact .hang

/-- A worker that does the same with all blocks which look the same. -/
theorem blockWork_same {O : Type} {inflate : Inflate} {o : PBReader} {work : Option PrimitiveBlock → Res O}
    (hw : ∀ p q, trimBlock p = trimBlock q → work (some p) = work (some q)) {b : Block} (h : Definite inflate o b)
    (s1 s2 : Block → Sched) :
    Programs.blockWork inflate s1 o work b = Programs.blockWork inflate s2 o work b := by
  unfold Programs.blockWork Programs.decodeBlock
  by_cases hk : b.Kind = osmData
  · rw [if_neg (by simpa using hk), if_neg (by simpa using hk)]
    have hd := decode_alike hk h (s1 b) (s2 b)
    have e : ∀ s : Sched, ((do
        let raw ← rawOf inflate s b
        let pb ← ReadPrimitiveBlock o raw
        .ok (some pb)) >>= work : Res O) = (rawOf inflate s b >>= ReadPrimitiveBlock o) >>= fun pb => work (some pb) := by
      intro s
      cases rawOf inflate s b with
      | panic => rfl
      | hang => rfl
      | ok raw =>
        simp only [Res.ok_bind]
        cases ReadPrimitiveBlock o raw <;> rfl
    rw [e, e]
    exact alike_eq (Alike.bind hd fun p q hpq => alike_of_eq (hw p q hpq))
  · rw [if_pos hk, if_pos hk]

/-! ## The work -/

theorem trim_dense (b : PrimitiveBlock) : (trimBlock b).PrimitiveGroup.map (·.Dense) = b.PrimitiveGroup.map (·.Dense) := by
  simp [trimBlock, trimGroup, Function.comp_def]

theorem trim_relations (b : PrimitiveBlock) :
    (trimBlock b).PrimitiveGroup.map (·.Relations) = b.PrimitiveGroup.map (·.Relations) := by
  simp [trimBlock, trimGroup, Function.comp_def]

theorem nodeWork_trim (p : PrimitiveBlock) : NodeIndexer.work (some (trimBlock p)) = NodeIndexer.work (some p) := by
  show NodeIndexer.indexBlock (trimBlock p) = NodeIndexer.indexBlock p
  unfold NodeIndexer.indexBlock
  rw [Programs.foldRes_congr (g := NodeIndexer.addGroup p) (p := (·.Dense)) (q := (·.Dense)) ?_ _ (trim_dense p)]
  intro st a b e
  unfold NodeIndexer.addGroup
  rw [e]
  cases b.Dense with
  | none => rfl
  | some dn => exact Programs.addNodes_congr (p := trimBlock p) (f := p) rfl dn _ _ _

theorem relWork_trim (p : PrimitiveBlock) : RelIndex.work (some (trimBlock p)) = RelIndex.work (some p) := by
  unfold RelIndex.work RelIndex.initBlock
  dsimp only
  rw [Programs.mapRes_congr (p := fun g : T.PrimitiveGroup => g.Relations) (q := fun g : T.PrimitiveGroup => g.Relations) ?_
    (trim_relations p)]
  intro a b e
  rw [e]

theorem rewriteGroups_trim (si : NodeIndex.SubIdx) : ∀ (gs : List T.PrimitiveGroup) (hint : Int),
    Rewrite.rewriteGroups si hint (gs.map trimGroup) =
      Rewrite.rewriteGroups si hint gs >>= fun r => .ok (r.1.map trimGroup, r.2)
  | [], _ => rfl
  | g :: gs, hint => by
    rw [List.map_cons]
    unfold Rewrite.rewriteGroups
    rw [show (trimGroup g).Ways = g.Ways from rfl]
    cases Rewrite.rewriteWays si hint g.Ways with
    | panic => rfl
    | hang => rfl
    | ok r =>
      simp only [Res.ok_bind]
      rw [rewriteGroups_trim si gs r.2]
      cases Rewrite.rewriteGroups si r.2 gs <;> rfl

theorem optBytes_trim (x : Option Slice) : optBytes (x.map trimSlice) = optBytes x := by cases x <;> rfl

theorem writeGroup_trim (g : T.PrimitiveGroup) : T.PrimitiveGroup.Write (trimGroup g) = T.PrimitiveGroup.Write g := by
  funext buf
  have h1 : T.PrimitiveGroup.writeDense (trimGroup g) = T.PrimitiveGroup.writeDense g := by
    funext buf
    unfold T.PrimitiveGroup.writeDense
    rw [show (trimGroup g).Dense = g.Dense from rfl, show (trimGroup g).RawDense = g.RawDense.map trimSlice from rfl]
    cases g.Dense <;> cases g.RawDense <;> rfl
  have h2 : T.PrimitiveGroup.writeWays (trimGroup g) = T.PrimitiveGroup.writeWays g := by
    funext buf
    unfold T.PrimitiveGroup.writeWays
    rw [show (trimGroup g).Ways = g.Ways from rfl, show (trimGroup g).RawWays = g.RawWays.map trimSlice from rfl,
      List.foldl_map]
    rfl
  have h3 : T.PrimitiveGroup.writeRelations (trimGroup g) = T.PrimitiveGroup.writeRelations g := by
    funext buf
    unfold T.PrimitiveGroup.writeRelations
    rw [show (trimGroup g).Relations = g.Relations from rfl,
      show (trimGroup g).RawRelations = g.RawRelations.map trimSlice from rfl, List.foldl_map]
    rfl
  unfold T.PrimitiveGroup.Write
  rw [h1, h2, h3]

theorem write_trim (b : PrimitiveBlock) : (trimBlock b).Write = b.Write := by
  funext buf
  have h1 : (trimBlock b).writeStringTable = b.writeStringTable := by
    funext buf
    unfold PrimitiveBlock.writeStringTable
    rw [show (trimBlock b).StringTable = b.StringTable from rfl,
      show (trimBlock b).StringTableRaw = b.StringTableRaw.map trimSlice from rfl]
    cases b.StringTable <;> cases b.StringTableRaw <;> rfl
  unfold PrimitiveBlock.Write
  rw [h1]
  congr 1
  funext buf
  rw [Programs.foldRes_congr (as := (trimBlock b).PrimitiveGroup) (bs := b.PrimitiveGroup)
    (g := fun buf pg => Embed268435456 2 (T.PrimitiveGroup.Write pg) buf) (p := trimGroup) (q := trimGroup) ?_ buf ?_]
  · rfl
  · intro s a c e
    rw [← writeGroup_trim a, e, writeGroup_trim c]
  · show (b.PrimitiveGroup.map trimGroup).map trimGroup = _
    rw [List.map_map]
    congr 1
    funext g
    simp [trimGroup, trimSlice, Function.comp_def]
    rfl

theorem rewriteBlock_trim (si : NodeIndex.SubIdx) (b : PrimitiveBlock) :
    Rewrite.rewriteBlock si (trimBlock b) = Rewrite.rewriteBlock si b := by
  unfold Rewrite.rewriteBlock
  rw [show (trimBlock b).PrimitiveGroup = b.PrimitiveGroup.map trimGroup from rfl, rewriteGroups_trim]
  cases Rewrite.rewriteGroups si 0 b.PrimitiveGroup with
  | panic => rfl
  | hang => rfl
  | ok r =>
    simp only [Res.ok_bind]
    rw [← write_trim { b with PrimitiveGroup := r.1 }]
    rfl

theorem rewriteDecoded_trim (si : NodeIndex.SubIdx) (x : Block) (b : PrimitiveBlock) :
    Rewrite.rewriteDecoded si x (trimBlock b) = Rewrite.rewriteDecoded si x b := by
  unfold Rewrite.rewriteDecoded
  rw [Rewrite.totalWays_trim, rewriteBlock_trim]

theorem decompress_same {inflate : Inflate} {b : Block} (h : NotLonger inflate b) (s1 s2 : Block → Sched) :
    decompressWork inflate s1 b = decompressWork inflate s2 b := by
  unfold decompressWork
  refine alike_eq (Alike.bind (rawOf_alike h (s1 b) (s2 b)) fun x y e => alike_of_eq ?_)
  have : ∀ r : Slice, (Blob.mk (some r) none none).Write none [] = (Blob.mk (some (trimSlice r)) none none).Write none [] :=
    fun _ => rfl
  rw [this x, this y]
  unfold trimSlice
  rw [e]

theorem filter_same {inflate : Inflate} {b : Block} (h : Definite inflate readAll b) (s1 s2 : Block → Sched) :
    TagFilter.filterWork inflate s1 b = TagFilter.filterWork inflate s2 b := by
  unfold TagFilter.filterWork TagFilter.filterIter
  by_cases hk : b.Kind = osmData
  · rw [if_neg (by simpa using hk), if_neg (by simpa using hk)]
    have e : ∀ s : Sched, (do
        let raw ← rawOf inflate s b
        let pb ← ReadPrimitiveBlock TagFilter.reader raw
        TagFilter.filterBlock [] pb) = (rawOf inflate s b >>= ReadPrimitiveBlock readAll) >>= TagFilter.filterBlock [] := by
      intro s
      cases rawOf inflate s b <;> rfl
    rw [e, e]
    have hd := decode_alike hk h (s1 b) (s2 b)
    have hd' : Alike Eq (rawOf inflate (s1 b) b >>= ReadPrimitiveBlock readAll)
        (rawOf inflate (s2 b) b >>= ReadPrimitiveBlock readAll) := by
      generalize hx : (rawOf inflate (s1 b) b >>= ReadPrimitiveBlock readAll) = x at hd
      generalize hy : (rawOf inflate (s2 b) b >>= ReadPrimitiveBlock readAll) = y at hd
      cases hd with
      | ok p q hpq =>
        obtain ⟨r1, _, a1⟩ := Res.bind_eq_ok.1 hx
        obtain ⟨r2, _, a2⟩ := Res.bind_eq_ok.1 hy
        rw [trim_readAll (readBlock_shape _ _ _ a1), trim_readAll (readBlock_shape _ _ _ a2)] at hpq
        exact .ok _ _ hpq
      | panic => exact .panic
      | hang => exact .hang
    rw [alike_eq hd']
  · rw [if_pos hk, if_pos hk]

theorem rewrite_same {inflate : Inflate} {si : NodeIndex.SubIdx} {b : Block} (h : Definite inflate waysDecoded b)
    (s1 s2 : Block → Sched) : Rewrite.rewriteWork inflate s1 si b = Rewrite.rewriteWork inflate s2 si b := by
  unfold Rewrite.rewriteWork
  by_cases hk : b.Kind = osmData
  · rw [if_neg (by simpa using hk), if_neg (by simpa using hk)]
    have e : ∀ s : Sched, (do
        let raw ← rawOf inflate s b
        let pb ← ReadPrimitiveBlock Rewrite.reader raw
        Rewrite.rewriteDecoded si b pb) =
        (rawOf inflate s b >>= ReadPrimitiveBlock waysDecoded) >>= Rewrite.rewriteDecoded si b := by
      intro s
      cases rawOf inflate s b <;> rfl
    rw [e, e]
    refine alike_eq (Alike.bind (decode_alike hk h (s1 b) (s2 b)) fun p q hpq => alike_of_eq ?_)
    rw [← rewriteDecoded_trim, hpq, rewriteDecoded_trim]
  · rw [if_pos hk, if_pos hk]

/-! ## The writers -/

theorem rel_writeAll {I C : String → Prop} {f : String} (hf : C f) : ∀ xs : List (List UInt8),
    Rel (Agree I C) (Agree I C) (writeAll f xs) (writeAll f xs)
  | [] => rel_pure ()
  | x :: xs => rel_bind (rel_write hf x) fun _ => rel_writeAll hf xs

theorem rel_decompress {I C : String → Prop} (f : String) (xs : List (List UInt8)) :
    Rel (Agree I C) (Agree I (with' C f)) (decompressOutput f xs) (decompressOutput f xs) :=
  rel_bind (rel_create f) fun _ => rel_writeAll (.inl rfl) xs

theorem rel_filterLoop {I C : String → Prop} {f : String} (hf : C f) : ∀ (xs : List Rewrite.Out) (n : Nat),
    Rel (Agree I C) (Agree I C) (TagFilter.writeLoop f n xs) (TagFilter.writeLoop f n xs)
  | [], n => rel_pure n
  | (kind, blob) :: xs, n => by
    unfold TagFilter.writeLoop
    by_cases hk : kind = TagFilter.filler
    · rw [if_pos hk]
      exact rel_filterLoop hf xs _
    · rw [if_neg hk]
      exact rel_bind (rel_write hf _) fun _ => rel_bind (rel_write hf _) fun _ => rel_filterLoop hf xs _

theorem rel_filter {I C : String → Prop} (f : String) (xs : List Rewrite.Out) :
    Rel (Agree I C) (Agree I (with' C f)) (TagFilter.output f xs) (TagFilter.output f xs) :=
  rel_bind (rel_create f) fun _ => rel_filterLoop (.inl rfl) xs 0

theorem rel_writeBlocks {I C : String → Prop} {f : String} (hf : C f) : ∀ xs : List Rewrite.Out,
    Rel (Agree I C) (Agree I C) (Rewrite.writeBlocks f xs) (Rewrite.writeBlocks f xs)
  | [] => rel_pure ()
  | (_, _) :: xs => rel_bind (rel_write hf _) fun _ => rel_bind (rel_write hf _) fun _ => rel_writeBlocks hf xs

theorem rel_output {I C : String → Prop} (f : String) (xs : List Rewrite.Out) :
    Rel (Agree I C) (Agree I (with' C f)) (Rewrite.output f xs) (Rewrite.output f xs) :=
  rel_bind (rel_create f) fun _ => rel_writeBlocks (.inl rfl) xs

/-- The two indexers: however the locations are copied. -/
theorem rel_withHeader {α : Type} (out : String) (c1 c2 : Nat → Nat) (L : Prog α)
    (res : Res (α × List UInt8 × List UInt8)) (hL : LoopSpec out (out ++ ".loc.tmp") L res)
    (h : α → List UInt8) (hh : ∀ a, (h a).length = 16) (P : FS → FS → Prop) :
    Rel P (SameData out) (withHeader out (twoFile out c1 (fun _ => false) L) h)
      (withHeader out (twoFile out c2 (fun _ => false) L) h) := by
  intro f1 f2 _
  obtain ⟨a1, a2, a3⟩ := withHeader_exec out c1 (fun _ => false) L res hL h hh f1
  obtain ⟨b1, b2, b3⟩ := withHeader_exec out c2 (fun _ => false) L res hL h hh f2
  cases hr : res with
  | panic => rw [a2 hr, b2 hr]; exact .panic
  | hang => rw [a3 hr, b3 hr]; exact .hang
  | ok r =>
    obtain ⟨x, A, B⟩ := r
    obtain ⟨g1, m1, x1, ⟨p1, x2⟩, _, _, x3, _⟩ := a1 x A B hr
    obtain ⟨g2, m2, y1, ⟨p2, y2⟩, _, _, y3, _⟩ := b1 x A B hr
    rw [x1, y1]
    refine .ok _ _ ⟨rfl, ?_⟩
    show (g1 out).map _ = (g2 out).map _
    rw [x2, y2, List.take_of_length_le (x3 fun _ => rfl), List.take_of_length_le (y3 fun _ => rfl)]
    rfl

/-! ## Relation index -/

theorem rel_relBlocks {I C : String → Prop} {f : String} (hf : C f) : ∀ xs : List (Option (List Int64)),
    Rel (Agree I C) (Agree I C) (RelIndex.writeBlocks f xs) (RelIndex.writeBlocks f xs)
  | [] => rel_pure ()
  | none :: xs => rel_relBlocks hf xs
  | some _ :: xs => rel_bind (rel_write hf _) fun _ => rel_relBlocks hf xs

theorem rel_rewriteLoop {I C : String → Prop} {f : String} (hf : C f) (swi : WayIndex.SubIdx) (last : Bool) :
    ∀ (fuel : Nat) (o u : List Int64),
      Rel (Agree I C) (Agree I C) (RelIndex.rewriteLoop swi last f fuel o u) (RelIndex.rewriteLoop swi last f fuel o u)
  | 0, _, _ => rel_lift rfl
  | fuel + 1, o, [] => by
    unfold RelIndex.rewriteLoop
    split
    · exact rel_write hf _
    · exact rel_pure ()
  | fuel + 1, o, w :: u => by
    unfold RelIndex.rewriteLoop
    refine rel_bind (rel_lift rfl) fun r => ?_
    dsimp only
    split
    · exact rel_bind (rel_write hf _) fun _ => rel_rewriteLoop hf swi last fuel _ _
    · exact rel_rewriteLoop hf swi last fuel _ _

theorem rel_rewrite {I C : String → Prop} {inF outF : String} (hin : C inF) (ix : WayIndex.WayIdx)
    (pass count : Int64) :
    Rel (Agree I C) (Agree I (with' C outF)) (RelIndex.rewrite outF inF ix pass count)
      (RelIndex.rewrite outF inF ix pass count) := by
  unfold RelIndex.rewrite
  refine rel_bind (rel_lift rfl) fun swi => rel_bind (rel_open fun a b h => agree_data h (.inr hin)) fun _ =>
    rel_bind (rel_create outF) fun _ => rel_bind (rel_mmap fun a b h => agree_data h (.inr (.inr hin))) fun m =>
    rel_rewriteLoop (.inl rfl) _ _ _ _ _

theorem rel_relPasses {I : String → Prop} (out : String) (ix : WayIndex.WayIdx) (n : Nat) : ∀ (left i : Nat)
    (C : String → Prop), i + (left + 1) = n → C (RelIndex.makePassFilename out i n) →
    Rel (Agree I C) (SameData out) (RelIndex.runPasses out ix n (left + 1) i) (RelIndex.runPasses out ix n (left + 1) i) := by
  intro left
  induction left with
  | zero =>
    intro i C hi hC
    unfold RelIndex.runPasses
    rw [if_neg (by omega)]
    refine rel_bind (rel_rewrite hC ix _ _) fun _ => rel_bind (rel_remove _) fun _ => ?_
    refine rel_mono (rel_pure ()) (fun _ _ h => h) fun a b h => ?_
    exact agree_data h (.inr (.inr (.inl rfl)))
  | succ left ih =>
    intro i C hi hC
    rw [RelIndex.runPasses.eq_def]
    dsimp only
    rw [if_pos (by omega)]
    refine rel_bind (rel_rewrite hC ix _ _) fun _ => rel_bind (rel_remove _) fun _ => ?_
    exact ih (i + 1) _ (by omega) (.inr (.inl rfl))

theorem rel_relindex {I C : String → Prop} (out wayIndex : String) (hw : I wayIndex) {n : Nat} (hn : 0 < n)
    (blocks : List (Option (List Int64))) :
    Rel (Agree I C) (SameData out) (RelIndex.relindex out wayIndex n blocks) (RelIndex.relindex out wayIndex n blocks) := by
  unfold RelIndex.relindex RelIndex.InitOutput
  obtain ⟨k, rfl⟩ : ∃ k, n = k + 1 := ⟨n - 1, by omega⟩
  exact rel_bind (rel_bind (rel_create _) fun _ => rel_relBlocks (.inl rfl) _) fun _ =>
    rel_bind (rel_open fun a b h => agree_data h (.inl hw)) fun _ =>
    rel_bind (rel_mmap fun a b h => agree_data h (.inl hw)) fun m =>
    rel_bind (rel_lift rfl) fun ix => rel_relPasses out ix _ k 0 _ (by omega) (.inl rfl)

/-! ## Rewriting -/

/-- With a fact about the first run. -/
theorem rel_and {α : Type} {P Q : FS → FS → Prop} {S : FS → Prop} {p q : Prog α} (h : Rel P Q p q)
    (hs : ∀ f1 f2, P f1 f2 → ∀ r, p.exec f1 = .ok r → S r.2) : Rel P (fun a b => Q a b ∧ S a) p q := by
  intro f1 f2 hp
  have := h f1 f2 hp
  generalize hx : p.exec f1 = x at this
  generalize hy : q.exec f2 = y at this
  cases this with
  | ok r s hrs => exact .ok _ _ ⟨hrs.1, hrs.2, hs f1 f2 hp r hx⟩
  | panic => exact .panic
  | hang => exact .hang

/-- A file that can be processed, or an empty one. -/
def Fine (inflate : Inflate) (f : String) (fs : FS) : Prop :=
  ∀ x, fs f = some x → x.data = [] ∨ x.data.length < 2 ^ 63 ∧ ∃ cs, FileHas inflate waysDecoded x.data cs ∧ SmallFile cs

theorem fine_blocks {inflate : Inflate} {f : String} {fs : FS} (h : Fine inflate f fs) (s1 s2 : Block → Sched)
    (h1 : ∀ b, (s1 b).pooled.length < 2 ^ 63) (h2 : ∀ b, (s2 b).pooled.length < 2 ^ 63) (si : NodeIndex.SubIdx) :
    ∀ x, fs f = some x → AllBlocks (fun b => Rewrite.rewriteWork inflate s1 si b = Rewrite.rewriteWork inflate s2 si b) x.data := by
  intro x hx bs hs b hb
  rcases h x hx with h | ⟨hl, cs, ⟨bs', e1, e2⟩, _⟩
  · rw [h] at hs; cases hs
  · rw [hs] at e1
    cases e1
    obtain ⟨c, _, hc⟩ := Rewrite.matches_mem e2 b hb
    have hfit := ((Rewrite.split_blocks hl hs).2 b hb).1
    unfold Rewrite.rewriteWork
    cases c with
    | other k d => rw [if_pos hc.2.2, if_pos hc.2.2]
    | data c =>
      obtain ⟨hk, hr⟩ := hc
      obtain ⟨r1, p1, a1, a2, a3⟩ := hr b.Index b.Data.spare (s1 b) hfit (h1 b)
      obtain ⟨r2, p2, b1, b2, b3⟩ := hr b.Index b.Data.spare (s2 b) hfit (h2 b)
      rw [← hk] at a1 b1
      rw [if_neg (by simpa using hk), if_neg (by simpa using hk), a1, b1, Res.ok_bind, Res.ok_bind,
        show ReadPrimitiveBlock Rewrite.reader r1 = .ok p1 from a2, show ReadPrimitiveBlock Rewrite.reader r2 = .ok p2 from b2,
        Res.ok_bind, Res.ok_bind, ← rewriteDecoded_trim, a3, ← b3, rewriteDecoded_trim]

/-- One pass. -/
theorem rel_pass {I C : String → Prop} {inflate : Inflate} {s1 s2 : Block → Sched}
    (h1 : ∀ b, (s1 b).pooled.length < 2 ^ 63) (h2 : ∀ b, (s2 b).pooled.length < 2 ^ 63) {si : NodeIndex.SubIdx}
    (hw : WellFormedSub si) (cut : Option Nat) {inp out : String} (hi : I inp ∨ C inp) :
    Rel (fun a b => Agree I C a b ∧ Fine inflate inp a) (fun a b => Agree I (with' C out) a b ∧ Fine inflate out a)
      (Interrupt.rewritePass inflate s1 cut si inp out) (Interrupt.rewritePass inflate s2 cut si inp out) := by
  refine rel_and ?_ ?_
  · refine rel_process cut (fun a b h => agree_data h.1 hi) (fun a b h => fine_blocks h.2 s1 s2 h1 h2 si) fun xs => ?_
    exact rel_mono (rel_output out xs) (fun _ _ h => h.1) fun _ _ h => h
  · rintro f1 f2 ⟨_, hf⟩ ⟨u, g⟩ hr
    cases hx : f1 inp with
    | none =>
      unfold Interrupt.rewritePass Interrupt.process at hr
      rw [Prog.exec_bind, exec_OsOpen, hx] at hr
      cases hr
    | some x =>
      rcases hf x hx with h | ⟨hl, cs, hc, hsm⟩
      · unfold Interrupt.rewritePass Interrupt.process at hr
        rw [Prog.exec_bind, exec_OsOpen_some hx, Res.ok_bind, Prog.exec_bind, exec_MMapMap] at hr
        dsimp only at hr
        rw [hx] at hr
        dsimp only at hr
        rw [if_pos h] at hr
        cases hr
      · obtain ⟨fs', file', e1, ⟨pos, e2⟩, e3, e4, e5, _⟩ := Interrupt.rewritePass_cut inflate s1 h1 cut hw hl hc hsm inp out f1
          ⟨x.pos, hx⟩
        rw [hr] at e1
        have e1' := Res.ok.inj e1
        cases e1'
        intro y hy
        dsimp only at hy
        rw [e2] at hy
        cases hy
        by_cases h0 : Interrupt.handed cut cs = []
        · exact .inl (e4 h0)
        · exact .inr ⟨e3, _, e5 h0, Rewrite.smallFile_map _ (Interrupt.smallFile_handed hsm cut)⟩

theorem rel_removeOld {I C : String → Prop} (out : String) (n i : Nat) {inp : String} {inflate : Inflate} :
    Rel (fun a b => Agree I C a b ∧ Fine inflate (Rewrite.passInput inp out n i) a)
      (fun a b => Agree I C a b ∧ Fine inflate (Rewrite.passInput inp out n i) a)
      (Rewrite.removeOld out n i) (Rewrite.removeOld out n i) := by
  intro f1 f2 ⟨h, hf⟩
  unfold Rewrite.removeOld
  by_cases h2 : i > 1
  · rw [if_pos h2]
    have := rel_remove (I := I) (C := C) (RelIndex.makePassFilename out (i - 1) n) f1 f2 h
    unfold OsRemoveTry at this ⊢
    rw [Prog.exec_emit, Prog.exec_emit] at this ⊢
    cases this with
    | ok r s hrs =>
      refine .ok _ _ ⟨rfl, ⟨hrs.2.1, fun g hg => hrs.2.2 g (.inr hg)⟩, ?_⟩
      intro x hx
      refine hf x ?_
      rw [← hx]
      refine (set_other _ _ ?_).symm
      unfold Rewrite.passInput
      rw [if_pos (by omega)]
      intro e
      have := RelIndex.pass_inj e
      omega
  · rw [if_neg h2]
    exact .ok _ _ ⟨rfl, h, hf⟩

theorem rel_passes {I : String → Prop} {inflate : Inflate} {s1 s2 : Nat → Block → Sched}
    (h1 : ∀ i b, (s1 i b).pooled.length < 2 ^ 63) (h2 : ∀ i b, (s2 i b).pooled.length < 2 ^ 63) (cuts : Nat → Option Nat)
    {ix : NodeIndex.NodeIdx} (wf : WellFormed ix.elements ix.locations) {inp out : String} {n : Nat} (hinp : I inp) :
    ∀ (left i : Nat) (C : String → Prop), i + (left + 1) = n → (0 < i → C (RelIndex.makePassFilename out i n)) →
    Rel (fun a b => Agree I C a b ∧ Fine inflate (Rewrite.passInput inp out n i) a)
      (Agree I (fun g => g = out ∨ (1 < n ∧ g = RelIndex.makePassFilename out (n - 1) n)))
      (Interrupt.rewritePasses inflate s1 cuts ix inp out n (left + 1) i)
      (Interrupt.rewritePasses inflate s2 cuts ix inp out n (left + 1) i) := by
  have hin : ∀ (C : String → Prop) i, (0 < i → C (RelIndex.makePassFilename out i n)) →
      I (Rewrite.passInput inp out n i) ∨ C (Rewrite.passInput inp out n i) := by
    intro C i h
    unfold Rewrite.passInput
    split
    · exact .inr (h (by omega))
    · exact .inl hinp
  intro left
  induction left with
  | zero =>
    intro i C hi hC
    unfold Interrupt.rewritePasses Interrupt.rewritePasses
    refine rel_bind (rel_removeOld out n i) fun _ => ?_
    intro f1 f2 h
    have hl : ∀ fs : FS, ∀ p : NodeIndex.SubIdx → Prog Unit, ((Prog.lift (ix.SubIndex (UInt64.ofNat i) (UInt64.ofNat n))) >>= p).exec fs =
        ix.SubIndex (UInt64.ofNat i) (UInt64.ofNat n) >>= fun si => (p si).exec fs := by
      intro fs p
      rw [Prog.exec_bind, Prog.exec_lift]
      cases ix.SubIndex (UInt64.ofNat i) (UInt64.ofNat n) <;> rfl
    rw [hl, hl]
    cases hsi : ix.SubIndex (UInt64.ofNat i) (UInt64.ofNat n) with
    | panic => exact .panic
    | hang => exact .hang
    | ok si =>
      rw [Res.ok_bind, Res.ok_bind]
      refine rel_bind (rel_pass (h1 i) (h2 i) (NodeIndex.subIndex_wf ix wf _ _ _ hsi).1 (cuts i) (hin _ i hC)) (fun _ => ?_) f1 f2 h
      refine rel_mono (rel_pure ()) (fun _ _ h => h) fun a b h => ⟨h.1.1, fun g hg => h.1.2 g ?_⟩
      have hout : Rewrite.passOutput out n i = out := by unfold Rewrite.passOutput; rw [if_neg (by omega)]
      rw [hout]
      rcases hg with rfl | ⟨hn, rfl⟩
      · exact .inl rfl
      · refine .inr ?_
        rw [show n - 1 = i by omega]
        exact hC (by omega)
  | succ left ih =>
    intro i C hi hC
    rw [Interrupt.rewritePasses.eq_def, Interrupt.rewritePasses.eq_def (scheds := s2)]
    dsimp only
    refine rel_bind (rel_removeOld out n i) fun _ => ?_
    intro f1 f2 h
    have hl : ∀ fs : FS, ∀ p : NodeIndex.SubIdx → Prog Unit, ((Prog.lift (ix.SubIndex (UInt64.ofNat i) (UInt64.ofNat n))) >>= p).exec fs =
        ix.SubIndex (UInt64.ofNat i) (UInt64.ofNat n) >>= fun si => (p si).exec fs := by
      intro fs p
      rw [Prog.exec_bind, Prog.exec_lift]
      cases ix.SubIndex (UInt64.ofNat i) (UInt64.ofNat n) <;> rfl
    rw [hl, hl]
    cases hsi : ix.SubIndex (UInt64.ofNat i) (UInt64.ofNat n) with
    | panic => exact .panic
    | hang => exact .hang
    | ok si =>
      rw [Res.ok_bind, Res.ok_bind]
      have hout : Rewrite.passOutput out n i = RelIndex.makePassFilename out (i + 1) n := by
        unfold Rewrite.passOutput; rw [if_pos (by omega)]
      have hnext : Rewrite.passInput inp out n (i + 1) = RelIndex.makePassFilename out (i + 1) n := by
        unfold Rewrite.passInput; rw [if_pos (by omega)]
      refine rel_bind (rel_pass (h1 i) (h2 i) (NodeIndex.subIndex_wf ix wf _ _ _ hsi).1 (cuts i) (hin _ i hC)) (fun _ => ?_) f1 f2 h
      refine rel_mono (ih (i + 1) (with' C (Rewrite.passOutput out n i)) (by omega) (fun _ => ?_)) (fun a b h => ?_) fun _ _ h => h
      · rw [hout]; exact .inl rfl
      · rw [hnext, ← hout]; exact h

theorem passCount_ne (ix : NodeIndex.NodeIdx) (memory : Option UInt64) (n : UInt64)
    (h : NodeIndex.passCount ix memory = .ok n) : n ≠ 0 := by
  unfold NodeIndex.passCount at h
  cases memory with
  | none => cases h; decide
  | some m =>
    dsimp only at h
    split at h
    · cases h
    · next hz =>
      cases h
      intro e
      have e' := congrArg UInt64.toNat e
      rw [UInt64.toNat_add, UInt64.toNat_div] at e'
      rw [show (0 : UInt64).toNat = 0 from rfl, show (1 : UInt64).toNat = 1 from rfl] at e'
      have h1 : (ix.LocationCount * 8).toNat = ix.LocationCount.toNat * 8 % 2 ^ 64 := by rw [UInt64.toNat_mul]; rfl
      have h2 := Nat.div_le_self (ix.LocationCount * 8).toNat (m * 1048576).toNat
      generalize (ix.LocationCount * 8).toNat / (m * 1048576).toNat = q at e' h2
      omega

theorem rel_removeLast {I C : String → Prop} (out : String) (n : Nat)
    (hC : 1 < n → C (RelIndex.makePassFilename out (n - 1) n)) (ho : C out) :
    Rel (Agree I C) (SameData out) (Rewrite.removeLast out n) (Rewrite.removeLast out n) := by
  unfold Rewrite.removeLast
  by_cases hn : n > 1
  · rw [if_pos hn]
    unfold OsRemove
    refine rel_bind (rel_open fun a b h => agree_data h (.inr (hC hn))) fun _ => ?_
    exact rel_mono (rel_remove _) (fun _ _ h => h) fun a b h => agree_data h (.inr (.inr ho))
  · rw [if_neg hn]
    exact rel_mono (rel_pure ()) (fun _ _ h => h) fun a b h => agree_data h (.inr ho)

end Osm.Repeat
