import Verif.Lemmas.Messages
import Verif.Spec.Messages

namespace Osm
open Osm.Spec Osm.Pb

/-- `Runs` observed through `q`. -/
def RunsQ {σ τ : Type} (q : σ → τ) (body : Slice → Int → σ → Res (σ × Int)) (chunk : List UInt8)
    (t t' : τ) : Prop :=
  ∀ (buf : Slice) (n : Nat) (rest : List UInt8), buf.Fits → buf.bytes.drop n = chunk ++ rest →
    ∀ fuel, chunk.length + rest.length < fuel → ∀ s, q s = t → ∃ fuel' s', rest.length < fuel' ∧
      q s' = t' ∧
      loopBytes buf (body buf) fuel n s = loopBytes buf (body buf) fuel' (n + chunk.length : Nat) s'

variable {σ τ : Type} {q : σ → τ} {body : Slice → Int → σ → Res (σ × Int)}

theorem runsQ_nil (t : τ) : RunsQ q body [] t t := by
  intro buf n rest _ _ fuel hf s hs
  exact ⟨fuel, s, by simpa using hf, hs, by simp⟩

theorem runsQ_append {c1 c2 : List UInt8} {s1 s2 s3 : τ} (h1 : RunsQ q body c1 s1 s2)
    (h2 : RunsQ q body c2 s2 s3) : RunsQ q body (c1 ++ c2) s1 s3 := by
  intro buf n rest hb hd fuel hf s hs
  obtain ⟨f1, s', hf1, hs1, e1⟩ := h1 buf n (c2 ++ rest) hb (by simpa using hd) fuel
    (by simp at hf ⊢; omega) s hs
  obtain ⟨f2, s'', hf2, hs2, e2⟩ := h2 buf (n + c1.length) rest hb
    (by rw [← List.drop_drop, hd]; simp) f1 (by simpa using hf1) s' hs1
  exact ⟨f2, s'', hf2, hs2, by rw [e1, e2]; simp [Nat.add_assoc]⟩

theorem runsQ_step {chunk : List UInt8} {t t' : τ} (hne : chunk ≠ [])
    (h : ∀ (buf : Slice) (n : Nat) (rest : List UInt8), buf.Fits →
      buf.bytes.drop n = chunk ++ rest → ∀ s, q s = t →
      ∃ s', q s' = t' ∧ body buf n s = .ok (s', (n + chunk.length : Nat))) :
    RunsQ q body chunk t t' := by
  intro buf n rest hb hd fuel hf s hs
  have hl : 1 ≤ chunk.length := List.length_pos_iff.2 hne
  have hlen : (buf.bytes.drop n).length = chunk.length + rest.length := by rw [hd]; simp
  have hn : n < buf.bytes.length := by simp at hlen; omega
  obtain ⟨f, rfl⟩ : ∃ f, fuel = f + 1 := ⟨fuel - 1, by omega⟩
  obtain ⟨s', hs', he⟩ := h buf n rest hb hd s hs
  refine ⟨f, s', by omega, hs', ?_⟩
  conv => lhs; unfold loopBytes
  rw [if_pos (by unfold Slice.len; omega), he]
  rfl

theorem forNext_of_runsQ {buf : Slice} {s : σ} {t' : τ} (hb : buf.Fits)
    (h : RunsQ q body buf.bytes (q s) t') : ∃ s', q s' = t' ∧ forNext buf (body buf) s = .ok s' := by
  obtain ⟨f, s', hf, hs', e⟩ := h buf 0 [] hb (by simp) (buf.bytes.length + 1) (by simp) s rfl
  refine ⟨s', hs', ?_⟩
  unfold forNext
  rw [show ((0 : Int)) = ((0 : Nat) : Int) from rfl, e]
  exact loopBytes_end _ _ _ _ _ (by simpa using hf) (by simp)

end Osm

namespace Osm.T
open Osm Osm.Spec Osm.Pb

section
variable {σ τ : Type} {q : σ → τ} {body : Slice → Int → σ → Res (σ × Int)} {t t' : τ}

/-- `TakesSection` observed through `q`. -/
def TakesSectionQ (q : σ → τ) (body : Slice → Int → σ → Res (σ × Int)) (id : UInt64)
    (p : List UInt8) (t t' : τ) : Prop :=
  ∀ (buf : Slice) (n m : Nat) (enc rest : List UInt8),
    DecodeVarInt buf n = .ok (MakeIdType id PbFixedBytes, (m : Int)) → Section buf m enc p rest →
    ∀ s, q s = t → ∃ s', q s' = t' ∧ body buf n s = .ok (s', (m + (enc ++ p).length : Nat))

theorem runsQ_fixField {fix : Nat → List UInt8} {limit : Nat}
    (hvar : ∀ n, n < limit → IsVarint (fix n) n) (hshort : ∀ n, (fix n).length ≤ 10)
    {id : UInt64} {p : List UInt8} (hp : p.length < limit) (h : TakesSectionQ q body id p t t') :
    RunsQ q body (tagBytes id PbFixedBytes ++ fix p.length ++ p) t t' := by
  apply runsQ_step (by simp [tagBytes_ne_nil])
  intro buf n rest hb hd s hs
  obtain ⟨s', hs', he⟩ := h buf n _ (fix p.length) rest
    (decode_tag (rest := fix p.length ++ p ++ rest) (by simpa using hd))
    (section_fix hvar hshort hb hp hd) s hs
  refine ⟨s', hs', ?_⟩
  rw [he]
  simp [Nat.add_assoc]

theorem runsQ_fix2 {id : UInt64} {p : List UInt8} (hp : p.length < 16384)
    (h : TakesSectionQ q body id p t t') :
    RunsQ q body (tagBytes id PbFixedBytes ++ fix2 p.length ++ p) t t' :=
  runsQ_fixField (fun _ => isVarint_fix2) fix2_short hp h

theorem runsQ_fix3 {id : UInt64} {p : List UInt8} (hp : p.length < 2097152)
    (h : TakesSectionQ q body id p t t') :
    RunsQ q body (tagBytes id PbFixedBytes ++ fix3 p.length ++ p) t t' :=
  runsQ_fixField (fun _ => isVarint_fix3) fix3_short hp h

theorem runsQ_fix4 {id : UInt64} {p : List UInt8} (hp : p.length < 268435456)
    (h : TakesSectionQ q body id p t t') :
    RunsQ q body (tagBytes id PbFixedBytes ++ fix4 p.length ++ p) t t' :=
  runsQ_fixField (fun _ => isVarint_fix4) fix4_short hp h

theorem runsQ_bufField {id : UInt64} {p : List UInt8} (h : TakesSectionQ q body id p t t') :
    RunsQ q body (bufField id p) t t' := by
  apply runsQ_step (by simp [bufField, tagBytes_ne_nil])
  intro buf n rest hb hd s hs
  obtain ⟨hsec, he⟩ := section_buf hb hd
  rw [he] at hd ⊢
  obtain ⟨s', hs', heq⟩ := h buf n _ _ rest
    (decode_tag (rest := leb128 p.length ++ p ++ rest) (by simpa using hd)) hsec s hs
  refine ⟨s', hs', ?_⟩
  rw [heq]
  simp [Nat.add_assoc]

theorem runsQ_varField {id v : UInt64}
    (h : ∀ (buf : Slice) (n m : Nat) (rest : List UInt8),
      DecodeVarInt buf n = .ok (MakeIdType id PbVarInt, (m : Int)) →
      buf.bytes.drop m = leb128 v.toNat ++ rest →
      ∀ s, q s = t → ∃ s', q s' = t' ∧ body buf n s = .ok (s', (m + (leb128 v.toNat).length : Nat))) :
    RunsQ q body (varField id v) t t' := by
  apply runsQ_step (by simp [varField, tagBytes_ne_nil])
  intro buf n rest hb hd s hs
  unfold varField at hd
  have hd' : buf.bytes.drop n = tagBytes id PbVarInt ++ (leb128 v.toNat ++ rest) := by simpa using hd
  obtain ⟨s', hs', he⟩ := h buf n _ rest (decode_tag hd') (drop_tag hd') s hs
  refine ⟨s', hs', ?_⟩
  rw [he]
  simp [varField, Nat.add_assoc]

theorem runsQ_flatMap {α : Type} (f : α → List UInt8) (g : τ → α → τ) (xs : List α)
    (h : ∀ t, ∀ x ∈ xs, RunsQ q body (f x) t (g t x)) (t : τ) :
    RunsQ q body (xs.flatMap f) t (xs.foldl g t) := by
  induction xs generalizing t with
  | nil => exact runsQ_nil _
  | cons x xs ih =>
    rw [List.flatMap_cons, List.foldl_cons]
    exact runsQ_append (h t x (by simp)) (ih (fun s y hy => h s y (by simp [hy])) _)

theorem runsQ_optConcat {α : Type} (f : α → Option (List UInt8)) (g : τ → α → τ) (xs : List α)
    (h : ∀ s, ∀ x ∈ xs, ∀ p, f x = some p → RunsQ q body p s (g s x)) (s : τ) (p : List UInt8)
    (hp : optConcat f xs = some p) : RunsQ q body p s (xs.foldl g s) := by
  induction xs generalizing s p with
  | nil => simp [optConcat] at hp; subst hp; exact runsQ_nil _
  | cons x xs ih =>
    simp only [optConcat, optApp_eq_some] at hp
    obtain ⟨p1, p2, h1, h2, rfl⟩ := hp
    rw [List.foldl_cons]
    exact runsQ_append (h s x (by simp) p1 h1)
      (ih (fun s y hy => h s y (by simp [hy])) _ _ h2)

end

/-! ### Groups -/

/-- The bytes of a group message. -/
def groupBytes (g : PrimitiveGroup) : Option (List UInt8) :=
  optApp (match g.Dense, g.RawDense with
      | some dn, _ => optField fix4 268435456 2 (denseBytes dn)
      | none, some raw => some (bufField 2 raw.bytes)
      | none, none => some [])
    (optApp (if g.Ways ≠ [] then optConcat (fun w => optField fix2 16384 3 (wayBytes w)) g.Ways
        else some (g.RawWays.flatMap fun w => bufField 3 w.bytes))
      (if g.Relations ≠ [] then
          optConcat (fun r => optField fix3 2097152 4 (relationBytes r)) g.Relations
        else some (g.RawRelations.flatMap fun r => bufField 4 r.bytes)))

theorem group_embSpec (g : PrimitiveGroup) : EmbSpec g.Write (groupBytes g) := by
  have h1 : EmbSpec g.writeDense (match g.Dense, g.RawDense with
      | some dn, _ => optField fix4 268435456 2 (denseBytes dn)
      | none, some raw => some (bufField 2 raw.bytes)
      | none, none => some []) := by
    intro b
    unfold PrimitiveGroup.writeDense
    cases g.Dense with
    | some dn => exact embSpec_embed268435456 (dense_embSpec dn) 2 b
    | none => cases g.RawDense with
      | some raw => simp [appendRes, encodeIdBuffer_eq]
      | none => simp [appendRes]
  have h2 : EmbSpec g.writeWays
      (if g.Ways ≠ [] then optConcat (fun w => optField fix2 16384 3 (wayBytes w)) g.Ways
        else some (g.RawWays.flatMap fun w => bufField 3 w.bytes)) := by
    intro b
    unfold PrimitiveGroup.writeWays
    split
    · exact embSpec_foldRes (e := fun w => Embed16384 3 (Way.Write w)) g.Ways
        (fun w _ => embSpec_embed16384 (way_embSpec w) 3) b
    · rw [foldl_encodeIdBuffer (fun w : Slice => w.bytes)]; rfl
  have h3 : EmbSpec g.writeRelations
      (if g.Relations ≠ [] then
          optConcat (fun r => optField fix3 2097152 4 (relationBytes r)) g.Relations
        else some (g.RawRelations.flatMap fun r => bufField 4 r.bytes)) := by
    intro b
    unfold PrimitiveGroup.writeRelations
    split
    · exact embSpec_foldRes (e := fun r => Embed2097152 4 (Relation.Write r)) g.Relations
        (fun r _ => embSpec_embed2097152 (relation_embSpec r) 4) b
    · rw [foldl_encodeIdBuffer (fun w : Slice => w.bytes)]; rfl
  have := embSpec_bind h1 (embSpec_bind h2 h3)
  intro b
  exact this b

variable (o : PBReader)

theorem group_takes_rawDense (ho : o.SkipDenseNodes = true) (t : PrimitiveGroup) (p : List UInt8) :
    TakesSectionQ trimGroup (groupBody o) 2 p t { t with RawDense := some ⟨p, []⟩ } := by
  intro buf n m enc rest hd hs s hst
  refine ⟨{ s with RawDense := some ⟨p, rest ++ buf.spare⟩ }, by subst hst; rfl, ?_⟩
  unfold groupBody DecodeBytes
  rw [hd]
  simp only [Res.ok_bind]
  rw [if_neg (by decide), if_pos (by trivial), if_pos ho, hs.read]; rfl

theorem group_takes_dense (ho : o.SkipDenseNodes = false) (t : PrimitiveGroup) (dn : DenseNodes)
    (p : List UInt8) (hp : denseBytes dn = some p) :
    TakesSectionQ trimGroup (groupBody o) 2 p t { t with Dense := some dn } := by
  intro buf n m enc rest hd hs s hst
  refine ⟨{ s with Dense := some dn }, by subst hst; rfl, ?_⟩
  unfold groupBody DecodeBytes
  rw [hd]
  simp only [Res.ok_bind]
  rw [if_neg (by decide), if_pos (by trivial), if_neg (by simp [ho]), hs.read]
  simp only [Res.ok_bind]
  rw [dense_read dn p hp _ hs.innerFits]; rfl

theorem group_takes_rawWay (ho : o.SkipWays = true) (t : PrimitiveGroup) (p : List UInt8) :
    TakesSectionQ trimGroup (groupBody o) 3 p t { t with RawWays := t.RawWays ++ [⟨p, []⟩] } := by
  intro buf n m enc rest hd hs s hst
  refine ⟨{ s with RawWays := s.RawWays ++ [⟨p, rest ++ buf.spare⟩] }, by
    subst hst; simp [trimGroup, trimSlice], ?_⟩
  unfold groupBody DecodeBytes
  rw [hd]
  simp only [Res.ok_bind]
  rw [if_neg (by decide), if_neg (by decide), if_pos (by trivial), if_pos ho, hs.read]; rfl

theorem group_takes_way (ho : o.SkipWays = false) (t : PrimitiveGroup) (w : Way) (p : List UInt8)
    (hp : wayBytes w = some p) :
    TakesSectionQ trimGroup (groupBody o) 3 p t { t with Ways := t.Ways ++ [w] } := by
  intro buf n m enc rest hd hs s hst
  refine ⟨{ s with Ways := s.Ways ++ [w] }, by subst hst; rfl, ?_⟩
  unfold groupBody DecodeBytes
  rw [hd]
  simp only [Res.ok_bind]
  rw [if_neg (by decide), if_neg (by decide), if_pos (by trivial), if_neg (by simp [ho]), hs.read]
  simp only [Res.ok_bind]
  rw [way_read w p hp _ hs.innerFits]; rfl

theorem group_takes_rawRelation (ho : o.SkipRelations = true) (t : PrimitiveGroup) (p : List UInt8) :
    TakesSectionQ trimGroup (groupBody o) 4 p t
      { t with RawRelations := t.RawRelations ++ [⟨p, []⟩] } := by
  intro buf n m enc rest hd hs s hst
  refine ⟨{ s with RawRelations := s.RawRelations ++ [⟨p, rest ++ buf.spare⟩] }, by
    subst hst; simp [trimGroup, trimSlice], ?_⟩
  unfold groupBody DecodeBytes
  rw [hd]
  simp only [Res.ok_bind]
  rw [if_neg (by decide), if_neg (by decide), if_neg (by decide), if_pos (by trivial), if_pos ho,
    hs.read]; rfl

theorem group_takes_relation (ho : o.SkipRelations = false) (t : PrimitiveGroup) (r : Relation)
    (p : List UInt8) (hp : relationBytes r = some p) :
    TakesSectionQ trimGroup (groupBody o) 4 p t { t with Relations := t.Relations ++ [r] } := by
  intro buf n m enc rest hd hs s hst
  refine ⟨{ s with Relations := s.Relations ++ [r] }, by subst hst; rfl, ?_⟩
  unfold groupBody DecodeBytes
  rw [hd]
  simp only [Res.ok_bind]
  rw [if_neg (by decide), if_neg (by decide), if_neg (by decide), if_pos (by trivial),
    if_neg (by simp [ho]), hs.read]
  simp only [Res.ok_bind]
  rw [relation_read r p hp _ hs.innerFits]; rfl

theorem foldl_ways (ws : List Way) (t : PrimitiveGroup) :
    ws.foldl (fun (t : PrimitiveGroup) w => { t with Ways := t.Ways ++ [w] }) t
      = { t with Ways := t.Ways ++ ws } := by
  induction ws generalizing t with
  | nil => simp
  | cons w ws ih => simp [ih]

theorem foldl_rawWays (ws : List Slice) (t : PrimitiveGroup) :
    ws.foldl (fun (t : PrimitiveGroup) w => { t with RawWays := t.RawWays ++ [⟨w.bytes, []⟩] }) t
      = { t with RawWays := t.RawWays ++ ws.map trimSlice } := by
  induction ws generalizing t with
  | nil => simp
  | cons w ws ih => simp [ih, trimSlice]

theorem foldl_relations (ws : List Relation) (t : PrimitiveGroup) :
    ws.foldl (fun (t : PrimitiveGroup) w => { t with Relations := t.Relations ++ [w] }) t
      = { t with Relations := t.Relations ++ ws } := by
  induction ws generalizing t with
  | nil => simp
  | cons w ws ih => simp [ih]

theorem foldl_rawRelations (ws : List Slice) (t : PrimitiveGroup) :
    ws.foldl (fun (t : PrimitiveGroup) w =>
      { t with RawRelations := t.RawRelations ++ [⟨w.bytes, []⟩] }) t
      = { t with RawRelations := t.RawRelations ++ ws.map trimSlice } := by
  induction ws generalizing t with
  | nil => simp
  | cons w ws ih => simp [ih, trimSlice]

theorem group_runs_dense {g : PrimitiveGroup} (hg : GroupShape o g) {p : List UInt8}
    (hp : (match g.Dense, g.RawDense with
      | some dn, _ => optField fix4 268435456 2 (denseBytes dn)
      | none, some raw => some (bufField 2 raw.bytes)
      | none, none => some []) = some p) :
    RunsQ trimGroup (groupBody o) p PrimitiveGroup.zero
      { PrimitiveGroup.zero with Dense := g.Dense, RawDense := g.RawDense.map trimSlice } := by
  obtain ⟨hd, -, -⟩ := hg
  cases ho : o.SkipDenseNodes with
  | true =>
    simp only [ho, if_true] at hd
    rw [hd] at hp ⊢
    cases hr : g.RawDense with
    | none =>
      rw [hr] at hp; simp at hp; subst hp; exact runsQ_nil _
    | some raw =>
      rw [hr] at hp; simp at hp; subst hp
      exact runsQ_bufField (group_takes_rawDense o ho _ _)
  | false =>
    simp [ho] at hd
    rw [hd] at hp ⊢
    cases hr : g.Dense with
    | none =>
      rw [hr] at hp; simp at hp; subst hp; exact runsQ_nil _
    | some dn =>
      rw [hr] at hp
      simp only [optField_eq_some] at hp
      obtain ⟨q, hq, hl, rfl⟩ := hp
      exact runsQ_fix4 hl (group_takes_dense o ho _ dn q hq)

theorem group_runs_ways {g : PrimitiveGroup} (hg : GroupShape o g) {p : List UInt8}
    (hp : (if g.Ways ≠ [] then optConcat (fun w => optField fix2 16384 3 (wayBytes w)) g.Ways
        else some (g.RawWays.flatMap fun w => bufField 3 w.bytes)) = some p) (t : PrimitiveGroup) :
    RunsQ trimGroup (groupBody o) p t
      { t with Ways := t.Ways ++ g.Ways, RawWays := t.RawWays ++ g.RawWays.map trimSlice } := by
  obtain ⟨-, hw, -⟩ := hg
  cases ho : o.SkipWays with
  | true =>
    simp only [ho, if_true] at hw
    rw [hw] at hp ⊢
    simp at hp; subst hp
    have := runsQ_flatMap (q := trimGroup) (body := groupBody o) (fun w : Slice => bufField 3 w.bytes)
      (fun t w => { t with RawWays := t.RawWays ++ [⟨w.bytes, []⟩] }) g.RawWays
      (fun t w _ => runsQ_bufField (group_takes_rawWay o ho t _)) t
    rw [foldl_rawWays] at this
    simpa using this
  | false =>
    simp [ho] at hw
    rw [hw] at hp ⊢
    split at hp
    · have := runsQ_optConcat (q := trimGroup) (body := groupBody o)
        (fun w => optField fix2 16384 3 (wayBytes w))
        (fun t w => { t with Ways := t.Ways ++ [w] }) g.Ways (by
          intro s w _ p hp
          simp only [optField_eq_some] at hp
          obtain ⟨q, hq, hl, rfl⟩ := hp
          exact runsQ_fix2 hl (group_takes_way o ho s w q hq)) t p hp
      rw [foldl_ways] at this
      simpa using this
    · next h =>
      simp at h hp
      subst hp
      rw [h]
      simpa using runsQ_nil _

theorem group_runs_relations {g : PrimitiveGroup} (hg : GroupShape o g) {p : List UInt8}
    (hp : (if g.Relations ≠ [] then
          optConcat (fun r => optField fix3 2097152 4 (relationBytes r)) g.Relations
        else some (g.RawRelations.flatMap fun r => bufField 4 r.bytes)) = some p)
    (t : PrimitiveGroup) :
    RunsQ trimGroup (groupBody o) p t
      { t with Relations := t.Relations ++ g.Relations,
               RawRelations := t.RawRelations ++ g.RawRelations.map trimSlice } := by
  obtain ⟨-, -, hw⟩ := hg
  cases ho : o.SkipRelations with
  | true =>
    simp only [ho, if_true] at hw
    rw [hw] at hp ⊢
    simp at hp; subst hp
    have := runsQ_flatMap (q := trimGroup) (body := groupBody o) (fun w : Slice => bufField 4 w.bytes)
      (fun t w => { t with RawRelations := t.RawRelations ++ [⟨w.bytes, []⟩] }) g.RawRelations
      (fun t w _ => runsQ_bufField (group_takes_rawRelation o ho t _)) t
    rw [foldl_rawRelations] at this
    simpa using this
  | false =>
    simp [ho] at hw
    rw [hw] at hp ⊢
    split at hp
    · have := runsQ_optConcat (q := trimGroup) (body := groupBody o)
        (fun w => optField fix3 2097152 4 (relationBytes w))
        (fun t w => { t with Relations := t.Relations ++ [w] }) g.Relations (by
          intro s w _ p hp
          simp only [optField_eq_some] at hp
          obtain ⟨q, hq, hl, rfl⟩ := hp
          exact runsQ_fix3 hl (group_takes_relation o ho s w q hq)) t p hp
      rw [foldl_relations] at this
      simpa using this
    · next h =>
      simp at h hp
      subst hp
      rw [h]
      simpa using runsQ_nil _

theorem group_read (g : PrimitiveGroup) (hg : GroupShape o g) (p : List UInt8)
    (hp : groupBytes g = some p) (sp : List UInt8) (hf : (Slice.mk p sp).Fits) :
    ∃ g', trimGroup g' = trimGroup g ∧ ReadPrimitiveGroup o ⟨p, sp⟩ = .ok g' := by
  simp only [groupBytes, optApp_eq_some] at hp
  obtain ⟨p1, _, h1, ⟨p2, p3, h2, h3, rfl⟩, rfl⟩ := hp
  have := runsQ_append (group_runs_dense o hg h1)
    (runsQ_append (group_runs_ways o hg h2 _) (group_runs_relations o hg h3 _))
  obtain ⟨g', hg', he⟩ := forNext_of_runsQ (s := PrimitiveGroup.zero) (buf := ⟨_, sp⟩) hf this
  refine ⟨g', ?_, he⟩
  rw [hg']
  simp [PrimitiveGroup.zero, trimGroup]

/-! ### Blocks -/

/-- The trailing varint fields of a block. -/
def blockTail (b : PrimitiveBlock) : List UInt8 :=
  (if b.Granularity ≠ 100 then varField 17 b.Granularity.toInt64.toUInt64 else []) ++
  ((if b.DateGranularity ≠ 1000 then varField 18 b.DateGranularity.toInt64.toUInt64 else []) ++
  ((if b.LatOffset ≠ 0 then varField 19 b.LatOffset.toUInt64 else []) ++
  (if b.LonOffset ≠ 0 then varField 20 b.LonOffset.toUInt64 else [])))

/-- The bytes of a block message. -/
def blockBytes (b : PrimitiveBlock) : Option (List UInt8) :=
  optApp (match b.StringTable, b.StringTableRaw with
      | some st, _ => optField fix4 268435456 1 (some (stringTableBytes st))
      | none, some raw => some (bufField 1 raw.bytes)
      | none, none => some [])
    (optApp (optConcat (fun g => optField fix4 268435456 2 (groupBytes g)) b.PrimitiveGroup)
      (some (blockTail b)))

theorem block_embSpec (b : PrimitiveBlock) : EmbSpec b.Write (blockBytes b) := by
  have h1 : EmbSpec b.writeStringTable (match b.StringTable, b.StringTableRaw with
      | some st, _ => optField fix4 268435456 1 (some (stringTableBytes st))
      | none, some raw => some (bufField 1 raw.bytes)
      | none, none => some []) := by
    intro buf
    unfold PrimitiveBlock.writeStringTable
    cases b.StringTable with
    | some st => exact embSpec_embed268435456 (stringTable_embSpec st) 1 buf
    | none => cases b.StringTableRaw with
      | some raw => simp [appendRes, encodeIdBuffer_eq]
      | none => simp [appendRes]
  have h2 := embSpec_foldRes (e := fun g => Embed268435456 2 (PrimitiveGroup.Write g))
    b.PrimitiveGroup (fun g _ => embSpec_embed268435456 (group_embSpec g) 2)
  have h3 : EmbSpec (fun buf => .ok (b.writeTail buf)) (some (blockTail b)) := by
    intro buf
    have e : ∀ (c : Prop) [Decidable c] (buf : List UInt8) (id v : UInt64),
        (if c then EncodeIdVarInt buf id v else buf) = buf ++ (if c then varField id v else []) := by
      intro c _ buf id v
      split <;> simp [encodeIdVarInt_eq]
    simp only [PrimitiveBlock.writeTail, e, appendRes, blockTail, List.append_assoc]
  have := embSpec_bind h1 (embSpec_bind h2 h3)
  intro b
  exact this b

theorem block_takes_rawST (ho : o.SkipStringTable = true) (t : PrimitiveBlock) (p : List UInt8) :
    TakesSectionQ trimBlock (blockBody o) 1 p t { t with StringTableRaw := some ⟨p, []⟩ } := by
  intro buf n m enc rest hd hs s hst
  refine ⟨{ s with StringTableRaw := some ⟨p, rest ++ buf.spare⟩ }, by subst hst; rfl, ?_⟩
  unfold blockBody DecodeBytes
  rw [hd]
  simp only [Res.ok_bind]
  rw [if_pos (by trivial), if_pos ho, hs.read]; rfl

theorem block_takes_ST (ho : o.SkipStringTable = false) (t : PrimitiveBlock) (st : StringTable) :
    TakesSectionQ trimBlock (blockBody o) 1 (stringTableBytes st) t
      { t with StringTable := some st } := by
  intro buf n m enc rest hd hs s hst
  refine ⟨{ s with StringTable := some st }, by subst hst; rfl, ?_⟩
  unfold blockBody DecodeBytes
  rw [hd]
  simp only [Res.ok_bind]
  rw [if_pos (by trivial), if_neg (by simp [ho]), hs.read]
  simp only [Res.ok_bind]
  rw [stringTable_read st _ hs.innerFits]; rfl

theorem block_takes_group (t : PrimitiveBlock) (g : PrimitiveGroup) (hg : GroupShape o g)
    (p : List UInt8) (hp : groupBytes g = some p) :
    TakesSectionQ trimBlock (blockBody o) 2 p t
      { t with PrimitiveGroup := t.PrimitiveGroup ++ [trimGroup g] } := by
  intro buf n m enc rest hd hs s hst
  obtain ⟨g', hg', he⟩ := group_read o g hg p hp _ hs.innerFits
  refine ⟨{ s with PrimitiveGroup := s.PrimitiveGroup ++ [g'] }, by
    subst hst; simp [trimBlock, hg'], ?_⟩
  unfold blockBody DecodeBytes
  rw [hd]
  simp only [Res.ok_bind]
  rw [if_neg (by decide), if_pos (by trivial), hs.read]
  simp only [Res.ok_bind]
  rw [he]; rfl

theorem block_runs_gran (t : PrimitiveBlock) (v : Int32) :
    RunsQ trimBlock (blockBody o) (varField 17 v.toInt64.toUInt64) t { t with Granularity := v } := by
  apply runsQ_varField
  intro buf n m rest hd hv s hst
  refine ⟨{ s with Granularity := v }, by subst hst; rfl, ?_⟩
  unfold blockBody
  rw [hd]
  simp only [Res.ok_bind]
  rw [if_neg (by decide), if_neg (by decide), if_pos (by trivial), decodeI32_at hv]; rfl

theorem block_runs_dateGran (t : PrimitiveBlock) (v : Int32) :
    RunsQ trimBlock (blockBody o) (varField 18 v.toInt64.toUInt64) t
      { t with DateGranularity := v } := by
  apply runsQ_varField
  intro buf n m rest hd hv s hst
  refine ⟨{ s with DateGranularity := v }, by subst hst; rfl, ?_⟩
  unfold blockBody
  rw [hd]
  simp only [Res.ok_bind]
  rw [if_neg (by decide), if_neg (by decide), if_neg (by decide), if_pos (by trivial),
    decodeI32_at hv]; rfl

theorem block_runs_lat (t : PrimitiveBlock) (v : Int64) :
    RunsQ trimBlock (blockBody o) (varField 19 v.toUInt64) t { t with LatOffset := v } := by
  apply runsQ_varField
  intro buf n m rest hd hv s hst
  refine ⟨{ s with LatOffset := v }, by subst hst; rfl, ?_⟩
  unfold blockBody
  rw [hd]
  simp only [Res.ok_bind]
  rw [if_neg (by decide), if_neg (by decide), if_neg (by decide), if_neg (by decide),
    if_pos (by trivial), decodeI64_at hv]; rfl

theorem block_runs_lon (t : PrimitiveBlock) (v : Int64) :
    RunsQ trimBlock (blockBody o) (varField 20 v.toUInt64) t { t with LonOffset := v } := by
  apply runsQ_varField
  intro buf n m rest hd hv s hst
  refine ⟨{ s with LonOffset := v }, by subst hst; rfl, ?_⟩
  unfold blockBody
  rw [hd]
  simp only [Res.ok_bind]
  rw [if_neg (by decide), if_neg (by decide), if_neg (by decide), if_neg (by decide),
    if_neg (by decide), if_pos (by trivial), decodeI64_at hv]; rfl

theorem block_runs_tail (t b : PrimitiveBlock) (h1 : t.Granularity = 100)
    (h2 : t.DateGranularity = 1000) (h3 : t.LatOffset = 0) (h4 : t.LonOffset = 0) :
    RunsQ trimBlock (blockBody o) (blockTail b) t
      { t with Granularity := b.Granularity, DateGranularity := b.DateGranularity,
               LatOffset := b.LatOffset, LonOffset := b.LonOffset } := by
  unfold blockTail
  refine runsQ_append (s2 := { t with Granularity := b.Granularity }) ?_ ?_
  · split
    · exact block_runs_gran o _ _
    · next h =>
      simp at h
      rw [h, ← h1]; exact runsQ_nil _
  refine runsQ_append
    (s2 := { t with Granularity := b.Granularity, DateGranularity := b.DateGranularity }) ?_ ?_
  · split
    · exact block_runs_dateGran o _ _
    · next h =>
      simp at h
      rw [h, ← h2]; exact runsQ_nil _
  refine runsQ_append (s2 := { t with
    Granularity := b.Granularity, DateGranularity := b.DateGranularity,
    LatOffset := b.LatOffset }) ?_ ?_
  · split
    · exact block_runs_lat o _ _
    · next h =>
      simp at h
      rw [h, ← h3]; exact runsQ_nil _
  · split
    · exact block_runs_lon o _ _
    · next h =>
      simp at h
      rw [h, ← h4]; exact runsQ_nil _

theorem foldl_groups (gs : List PrimitiveGroup) (t : PrimitiveBlock) :
    gs.foldl (fun (t : PrimitiveBlock) g =>
      { t with PrimitiveGroup := t.PrimitiveGroup ++ [trimGroup g] }) t
      = { t with PrimitiveGroup := t.PrimitiveGroup ++ gs.map trimGroup } := by
  induction gs generalizing t with
  | nil => simp
  | cons w ws ih => simp [ih]

theorem block_read (b : PrimitiveBlock) (hb : BlockShape o b) (p : List UInt8)
    (hp : blockBytes b = some p) (sp : List UInt8) (hf : (Slice.mk p sp).Fits) :
    ∃ b', trimBlock b' = trimBlock b ∧ ReadPrimitiveBlock o ⟨p, sp⟩ = .ok b' := by
  simp only [blockBytes, optApp_eq_some] at hp
  obtain ⟨p1, _, h1, ⟨p2, p3, h2, h3, rfl⟩, rfl⟩ := hp
  simp only [Option.some.injEq] at h3
  subst h3
  obtain ⟨hst, hgs⟩ := hb
  have r1 : RunsQ trimBlock (blockBody o) p1 PrimitiveBlock.fresh
      { PrimitiveBlock.fresh with
        StringTable := b.StringTable, StringTableRaw := b.StringTableRaw.map trimSlice } := by
    cases ho : o.SkipStringTable with
    | true =>
      simp only [ho, if_true] at hst
      rw [hst] at h1 ⊢
      cases hr : b.StringTableRaw with
      | none => rw [hr] at h1; simp at h1; subst h1; exact runsQ_nil _
      | some raw =>
        rw [hr] at h1; simp at h1; subst h1
        exact runsQ_bufField (block_takes_rawST o ho _ _)
    | false =>
      simp [ho] at hst
      rw [hst] at h1 ⊢
      cases hr : b.StringTable with
      | none => rw [hr] at h1; simp at h1; subst h1; exact runsQ_nil _
      | some st =>
        rw [hr] at h1
        simp only [optField_eq_some, Option.some.injEq] at h1
        obtain ⟨q, rfl, hl, rfl⟩ := h1
        exact runsQ_fix4 hl (block_takes_ST o ho _ st)
  have r2 := runsQ_optConcat (q := trimBlock) (body := blockBody o)
    (fun g => optField fix4 268435456 2 (groupBytes g))
    (fun t g => { t with PrimitiveGroup := t.PrimitiveGroup ++ [trimGroup g] }) b.PrimitiveGroup (by
      intro s g hg p hp
      simp only [optField_eq_some] at hp
      obtain ⟨q, hq, hl, rfl⟩ := hp
      exact runsQ_fix4 hl (block_takes_group o s g (hgs g hg) q hq))
    { PrimitiveBlock.fresh with
      StringTable := b.StringTable, StringTableRaw := b.StringTableRaw.map trimSlice } p2 h2
  rw [foldl_groups] at r2
  have r := runsQ_append r1 (runsQ_append r2 (block_runs_tail o _ b rfl rfl rfl rfl))
  obtain ⟨b', hb', he⟩ := forNext_of_runsQ (s := PrimitiveBlock.fresh) (buf := ⟨_, sp⟩) hf r
  refine ⟨b', ?_, he⟩
  rw [hb']
  simp [PrimitiveBlock.fresh, trimBlock]

end Osm.T
