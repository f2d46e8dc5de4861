import Verif.Props.Format
import Verif.Props.Count
import Verif.Props.Find
import Verif.Props.Pbf

/-!
# C61, C65: counting and searching in files in the format
-/

namespace Osm.Props
open Osm Osm.T Osm.Pbf Osm.Spec Osm.Spec.OsmFormat Osm.Count

theorem shows_entities {g c : T.PrimitiveGroup} (h : ShowsGroup entitiesDecoded g c) : g = c := by
  obtain ⟨h1, h2, h3, h4, h5, h6⟩ := h
  have h1 : g.RawDense = none ∧ g.Dense = c.Dense := h1
  have h2 : g.RawWays = [] ∧ g.Ways = c.Ways := h2
  have h3 : g.RawRelations = [] ∧ g.Relations = c.Relations := h3
  cases g; cases c
  simp_all

theorem content_entities {inflate : Inflate} {b : Block} {c : Content} (hl : b.Data.bytes.length < 2 ^ 63)
    (h : IsContent inflate (Seen b) c) :
    ∃ c', HasContent inflate entitiesDecoded b.Kind b.Data.bytes c' ∧ fileGroups [c'] = fileGroups [c] := by
  obtain ⟨i, ⟨bytes, spare⟩, kind⟩ := b
  unfold Seen at h
  dsimp only at h hl
  cases h with
  | header bs => exact ⟨.other osmHeader bytes, ⟨rfl, rfl, Format.header_not_data⟩, rfl⟩
  | data bs p full hp hb =>
    obtain ⟨blob, h1, h2, h3⟩ := Format.isPayload_read hp hl
    obtain ⟨part, h4, h5, _⟩ := Format.read_block entitiesDecoded hb [] (Format.fits_alone h3)
    refine ⟨.data (trimBlock part), ⟨rfl, reads_of_bare h1 h2 h4⟩, ?_⟩
    have e : part.PrimitiveGroup = full.PrimitiveGroup := by
      have := h5.groups
      generalize part.PrimitiveGroup = gs, full.PrimitiveGroup = gs' at this
      induction this with
      | nil => rfl
      | cons a _ ih => rw [shows_entities a, ih]
    have ht : (trimBlock part).PrimitiveGroup = part.PrimitiveGroup := by
      show part.PrimitiveGroup.map trimGroup = _
      have := h5.groups
      generalize part.PrimitiveGroup = gs, full.PrimitiveGroup = gs' at this
      induction this with
      | nil => rfl
      | @cons g c gs cs a _ ih =>
        rw [List.map_cons, ih]
        congr 1
        have h1 : g.RawDense = none ∧ g.Dense = c.Dense := a.dense
        have h2 : g.RawWays = [] ∧ g.Ways = c.Ways := a.ways
        have h3 : g.RawRelations = [] ∧ g.Relations = c.Relations := a.relations
        unfold trimGroup
        rw [h1.1, h2.1, h3.1]
        cases g
        simp_all
    show (trimBlock part).PrimitiveGroup ++ [] = full.PrimitiveGroup ++ []
    rw [ht, e]

theorem contents_entities {inflate : Inflate} : ∀ {bs : List Block} {cs : List Content}, (∀ b ∈ bs, b.Data.bytes.length < 2 ^ 63) →
    Matches (fun b c => IsContent inflate (Seen b) c) bs cs →
    ∃ cs', Matches (fun b c => HasContent inflate entitiesDecoded b.Kind b.Data.bytes c) bs cs' ∧
      cs'.length = cs.length ∧ fileGroups cs' = fileGroups cs := by
  intro bs cs hl h
  induction h with
  | nil => exact ⟨[], .nil, rfl, rfl⟩
  | @cons b c bs cs h1 _ ih =>
    obtain ⟨c', h2, h3⟩ := content_entities (hl b (by simp)) h1
    obtain ⟨cs', h4, h5, h6⟩ := ih fun x hx => hl x (by simp [hx])
    refine ⟨c' :: cs', .cons h2 h4, by simp [h5], ?_⟩
    have : ∀ (c : Content) cs, fileGroups (c :: cs) = fileGroups [c] ++ fileGroups cs := by
      intro c cs
      unfold fileGroups
      simp
    rw [this, this c cs, h3, h6]

theorem format_entities {inflate : Inflate} {file : List UInt8} (hl : file.length < 2 ^ 63) (hne : file ≠ []) {cs : List Content}
    (hc : IsOsmContents inflate file cs) : ∃ cs', FileHas inflate entitiesDecoded file cs' ∧ cs'.length = cs.length ∧
      fileGroups cs' = fileGroups cs := by
  obtain ⟨xs, h1, h2⟩ := hc
  obtain ⟨bs, h3, rfl⟩ := Format.split_of h1 hl hne (Format.kinds_content h2)
  obtain ⟨cs', c1, c2, c3⟩ := contents_entities (fun b hb => by
    have := (Rewrite.split_blocks hl h3).2 b hb
    omega) (Format.matches_seen h2)
  exact ⟨cs', ⟨bs, h3, c1⟩, c2, c3⟩

/-- C61: what entitycount prints for a file in the format, whatever the number of workers and the schedule: the numbers of its
blobs, nodes, ways, relations and refs, and the largest ids (as unsigned numbers) and number of refs. -/
theorem C61_format (inflate : Inflate) (sched : Block → Sched) (hsched : ∀ b, (sched b).pooled.length < 2 ^ 63)
    (file : List UInt8) (hl : file.length < 2 ^ 63) (hne : file ≠ []) (cs : List Content) (hc : IsOsmContents inflate file cs)
    (W : Nat) (s : Pbf.St (List T.PrimitiveGroup))
    (hr : Pbf.Reachable (countCfg inflate sched file) W s) (hd : s.main = .done) (hcc : s.cancelled = false)
    (m : Var → UInt64) (hp : Prints inflate sched s m) :
    m .blockCount = UInt64.ofNat (totals cs).blocks ∧
    m .nodeCount = UInt64.ofNat (totals cs).nodes ∧
    m .wayCount = UInt64.ofNat (totals cs).ways ∧
    m .relationCount = UInt64.ofNat (totals cs).relations ∧
    m .wayRefCount = UInt64.ofNat (totals cs).refs ∧
    IsMax (m .maxNode) (0 :: (nodeIds cs).map (·.toUInt64)) ∧
    IsMax (m .maxWay) (0 :: (fileWays cs).map (·.ID.toUInt64)) ∧
    IsMax (m .maxRelation) (0 :: (fileRelations cs).map (·.ID.toUInt64)) ∧
    IsMax (m .maxWayRefCount) (0 :: (fileWays cs).map fun w => UInt64.ofNat w.Refs.length) := by
  obtain ⟨cs', c1, c2, c3⟩ := format_entities hl hne hc
  have := C61_exact inflate sched hsched file hl cs' c1 W s hr hd hcc m hp
  have e1 : nodeIds cs' = nodeIds cs := by unfold nodeIds; rw [c3]
  have e2 : fileWays cs' = fileWays cs := by unfold fileWays; rw [c3]
  have e3 : fileRelations cs' = fileRelations cs := by unfold fileRelations; rw [c3]
  have e4 : totals cs' = totals cs := by unfold totals; rw [e1, e2, e3, c2]
  rw [e1, e2, e3, e4] at this
  exact this

/-- C61: and entitycount comes to print it. -/
theorem C61_format_completes (inflate : Inflate) (sched : Block → Sched) (hsched : ∀ b, (sched b).pooled.length < 2 ^ 63)
    (file : List UInt8) (hl : file.length < 2 ^ 63) (hne : file ≠ []) (cs : List Content) (hc : IsOsmContents inflate file cs)
    (W : Nat) :
    (∀ s, Pbf.Reachable (countCfg inflate sched file) W s → s.crashed = false) ∧
    (∀ s, Pbf.Reachable (countCfg inflate sched file) W s → s.main = .done → s.cancelled = false →
      ∃ m, Prints inflate sched s m) ∧
    (0 < W → ∀ s, Pbf.Reachable (countCfg inflate sched file) W s →
        ∃ n s', Pbf.Steps (countCfg inflate sched file) n s s' ∧ s'.cancelled = s.cancelled ∧ s'.main = .done) := by
  obtain ⟨cs', c1, _⟩ := format_entities hl hne hc
  exact C61_completes inflate sched hsched file hl cs' c1 W

/-- C61: what blockcount prints for a file in the format. -/
theorem C61_blocks_format (file : List UInt8) (hl : file.length < 2 ^ 63) (hne : file ≠ []) (xs : List (GoStr × List UInt8))
    (h : IsFile file xs) (hk : ∀ x ∈ xs, x.1 = osmHeader ∨ x.1 = osmData) (W : Nat) (s : Pbf.St Unit)
    (hr : Pbf.Reachable (blocksCfg file) W s) (hd : s.main = .done) (hcc : s.cancelled = false) (n : UInt64)
    (hp : PrintsBlocks s n) : n.toNat = xs.length := by
  obtain ⟨bs, e1, e2⟩ := C61_blocks file hl W s hr hd hcc
  obtain ⟨bs', h3, rfl⟩ := Format.split_of h hl hne hk
  rw [h3] at e1
  cases e1
  rw [e2 n hp, List.length_map]

/-- C65: what entityfind prints for a file in the format. -/
theorem C65_format (inflate : Inflate) (sched : Pbf.Block → Sched) (hsched : ∀ b, (sched b).pooled.length < 2 ^ 63)
    (ids : List UInt64) (file : List UInt8) (hl : file.length < 2 ^ 63) (hne : file ≠ []) (cs : List Content)
    (hc : IsOsmContents inflate file cs) (hso : SoundFile cs) (W : Nat) (s : Pbf.St (List Find.Entity))
    (hr : Pbf.Reachable (Find.findCfg inflate sched ids file) W s) (hd : s.main = .done) (hcc : s.cancelled = false)
    (out : List Find.Entity) (hp : Find.Prints inflate sched ids s out) :
    ∃ ess, Each ContentEntities cs ess ∧ out.Perm (requested ids ess.flatten) ∧
      ∀ es ∈ ess, List.Sublist (requested ids es) out :=
  C65_prints inflate sched hsched ids file hl cs (C87_contents inflate file hl hne cs hc) hso W s hr hd hcc out hp

/-! ## Example -/

theorem tiny_contents (inflate : Inflate) : ∃ bs, IsOsmContents inflate tinyFile [.other osmHeader bs, .data tinyBlock] := by
  obtain ⟨xs, h1, h2⟩ := tiny_conforms inflate
  cases h2 with
  | cons h h2 => cases h2 with
    | cons h' h2 =>
      cases h2
      cases h with
      | header bs =>
        cases h' with
        | data bs' p b hp hb => exact ⟨bs, _, h1, .cons (.header _) (.cons (.data _ _ _ hp hb) .nil)⟩

/-- A file in the format with 3 nodes, 2 ways with 6 refs and a relation. -/
example (inflate : Inflate) (sched : Block → Sched) (hsched : ∀ b, (sched b).pooled.length < 2 ^ 63) (W : Nat)
    (s : Pbf.St (List T.PrimitiveGroup)) (hr : Pbf.Reachable (countCfg inflate sched tinyFile) W s) (hd : s.main = .done)
    (hcc : s.cancelled = false) (m : Var → UInt64) (hp : Prints inflate sched s m) :
    m .blockCount = 2 ∧ m .nodeCount = 3 ∧ m .wayCount = 2 ∧ m .relationCount = 1 ∧ m .wayRefCount = 6 := by
  obtain ⟨bs, hc⟩ := tiny_contents inflate
  obtain ⟨h1, h2, h3, h4, h5, _⟩ := C61_format inflate sched hsched tinyFile (by decide +kernel) (by decide +kernel) _ hc W s hr hd hcc m hp
  exact ⟨h1, h2, h3, h4, h5⟩

end Osm.Props
