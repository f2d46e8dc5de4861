import Verif.Lemmas.FormatPasses
import Verif.Props.Raw
import Verif.Props.TagFilter

/-! # Files written by tagfilter and decompress, as the format has them -/

namespace Osm.Format
open Osm Osm.Spec Osm.Spec.Proto Osm.Spec.OsmFormat Osm.Pb Osm.T Osm.Pbf

/-! ### tagfilter -/

theorem matches_self {α : Type} {R : α → α → Prop} {xs : List α} (h : ∀ x ∈ xs, R x x) : Matches R xs xs := by
  induction xs with
  | nil => exact .nil
  | cons x xs ih => exact .cons (h x (by simp)) (ih fun y hy => h y (by simp [hy]))

theorem shows_self {b : PrimitiveBlock} (h : BlockShape readAll b) : ShowsBlock readAll b b := by
  obtain ⟨h1, h2⟩ := h
  simp only [readAll, Bool.false_eq_true, if_false] at h1
  refine ⟨?_, matches_self fun g hg => ?_, ⟨rfl, rfl, rfl, rfl⟩, h1⟩
  · simp only [readAll, Bool.false_eq_true, if_false]
    exact ⟨h1, trivial⟩
  · obtain ⟨a1, a2, a3⟩ := h2 g hg
    simp only [readAll, Bool.false_eq_true, if_false] at a1 a2 a3
    refine ⟨?_, ?_, ?_, a1, a2, a3⟩ <;> simp only [readAll, Bool.false_eq_true, if_false] <;> simp [*]

/-- Whatever block the worker got: what it sends is a filler, or conforms. -/
theorem filterWork_isContent (inflate : Inflate) (sched : Block → Sched) {b : Block}
    (hkind : b.Kind = osmHeader ∨ b.Kind = osmData) (hbl : b.Data.bytes.length < 2 ^ 31) {x : Rewrite.Out}
    (hx : TagFilter.filterWork inflate sched b = .ok x) :
    x.1 = TagFilter.filler ∨ x.2.length < 2 ^ 31 ∧ ∃ c, IsContent inflate x c := by
  unfold TagFilter.filterWork at hx
  obtain ⟨s, hs, hx⟩ := Res.bind_eq_ok.1 hx
  cases hx
  unfold TagFilter.filterIter at hs
  split at hs
  · next hk =>
    cases hs
    rcases hkind with h | h
    · refine .inr ⟨hbl, .other osmHeader b.Data.bytes, ?_⟩
      dsimp only
      rw [h]
      exact .header _
    · exact absurd h hk
  · obtain ⟨raw, _, hs⟩ := Res.bind_eq_ok.1 hs
    obtain ⟨pb, _, hs⟩ := Res.bind_eq_ok.1 hs
    unfold TagFilter.filterBlock at hs
    obtain ⟨ns, i1, hs⟩ := Res.bind_eq_ok.1 hs
    obtain ⟨ws, i2, hs⟩ := Res.bind_eq_ok.1 hs
    obtain ⟨rs, i3, hs⟩ := Res.bind_eq_ok.1 hs
    obtain ⟨idx, hfn⟩ := TagFilter.filterNodes_eq ns
    rw [hfn, Res.ok_bind] at hs
    unfold TagFilter.send at hs
    have hm : TagsAreMaps (wantedNodes ns) ws rs :=
      ⟨TagFilter.wantedNodes_isMap (toNodes_isMap i1), toWays_isMap i2, toRelations_isMap i3⟩
    split at hs
    · rw [TagFilter.assemble_eq, make_eq _ _ _ hm, Res.ok_bind] at hs
      obtain ⟨blob, hb, hs⟩ := Res.bind_eq_ok.1 hs
      cases hs
      have w2 := (written_reads inflate (asm_shape _ _ _) hb).2
      obtain ⟨q, q1, q2, q3⟩ := write_blob_func Blob.zero (block_embSpec _) hb (by omega)
      exact .inr ⟨w2, _, .data _ q _ (.inl ⟨_, q3⟩) (write_block (shows_self (asm_shape _ _ _)) q1 (by omega))⟩
    · cases hs
      exact .inl rfl

theorem filter_isContent (inflate : Inflate) (sched : Block → Sched) : ∀ {bs : List Block} {xs : List Rewrite.Out},
    (∀ b ∈ bs, b.Data.Fits ∧ b.Data.bytes.length < 2 ^ 31 ∧ (b.Kind = osmHeader ∨ b.Kind = osmData)) →
    mapRes (TagFilter.filterWork inflate sched) bs = .ok xs →
    (∀ x ∈ TagFilter.written xs, Writable x) ∧ ∃ cs, Matches (IsContent inflate) (TagFilter.written xs) cs := by
  intro bs
  induction bs with
  | nil => intro xs _ hx; cases hx; exact ⟨by simp [TagFilter.written], [], .nil⟩
  | cons b bs ih =>
    intro xs hk hx
    unfold mapRes at hx
    obtain ⟨x, e1, hx⟩ := Res.bind_eq_ok.1 hx
    obtain ⟨ys, e2, hx⟩ := Res.bind_eq_ok.1 hx
    cases hx
    by_cases hf : x.1 = TagFilter.filler
    · have hw : TagFilter.written (x :: ys) = TagFilter.written ys := by simp [TagFilter.written, hf]
      rw [hw]
      exact ih (fun b hb => hk b (by simp [hb])) e2
    · have hw : TagFilter.written (x :: ys) = x :: TagFilter.written ys := by simp [TagFilter.written, hf]
      rw [hw]
      obtain ⟨hwr, cs, hcs⟩ := ih (fun b hb => hk b (by simp [hb])) e2
      obtain ⟨_, k2, k3⟩ := hk b (by simp)
      rcases filterWork_isContent inflate sched k3 k2 e1 with h | ⟨hl, c, h⟩
      · exact absurd h hf
      · refine ⟨fun y hy => ?_, c :: cs, .cons h hcs⟩
        rcases List.mem_cons.1 hy with rfl | hy
        · exact ⟨by cases h <;> simp, hl⟩
        · exact hwr y hy

/-! ### decompress -/

theorem rawBlob_isPayload (inflate : Inflate) (p : List UInt8) (h : p.length < 2 ^ 63) :
    IsPayload inflate (Props.rawBlob p) p := by
  refine .inl ⟨none, [(1, .bytes p)], isMessage_one (isField_buf (by decide) h), ?_, rfl, rfl, rfl⟩
  intro f hf
  simp only [List.mem_singleton] at hf
  subst hf
  simp

theorem isPayload_unique {inflate : Inflate} {bs p q : List UInt8} (hl : bs.length < 2 ^ 63) (h : IsPayload inflate bs p)
    (h' : IsPayload inflate bs q) : p = q := by
  obtain ⟨blob, h1, h2, _⟩ := isPayload_read h hl
  obtain ⟨blob', h1', h2', _⟩ := isPayload_read h' hl
  rw [h1] at h1'
  cases h1'
  exact payload_unique h2 h2'

theorem isPayload_block {inflate : Inflate} {b : Block} {p : List UInt8} (h : IsPayload inflate (Seen b).2 p)
    (hf : b.Data.Fits) : BlockPayload inflate b p := by
  obtain ⟨i, ⟨bytes, spare⟩, kind⟩ := b
  have hl : bytes.length < 2 ^ 63 := by unfold Slice.Fits at hf; dsimp only at hf; omega
  obtain ⟨blob, h1, h2, _⟩ := isPayload_read h hl
  obtain ⟨blob', g1, g2⟩ := grows_blob (s := ⟨bytes, []⟩) (t := ⟨bytes, spare⟩) ⟨rfl, spare, rfl⟩ _ h1
  exact ⟨blob', g1, payload_trim g2 h2⟩

/-- What decompression makes of the blobs. -/
def decompressed (xs : List (GoStr × List UInt8)) (ps : List (List UInt8)) : List (GoStr × List UInt8) :=
  (xs.zip ps).map fun x => (x.1.1, Props.rawBlob x.2)

theorem decompress_blobs (inflate : Inflate) (sched : Block → Sched) : ∀ {bs : List Block} {ps : List (List UInt8)}
    {got : List (List UInt8)}, (∀ b ∈ bs, b.Data.Fits) →
    Matches (fun b p => IsPayload inflate (Seen b).2 p) bs ps → (∀ p ∈ ps, p ≠ []) →
    mapRes (decompressWork inflate sched) bs = .ok got → got.flatten = fileOf (decompressed (bs.map Seen) ps) := by
  intro bs
  induction bs with
  | nil =>
    intro ps got _ hm _ hg
    cases hm
    cases hg
    rfl
  | cons b bs ih =>
    intro ps got hf hm hp hg
    cases hm with
    | @cons _ p _ ps h1 h2 =>
      unfold mapRes at hg
      obtain ⟨x, e1, hg⟩ := Res.bind_eq_ok.1 hg
      obtain ⟨ys, e2, hg⟩ := Res.bind_eq_ok.1 hg
      cases hg
      have hb := isPayload_block h1 (hf b (by simp))
      rw [Props.decompressWork_eq inflate sched b p hb (hp p (by simp))] at e1
      cases e1
      rw [List.flatten_cons, ih (fun b hb => hf b (by simp [hb])) h2 (fun p h => hp p (by simp [h])) e2]
      rfl

theorem decompressed_conf (inflate inflate' : Inflate) {xs : List (GoStr × List UInt8)} {ps : List (List UInt8)}
    (h : Matches (fun x p => IsPayload inflate x.2 p) xs ps) (hp : ∀ p ∈ ps, p.length < 2 ^ 31 - 32) :
    (decompressed xs ps).map (·.1) = xs.map (·.1) ∧ Matches (fun x p => IsPayload inflate' x.2 p) (decompressed xs ps) ps ∧
    ∀ x ∈ decompressed xs ps, x.2.length < 2 ^ 31 := by
  induction h with
  | nil => exact ⟨rfl, .nil, by simp [decompressed]⟩
  | @cons x p xs ps h _ ih =>
    obtain ⟨i1, i2, i3⟩ := ih fun p h => hp p (by simp [h])
    have hp0 := hp p (by simp)
    refine ⟨by simpa [decompressed] using i1, .cons (rawBlob_isPayload inflate' p (by omega)) i2, ?_⟩
    intro y hy
    rcases List.mem_cons.1 hy with rfl | hy
    · exact Props.rawBlob_length p hp0
    · exact i3 y hy

theorem decompressed_blocks (inflate inflate' : Inflate) {xs : List (GoStr × List UInt8)} {ps : List (List UInt8)}
    {blocks : List (Option PrimitiveBlock)} (hx : ∀ x ∈ xs, x.2.length < 2 ^ 63)
    (h : Matches (fun x p => IsPayload inflate x.2 p) xs ps) (hp : ∀ p ∈ ps, p.length < 2 ^ 31 - 32)
    (hb : Matches (HasBlock inflate) xs blocks) : Matches (HasBlock inflate') (decompressed xs ps) blocks := by
  induction h generalizing blocks with
  | nil => cases hb; exact .nil
  | @cons x p xs ps h _ ih =>
    cases hb with
    | @cons _ y _ ys h1 h2 =>
      refine .cons ?_ (ih (fun x h => hx x (by simp [h])) (fun p h => hp p (by simp [h])) h2)
      have hp0 := hp p (by simp)
      have hx0 := hx x (by simp)
      cases h1 with
      | header bs => exact .header _
      | data bs q b hq hb =>
        rw [isPayload_unique hx0 hq h] at hb
        exact .data _ p b (rawBlob_isPayload inflate' p (by omega)) hb

end Osm.Format
