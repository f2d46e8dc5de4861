import Verif.Spec.Rewrite
import Verif.Lemmas.Raw
import Verif.Lemmas.SubIndex
import Verif.Lemmas.RelPasses
import Verif.Props.Pbf
import Verif.Props.NodeIndex
import Verif.Props.Messages

namespace Osm.T
open Osm Osm.Pb Osm.Spec

theorem readBlob_fits {buf : Slice} {b : Blob} (hb : buf.Fits) (h : ReadBlob buf = .ok b) :
    (∀ r, b.Raw = some r → r.Fits) ∧ ∀ z, b.ZLibData = some z → z.Fits := by
  refine forNext_inv (I := fun b : Blob => (∀ r, b.Raw = some r → r.Fits) ∧ ∀ z, b.ZLibData = some z → z.Fits) ?_
    (by simp [Blob.zero]) h
  rintro n s s' n' ⟨h1, h2⟩ hs
  unfold blobBody at hs
  obtain ⟨⟨id, n1⟩, _, hs⟩ := Res.bind_eq_ok.1 hs
  dsimp only at hs
  split at hs
  · obtain ⟨⟨v, n2⟩, hv, hs⟩ := Res.bind_eq_ok.1 hs
    cases hs
    exact ⟨fun r hr => by cases hr; exact readBytes_fits hb hv, h2⟩
  · split at hs
    · obtain ⟨⟨v, n2⟩, hv, hs⟩ := Res.bind_eq_ok.1 hs
      cases hs
      exact ⟨h1, h2⟩
    · split at hs
      · obtain ⟨⟨v, n2⟩, hv, hs⟩ := Res.bind_eq_ok.1 hs
        cases hs
        exact ⟨h1, fun r hr => by cases hr; exact readBytes_fits hb hv⟩
      · cases hs

/-- What a blob written with a function reads as. -/
theorem blob_func_ok {f : Embedder} {o : Option (List UInt8)} (hf : EmbSpec f o) {blob : List UInt8}
    (h : Blob.zero.Write (some f) [] = .ok blob) :
    ∃ p, o = some p ∧ p.length < 268435456 ∧ blob.length ≤ p.length + 32 ∧
      ∀ spare, (Slice.mk blob spare).Fits → ∃ b', ReadBlob ⟨blob, spare⟩ = .ok b' ∧ blobObs b' = (some p, none, none) := by
  have hw := embSpec_embed268435456 hf 1
  unfold Blob.Write Blob.writeRaw at h
  dsimp only at h
  rw [hw []] at h
  cases o with
  | none => simp [optField, appendRes] at h
  | some p =>
    by_cases hp : p.length < 268435456
    · simp only [optField, if_pos hp, appendRes, Res.ok_bind, blob_writeTail_eq, List.nil_append, Res.ok.injEq] at h
      refine ⟨p, rfl, hp, ?_, fun spare hfit => ?_⟩
      · rw [← h]
        have h2 : (leb128 (MakeIdType 1 PbFixedBytes).toNat).length ≤ 10 := Pb.leb128_length_le10 (by decide)
        have h3 : (blobTailBytes Blob.zero).length = 0 := by decide
        have h4 : (fix4 p.length).length = 4 := rfl
        simp only [List.length_append, tagBytes, h3, h4]
        omega
      · obtain ⟨b', h1, h2⟩ := blob_read_func Blob.zero spare p _ hp h.symm hfit
        exact ⟨b', h1, h2⟩
    · simp [optField, if_neg hp, appendRes] at h

theorem written_reads (inflate : Inflate) {o : PBReader} {pb : PrimitiveBlock} (hs : BlockShape o pb) {blob : List UInt8}
    (h : Blob.zero.Write (some pb.Write) [] = .ok blob) :
    Reads inflate o blob (trimBlock pb) ∧ blob.length < 2 ^ 31 := by
  obtain ⟨p, h1, h2, h3, h4⟩ := blob_func_ok (block_embSpec pb) h
  refine ⟨fun i spare sched hf hp => ?_, by omega⟩
  obtain ⟨b', h5, h6⟩ := h4 spare hf
  obtain ⟨r, size, z⟩ := b'
  simp only [blobObs, Prod.mk.injEq] at h6
  obtain ⟨h6, rfl, h8⟩ := h6
  cases r with
  | none => cases h6
  | some r =>
    simp only [Option.map_some, Option.some.injEq] at h6
    have hrf := (readBlob_fits hf h5).1 r rfl
    obtain ⟨pb', h9, h10⟩ := block_read o pb hs p h1 r.spare (by rw [← h6]; exact hrf)
    refine ⟨r, pb', ?_, ?_, h9⟩
    · show (ReadBlob ⟨blob, spare⟩ >>= fun x => GetRawData inflate sched x) = _
      rw [h5]
      rfl
    · rw [← h6] at h10
      exact h10

end Osm.T

namespace Osm.Rewrite
open Osm Osm.Pb Osm.T Osm.Pbf Osm.NodeIndex Osm.Spec

/-! ## The refs -/

theorem knownLoc_some {es : List IndexElement} {locs : List Int64} {id : Nat} {l : Int64}
    (h : knownLoc es locs id = some l) : HasLoc es locs id l := by
  unfold knownLoc at h
  obtain ⟨e, he, h⟩ := List.exists_of_findSome?_eq_some h
  split at h
  · next hr =>
    rw [Option.filter_eq_some_iff] at h
    exact ⟨e, he, hr, h.1, by simpa using h.2⟩
  · cases h

theorem knownLoc_none {es : List IndexElement} {locs : List Int64} {id : Nat} 
    (h : knownLoc es locs id = none) (l : Int64) : ¬ HasLoc es locs id l := by
  rintro ⟨e, he, hr, hl, hne⟩
  unfold knownLoc at h
  rw [List.findSome?_eq_none_iff] at h
  have := h e he
  unfold rHas at hr
  rw [if_pos hr, hl] at this
  simp [hne] at this

theorem keepOr_eq {si : SubIdx} (hw : WellFormedSub si) (r : Int64) (hr : 0 ≤ r.toInt) (hint : Int) (hh : 0 ≤ hint) :
    ∃ f, si.findNode r.toUInt64 hint = .ok f ∧ 0 ≤ f.hint ∧ keepOr r f = locate si.element si.locations r := by
  obtain ⟨f, h, _, _, h3, _⟩ := findNode_ok hw r.toUInt64 hint hh
  obtain ⟨f', h', hl, _⟩ := Props.C28_lookup_exact hw r.toUInt64 hint hh
  rw [h] at h'
  cases h'
  have hid : r.toUInt64.toNat = r.toInt.toNat := by
    have h1 := Int64.toInt_lt r
    have : r.toInt = (r.toUInt64.toNat : Int) := by
      rw [← Int64.toInt_toBitVec, BitVec.toInt_eq_toNat_bmod]
      show ((r.toUInt64.toNat : Int)).bmod (2 ^ 64) = _
      have h0 : ((r.toUInt64.toNat : Int)).bmod (2 ^ 64) = r.toInt := by
        rw [← Int64.toInt_toBitVec, BitVec.toInt_eq_toNat_bmod]; rfl
      rw [Int.bmod_def] at h0 ⊢
      have := UInt64.toNat_lt r.toUInt64
      omega
    omega
  rw [hid] at hl
  refine ⟨f, h, by rcases h3 with h3 | h3 <;> omega, ?_⟩
  unfold keepOr locate
  rw [if_pos (show (0 : Int64) ≤ r from Int64.le_iff_toInt_le.2 hr)]
  cases hk : knownLoc si.element si.locations r.toInt.toNat with
  | none =>
    have : f.ok = false := by
      cases hf : f.ok with
      | false => rfl
      | true => exact absurd ((hl f.loc).1 ⟨hf, rfl⟩) (knownLoc_none hk _)
    rw [this]
    rfl
  | some l =>
    obtain ⟨h1, h2⟩ := (hl l).2 (knownLoc_some hk)
    rw [h1, h2]
    rfl

theorem rewriteRefs_eq {si : SubIdx} (hw : WellFormedSub si) : ∀ (rs : List Int64) (hint : Int), 0 ≤ hint →
    ∃ hint', 0 ≤ hint' ∧ rewriteRefs si hint rs = .ok (rs.map (locate si.element si.locations), hint')
  | [], hint, hh => ⟨hint, hh, rfl⟩
  | r :: rs, hint, hh => by
    unfold rewriteRefs
    by_cases hr : r < 0
    · obtain ⟨hint', h1, h2⟩ := rewriteRefs_eq hw rs hint hh
      refine ⟨hint', h1, ?_⟩
      rw [if_pos hr, h2]
      have : locate si.element si.locations r = r := by
        unfold locate
        rw [if_neg]
        rw [Int64.le_iff_toInt_le]
        rw [Int64.lt_iff_toInt_lt] at hr
        simp at hr ⊢
        omega
      simp [this]
    · rw [if_neg hr]
      rw [Int64.lt_iff_toInt_lt] at hr
      obtain ⟨f, h1, h2, h3⟩ := keepOr_eq hw r (by simp at hr; omega) hint hh
      obtain ⟨hint', h4, h5⟩ := rewriteRefs_eq hw rs f.hint h2
      refine ⟨hint', h4, ?_⟩
      rw [h1, Res.ok_bind, h5, Res.ok_bind, h3]
      rfl

theorem rewriteWays_eq {si : SubIdx} (hw : WellFormedSub si) : ∀ (ws : List Way) (hint : Int), 0 ≤ hint →
    ∃ hint', 0 ≤ hint' ∧ rewriteWays si hint ws =
      .ok (ws.map fun w => { w with Refs := w.Refs.map (locate si.element si.locations) }, hint')
  | [], hint, hh => ⟨hint, hh, rfl⟩
  | w :: ws, hint, hh => by
    unfold rewriteWays
    obtain ⟨h', h1, h2⟩ := rewriteRefs_eq hw w.Refs hint hh
    obtain ⟨h'', h3, h4⟩ := rewriteWays_eq hw ws h' h1
    refine ⟨h'', h3, ?_⟩
    rw [h2, Res.ok_bind]
    dsimp only
    rw [h4, Res.ok_bind]
    rfl

theorem rewriteGroups_eq {si : SubIdx} (hw : WellFormedSub si) : ∀ (gs : List T.PrimitiveGroup) (hint : Int), 0 ≤ hint →
    ∃ hint', 0 ≤ hint' ∧ rewriteGroups si hint gs = .ok (gs.map fun g =>
      { g with Ways := g.Ways.map fun w => { w with Refs := w.Refs.map (locate si.element si.locations) } }, hint')
  | [], hint, hh => ⟨hint, hh, rfl⟩
  | g :: gs, hint, hh => by
    unfold rewriteGroups
    obtain ⟨h', h1, h2⟩ := rewriteWays_eq hw g.Ways hint hh
    obtain ⟨h'', h3, h4⟩ := rewriteGroups_eq hw gs h' h1
    refine ⟨h'', h3, ?_⟩
    rw [h2, Res.ok_bind]
    dsimp only
    rw [h4, Res.ok_bind]
    rfl

/-! ## One block -/

theorem rewriteBlock_eq {si : SubIdx} (hw : WellFormedSub si) (pb : PrimitiveBlock) :
    rewriteBlock si pb =
      Blob.zero.Write (some (mapRefs (locate si.element si.locations) pb).Write) [] := by
  unfold rewriteBlock
  obtain ⟨h', _, h2⟩ := rewriteGroups_eq hw pb.PrimitiveGroup 0 (by omega)
  rw [h2]
  rfl

theorem mapRefs_shape {f : Int64 → Int64} {pb : PrimitiveBlock} (h : BlockShape reader pb) :
    BlockShape reader (mapRefs f pb) := by
  obtain ⟨h1, h2⟩ := h
  refine ⟨h1, fun g hg => ?_⟩
  obtain ⟨g', hg', rfl⟩ := List.mem_map.1 hg
  obtain ⟨h3, h4, h5⟩ := h2 g' hg'
  exact ⟨h3, h4, h5⟩

theorem trim_mapRefs (f : Int64 → Int64) (pb : PrimitiveBlock) : trimBlock (mapRefs f pb) = mapRefs f (trimBlock pb) := by
  unfold trimBlock mapRefs trimGroup
  simp

theorem mapRefs_noWays {f : Int64 → Int64} {pb : PrimitiveBlock} (h : totalWays pb = 0) : mapRefs f pb = pb := by
  unfold mapRefs
  have : (pb.PrimitiveGroup.map fun g : T.PrimitiveGroup =>
      { g with Ways := g.Ways.map fun w => { w with Refs := w.Refs.map f } }) = pb.PrimitiveGroup := by
    conv => rhs; rw [← List.map_id pb.PrimitiveGroup]
    apply List.map_congr_left
    intro g hg
    have : g.Ways = [] := by
      unfold totalWays at h
      rw [List.sum_eq_zero_iff_forall_eq_nat] at h
      exact List.length_eq_zero_iff.1 (h _ (List.mem_map_of_mem hg))
    rw [this]
    cases g
    simp_all
  rw [this]

theorem totalWays_trim (pb : PrimitiveBlock) : totalWays (trimBlock pb) = totalWays pb := by
  unfold totalWays trimBlock trimGroup
  simp
  rfl

/-- What a worker makes of one block. -/
theorem work_content (inflate : Inflate) (sched : Block → Sched) (hsched : ∀ b, (sched b).pooled.length < 2 ^ 63)
    {si : SubIdx} (hw : WellFormedSub si) {b : Block} (hf : b.Data.Fits) {c : Content}
    (hc : HasContent inflate reader b.Kind b.Data.bytes c) (hlen : b.Data.bytes.length < 2 ^ 31) {x : Out}
    (hx : rewriteWork inflate sched si b = .ok x) :
    x.1 = b.Kind ∧ x.2.length < 2 ^ 31 ∧
      HasContent inflate reader x.1 x.2 (c.mapRefs (locate si.element si.locations)) := by
  unfold rewriteWork at hx
  cases c with
  | other k bs =>
    obtain ⟨h1, h2, h3⟩ := hc
    rw [if_pos h3] at hx
    cases hx
    exact ⟨rfl, hlen, h1, h2, h3⟩
  | data c =>
    obtain ⟨h1, h2⟩ := hc
    rw [if_neg (by simp [h1])] at hx
    obtain ⟨i, data, kind⟩ := b
    subst h1
    obtain ⟨raw, pb, r1, r2, r3⟩ := h2 i data.spare (sched ⟨i, data, osmData⟩) hf (hsched _)
    rw [r1, Res.ok_bind, r2, Res.ok_bind] at hx
    unfold rewriteDecoded at hx
    by_cases ht : totalWays pb = 0
    · rw [if_pos ht] at hx
      cases hx
      refine ⟨rfl, hlen, rfl, ?_⟩
      rw [mapRefs_noWays (by rw [← r3, totalWays_trim]; exact ht)]
      exact h2
    · rw [if_neg ht] at hx
      obtain ⟨blob, h4, hx⟩ := Res.bind_eq_ok.1 hx
      cases hx
      rw [rewriteBlock_eq hw] at h4
      obtain ⟨h5, h6⟩ := written_reads inflate (mapRefs_shape (readBlock_shape _ _ _ r2)) h4
      rw [trim_mapRefs, r3] at h5
      exact ⟨rfl, h6, rfl, h5⟩

/-! ## One file -/

theorem frame_eq (kind : GoStr) (blob : List UInt8) : frame kind blob = frameHeader kind blob ++ blob := rfl

theorem writeBlocks_exec (f : String) : ∀ (xs : List Out) (fs : FS) (d : List UInt8),
    fs f = some ⟨d, d.length⟩ →
    ∃ fs', (writeBlocks f xs).exec fs = .ok ((), fs') ∧ fs' f = some ⟨d ++ fileOf xs, (d ++ fileOf xs).length⟩ ∧
      ∀ g, g ≠ f → fs' g = fs g
  | [], fs, d, h => ⟨fs, rfl, by simpa [fileOf] using h, fun _ _ => rfl⟩
  | (k, x) :: xs, fs, d, h => by
    obtain ⟨w1, w2⟩ := RelIndex.append_exec f fs d (frameHeader k x) h
    obtain ⟨w3, w4⟩ := RelIndex.append_exec f _ _ x w1
    obtain ⟨fs', e1, e2, e3⟩ := writeBlocks_exec f xs _ _ w3
    refine ⟨fs', ?_, ?_, ?_⟩
    · show (FWrite f _ >>= fun _ => FWrite f x >>= fun _ => writeBlocks f xs).exec fs = _
      unfold FWrite
      rw [Prog.exec_bind, Prog.exec_emit, Res.ok_bind, Prog.exec_bind, Prog.exec_emit, Res.ok_bind]
      exact e1
    · have : fileOf ((k, x) :: xs) = frameHeader k x ++ (x ++ fileOf xs) := by
        show frame k x ++ fileOf xs = _
        rw [frame_eq, List.append_assoc]
      rw [this]
      simpa using e2
    · intro g hg
      rw [e3 g hg, w4 g hg, w2 g hg]

theorem output_exec (f : String) (xs : List Out) (fs : FS) :
    ∃ fs', (output f xs).exec fs = .ok ((), fs') ∧ Holds fs' f (fileOf xs) ∧ ∀ g, g ≠ f → fs' g = fs g := by
  obtain ⟨fs', e1, e2, e3⟩ := writeBlocks_exec f xs ((FsOp.create f).run fs) [] (by simp [FsOp.run, FS.set])
  refine ⟨fs', ?_, ?_, ?_⟩
  · unfold output OsCreate
    rw [Prog.exec_bind, Prog.exec_emit, Res.ok_bind]
    exact e1
  · unfold Holds
    rw [e2]
    exact ⟨_, rfl⟩
  · intro g hg
    rw [e3 g hg]
    simp [FsOp.run, FS.set, hg]

theorem blockFile_len {i : Nat} {f : List UInt8} {bs : List Block} (h : BlockFile i f bs) :
    ∀ b ∈ bs, b.Data.bytes.length < 2 ^ 31 := by
  induction h with
  | nil => simp
  | cons _ header data rest kind size bs _ _ _ hs _ ih =>
    intro b hb
    rcases List.mem_cons.1 hb with rfl | hb
    · have := Int32.toInt_lt size
      dsimp only
      omega
    · exact ih b hb

/-- The file that the writer produces from blocks with given contents. -/
theorem fileOf_has (inflate : Inflate) (o : PBReader) {xs : List Out} {cs : List Content} (hne : xs ≠ [])
    (hw : ∀ x ∈ xs, Writable x) (hlen : (fileOf xs).length < 2 ^ 63)
    (hc : Matches (fun x c => HasContent inflate o x.1 x.2 c) xs cs) : FileHas inflate o (fileOf xs) cs := by
  obtain ⟨bs, h1, h2, h3⟩ := Props.C53_round_trip xs hne hw hlen
  refine ⟨bs, h1, ?_⟩
  clear h1 h3 hne hw hlen
  induction bs generalizing xs cs with
  | nil =>
    simp only [List.map_nil] at h2
    subst h2
    cases hc
    exact .nil
  | cons b bs ih =>
    simp only [List.map_cons] at h2
    subst h2
    cases hc with
    | cons ha hb => exact .cons ha (ih hb rfl)

theorem each_length {α β : Type} {R : α → β → Prop} {as : List α} {bs : List β} (h : Matches R as bs) :
    as.length = bs.length := by
  induction h with
  | nil => rfl
  | cons _ _ ih => simp [ih]

theorem works_content (inflate : Inflate) (sched : Block → Sched) (hsched : ∀ b, (sched b).pooled.length < 2 ^ 63)
    {si : SubIdx} (hw : WellFormedSub si) : ∀ (bs : List Block) (cs : List Content) (xs : List Out),
    (∀ b ∈ bs, b.Data.Fits ∧ b.Data.bytes.length < 2 ^ 31 ∧ (b.Kind = osmHeader ∨ b.Kind = osmData)) →
    Matches (fun b c => HasContent inflate reader b.Kind b.Data.bytes c) bs cs →
    mapRes (rewriteWork inflate sched si) bs = .ok xs →
    (∀ x ∈ xs, Writable x) ∧ Matches (fun x c => HasContent inflate reader x.1 x.2 c) xs
      (cs.map (·.mapRefs (locate si.element si.locations)))
  | [], cs, xs, _, hc, hx => by
    cases hc
    cases hx
    exact ⟨by simp, .nil⟩
  | b :: bs, cs, xs, hb, hc, hx => by
    cases hc with
    | cons h1 h2 =>
      unfold mapRes at hx
      obtain ⟨x, e1, hx⟩ := Res.bind_eq_ok.1 hx
      obtain ⟨ys, e2, hx⟩ := Res.bind_eq_ok.1 hx
      cases hx
      obtain ⟨f1, f2, f3⟩ := hb b (by simp)
      obtain ⟨k1, k2, k3⟩ := work_content inflate sched hsched hw f1 h1 f2 e1
      obtain ⟨m1, m2⟩ := works_content inflate sched hsched hw bs _ ys (fun b hb' => hb b (by simp [hb'])) h2 e2
      refine ⟨fun y hy => ?_, .cons k3 m2⟩
      rcases List.mem_cons.1 hy with rfl | hy
      · exact ⟨by rw [k1]; exact f3, k2⟩
      · exact m1 y hy

theorem split_blocks {file : List UInt8} (hl : file.length < 2 ^ 63) {bs : List Block} (h : split file = .ok bs) :
    bs ≠ [] ∧ ∀ b ∈ bs, b.Data.Fits ∧ b.Data.bytes.length < 2 ^ 31 ∧ (b.Kind = osmHeader ∨ b.Kind = osmData) := by
  obtain ⟨hne, hbf⟩ := (split_iff file hl bs).1 h
  refine ⟨?_, fun b hb => ⟨blockFile_fits hbf hl b hb, blockFile_len hbf b hb, blockFile_kind hbf b hb⟩⟩
  rintro rfl
  cases hbf
  exact hne rfl

theorem mapRes_len {α β : Type} {f : α → Res β} {as : List α} {bs : List β} (h : mapRes f as = .ok bs) :
    bs.length = as.length := Pbf.mapRes_length h

/-- One pass over a file. -/
theorem pass_content (inflate : Inflate) (sched : Block → Sched) (hsched : ∀ b, (sched b).pooled.length < 2 ^ 63)
    {si : SubIdx} (hw : WellFormedSub si) {file : List UInt8} (hl : file.length < 2 ^ 63) {cs : List Content}
    (hc : FileHas inflate reader file cs) (inp out : String) (fs fs' : FS) (hin : Holds fs inp file)
    (hx : (pass inflate sched si inp out).exec fs = .ok ((), fs')) :
    (∃ file', Holds fs' out file' ∧ (file'.length < 2 ^ 63 →
      FileHas inflate reader file' (cs.map (·.mapRefs (locate si.element si.locations))))) ∧
    ∀ g, g ≠ out → fs' g = fs g := by
  obtain ⟨bs, h1, h2⟩ := hc
  obtain ⟨pos, hin⟩ := hin
  unfold pass at hx
  rw [Prog.exec_bind, exec_OsOpen_some hin, Res.ok_bind, Prog.exec_bind, exec_MMapMap] at hx
  dsimp only at hx
  rw [hin] at hx
  dsimp only at hx
  have hne : file ≠ [] := ((split_iff file hl bs).1 h1).1
  rw [if_neg hne, Res.ok_bind, Prog.exec_bind, Prog.exec_lift, h1, Res.ok_bind, Res.ok_bind, Prog.exec_bind, Prog.exec_lift] at hx
  obtain ⟨⟨xs, fs2⟩, e2, hx⟩ := Res.bind_eq_ok.1 hx
  obtain ⟨xs', e3, e2⟩ := Res.bind_eq_ok.1 e2
  cases e2
  obtain ⟨hbne, hb⟩ := split_blocks hl h1
  obtain ⟨m1, m2⟩ := works_content inflate sched hsched hw bs cs xs hb h2 e3
  obtain ⟨fs3, o1, o2, o3⟩ := output_exec out xs fs
  dsimp only at hx
  rw [o1] at hx
  cases hx
  refine ⟨⟨_, o2, fun hlen => fileOf_has inflate reader ?_ m1 hlen m2⟩, o3⟩
  rintro rfl
  have := mapRes_len e3
  exact hbne (List.length_eq_zero_iff.1 this.symm)

end Osm.Rewrite
