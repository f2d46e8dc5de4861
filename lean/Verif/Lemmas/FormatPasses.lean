import Verif.Lemmas.FormatFile
import Verif.Lemmas.TagFilter
import Verif.Props.Whole

/-! # The programs on files as the format has them -/

namespace Osm.Format
open Osm Osm.Spec Osm.Spec.Proto Osm.Spec.OsmFormat Osm.Pb Osm.T Osm.Pbf

/-! ### What a conforming file is for the programs -/

theorem isPayload_read {inflate : Inflate} {bs p : List UInt8} (h : IsPayload inflate bs p) (hl : bs.length < 2 ^ 63) :
    ∃ blob, ReadBlob ⟨bs, []⟩ = .ok blob ∧ Payload inflate blob p ∧ p.length < 2 ^ 63 := by
  rcases h with ⟨size, h⟩ | ⟨size, z, h, h2, h3⟩
  · obtain ⟨⟨r, n, z⟩, h1, h2, h3, h4⟩ := read_blob h [] (fits_alone hl)
    dsimp only at h2 h3 h4
    cases r with
    | none => cases h2
    | some r =>
      simp only [Option.map_some, Option.some.injEq] at h2
      subst h2
      refine ⟨_, h1, .raw _ _ _, ?_⟩
      have := ((readBlob_fits (fits_alone hl) h1).1 r rfl)
      unfold Slice.Fits at this
      omega
  · obtain ⟨⟨r, n, z'⟩, h1, h4, h5, h6⟩ := read_blob h [] (fits_alone hl)
    dsimp only at h4 h5 h6
    cases r with
    | some r => cases h4
    | none =>
      cases z' with
      | none => cases h6
      | some z' =>
        simp only [Option.map_some, Option.some.injEq] at h6
        subst h6 h5
        refine ⟨_, h1, .zlib _ _ _ h2 h3, ?_⟩
        have := size.toInt_lt
        omega

theorem matches_seen {β : Type} {R : GoStr × List UInt8 → β → Prop} {bs : List Block} {ys : List β}
    (h : Matches R (bs.map Seen) ys) : Matches (fun b y => R (Seen b) y) bs ys := by
  induction bs generalizing ys with
  | nil => cases h; exact .nil
  | cons b bs ih =>
    rw [List.map_cons] at h
    cases h with
    | cons h1 h2 => exact .cons h1 (ih h2)

theorem matches_imp {α β : Type} {R S : α → β → Prop} {xs : List α} {ys : List β} (h : Matches R xs ys)
    (hi : ∀ x ∈ xs, ∀ y, R x y → S x y) : Matches S xs ys := by
  induction h with
  | nil => exact .nil
  | cons h _ ih => exact .cons (hi _ (by simp) _ h) (ih fun x hx => hi x (by simp [hx]))

theorem kinds_block {inflate : Inflate} {xs : List (GoStr × List UInt8)} {ys : List (Option PrimitiveBlock)}
    (h : Matches (HasBlock inflate) xs ys) : ∀ x ∈ xs, x.1 = osmHeader ∨ x.1 = osmData := by
  induction h with
  | nil => intro x hx; cases hx
  | cons h _ ih =>
    intro x hx
    rcases List.mem_cons.1 hx with rfl | hx
    · cases h
      · exact .inl rfl
      · exact .inr rfl
    · exact ih x hx

theorem kinds_content {inflate : Inflate} {xs : List (GoStr × List UInt8)} {ys : List Content}
    (h : Matches (IsContent inflate) xs ys) : ∀ x ∈ xs, x.1 = osmHeader ∨ x.1 = osmData := by
  induction h with
  | nil => intro x hx; cases hx
  | cons h _ ih =>
    intro x hx
    rcases List.mem_cons.1 hx with rfl | hx
    · cases h
      · exact .inl rfl
      · exact .inr rfl
    · exact ih x hx

theorem header_not_data : osmHeader ≠ osmData := by decide

theorem sound_block {inflate : Inflate} {b : Block} {y : Option PrimitiveBlock} (hl : b.Data.bytes.length < 2 ^ 63)
    (h : HasBlock inflate (Seen b) y) : SoundBlock inflate b y := by
  obtain ⟨i, ⟨bytes, spare⟩, kind⟩ := b
  unfold Seen at h
  dsimp only at h hl
  cases h with
  | header bs => exact .other _ header_not_data
  | data bs p full hp hb =>
    obtain ⟨blob, h1, h2, h3⟩ := isPayload_read hp hl
    obtain ⟨part, h4, _, h5⟩ := read_block waysDecoded hb [] (fits_alone h3)
    exact .data _ blob p part full rfl h1 h2 (read_block_all hb [] (fits_alone h3)) h4 h5

/-- A conforming file is a source with complete sections: what is proved of these holds of conforming files. -/
theorem sound_of {inflate : Inflate} {file : List UInt8} {blocks : List (Option PrimitiveBlock)}
    (h : IsOsmFile inflate file blocks) (hl : file.length < 2 ^ 63) (hne : file ≠ []) : SoundSource inflate file blocks := by
  obtain ⟨xs, h1, h2⟩ := h
  obtain ⟨bs, h3, rfl⟩ := split_of h1 hl hne (kinds_block h2)
  refine ⟨bs, h3, matches_imp (matches_seen h2) ?_⟩
  intro b hb y hy
  have := (Rewrite.split_blocks hl h3).2 b hb
  exact sound_block (by omega) hy

theorem content_has {inflate : Inflate} {b : Block} {c : Content} (hl : b.Data.bytes.length < 2 ^ 63)
    (h : IsContent inflate (Seen b) c) : HasContent inflate readAll b.Kind b.Data.bytes c := by
  obtain ⟨i, ⟨bytes, spare⟩, kind⟩ := b
  unfold Seen at h
  dsimp only at h hl
  cases h with
  | header bs => exact ⟨rfl, rfl, header_not_data⟩
  | data bs p full hp hb =>
    obtain ⟨blob, h1, h2, h3⟩ := isPayload_read hp hl
    have h4 := read_block_all hb [] (fits_alone h3)
    have := reads_of_bare h1 h2 h4
    rw [trim_readAll (readBlock_shape _ _ _ h4)] at this
    exact ⟨rfl, this⟩

theorem has_of {inflate : Inflate} {file : List UInt8} {cs : List Content}
    (h : IsOsmContents inflate file cs) (hl : file.length < 2 ^ 63) (hne : file ≠ []) : FileHas inflate readAll file cs := by
  obtain ⟨xs, h1, h2⟩ := h
  obtain ⟨bs, h3, rfl⟩ := split_of h1 hl hne (kinds_content h2)
  refine ⟨bs, h3, matches_imp (matches_seen h2) ?_⟩
  intro b hb y hy
  have := (Rewrite.split_blocks hl h3).2 b hb
  exact content_has (by omega) hy

/-! ### What is in a file is determined by its bytes -/

theorem matches_unique {α β : Type} {R : α → β → Prop} {xs : List α} {ys zs : List β} (h1 : Matches R xs ys)
    (h2 : Matches R xs zs) (hu : ∀ x ∈ xs, ∀ y z, R x y → R x z → y = z) : ys = zs := by
  induction h1 generalizing zs with
  | nil => cases h2; rfl
  | cons h _ ih =>
    cases h2 with
    | cons h' h2 => rw [hu _ (by simp) _ _ h h', ih h2 fun x hx => hu x (by simp [hx])]

theorem payload_unique {inflate : Inflate} {b : Blob} {p q : List UInt8} (h1 : Payload inflate b p) (h2 : Payload inflate b q) :
    p = q := by
  cases h1 with
  | raw r size z => cases h2 with | raw => rfl
  | zlib z size p hi hs =>
    cases h2 with
    | zlib _ _ _ hi' _ => rw [hi] at hi'; cases hi'; rfl

theorem sourceBlock_unique {inflate : Inflate} {b : Block} {x y : Option PrimitiveBlock} (h1 : SourceBlock inflate b x)
    (h2 : SourceBlock inflate b y) : x = y := by
  cases h1 with
  | other hk =>
    cases h2 with
    | other => rfl
    | data _ _ _ hk' => exact absurd hk' hk
  | data blob p full hk hb hp hf =>
    cases h2 with
    | other hk' => exact absurd hk hk'
    | data blob' p' full' _ hb' hp' hf' =>
      rw [hb] at hb'
      cases hb'
      rw [payload_unique hp hp'] at hf
      rw [hf] at hf'
      cases hf'
      rfl

theorem source_unique {inflate : Inflate} {file : List UInt8} {xs ys : List (Option PrimitiveBlock)} (h1 : Source inflate file xs)
    (h2 : Source inflate file ys) : xs = ys := by
  obtain ⟨bs, a1, a2⟩ := h1
  obtain ⟨bs', b1, b2⟩ := h2
  rw [a1] at b1
  cases b1
  exact matches_unique a2 b2 fun _ _ _ _ => sourceBlock_unique

theorem hasContent_unique {inflate : Inflate} {o : PBReader} {kind : GoStr} {bytes : List UInt8} {c d : Content}
    (hl : bytes.length < 2 ^ 63) (h1 : HasContent inflate o kind bytes c) (h2 : HasContent inflate o kind bytes d) : c = d := by
  cases c with
  | other k bs =>
    obtain ⟨rfl, rfl, h⟩ := h1
    cases d with
    | other k' bs' => obtain ⟨rfl, rfl, _⟩ := h2; rfl
    | data b => exact absurd h2.1 h
  | data b =>
    cases d with
    | other k' bs' => exact absurd h1.1 h2.2.2
    | data b' =>
      obtain ⟨raw, pb, r1, r2, r3⟩ := h1.2 0 [] ⟨[], fun _ => ⟨0, true⟩⟩ (fits_alone hl) (by simp)
      obtain ⟨raw', pb', r1', r2', r3'⟩ := h2.2 0 [] ⟨[], fun _ => ⟨0, true⟩⟩ (fits_alone hl) (by simp)
      rw [r1] at r1'
      cases r1'
      rw [r2] at r2'
      cases r2'
      rw [← r3, ← r3']

theorem fileHas_unique {inflate : Inflate} {o : PBReader} {file : List UInt8} (hl : file.length < 2 ^ 63) {cs ds : List Content}
    (h1 : FileHas inflate o file cs) (h2 : FileHas inflate o file ds) : cs = ds := by
  obtain ⟨bs, a1, a2⟩ := h1
  obtain ⟨bs', b1, b2⟩ := h2
  rw [a1] at b1
  cases b1
  refine matches_unique a2 b2 fun b hb _ _ => hasContent_unique ?_
  have := (Rewrite.split_blocks hl a1).2 b hb
  omega

/-! ### rewritenodes -/

theorem matches_map {α β γ δ : Type} {R : α → β → Prop} {S : γ → δ → Prop} {f : α → γ} {g : β → δ}
    (h : ∀ a b, R a b → S (f a) (g b)) {xs : List α} {ys : List β} (hm : Matches R xs ys) :
    Matches S (xs.map f) (ys.map g) := by
  induction hm with
  | nil => exact .nil
  | cons h1 _ ih => exact .cons (h _ _ h1) ih

theorem shows_mapRefs {b c : PrimitiveBlock} (f : Int64 → Int64) (h : ShowsBlock waysDecoded b c) :
    ShowsBlock waysDecoded (mapRefs f b) (mapRefs f c) := by
  refine ⟨h.table, ?_, h.numbers, h.full⟩
  unfold mapRefs
  refine matches_map (fun g c hg => ?_) h.groups
  refine ⟨hg.dense, ?_, hg.relations, hg.full⟩
  obtain ⟨h1, h2⟩ := hg.ways
  exact ⟨h1, by rw [h2]⟩

/-- What the worker sends on conforms if what it got did. -/
theorem rewriteWork_isBlock (inflate : Inflate) (sched : Block → Sched) (hsched : ∀ b, (sched b).pooled.length < 2 ^ 63)
    {si : NodeIndex.SubIdx} (hw : WellFormedSub si) {b : Block} (hf : b.Data.Fits) {y : Option PrimitiveBlock}
    (hb : HasBlock inflate (Seen b) y) {x : Rewrite.Out}
    (hx : Rewrite.rewriteWork inflate sched si b = .ok x) (hxl : x.2.length < 2 ^ 63) : ∃ z, HasBlock inflate x z := by
  obtain ⟨i, ⟨bytes, spare⟩, kind⟩ := b
  unfold Seen at hb
  dsimp only at hb
  have hl : bytes.length < 2 ^ 63 := by unfold Slice.Fits at hf; dsimp only at hf; omega
  unfold Rewrite.rewriteWork at hx
  cases hb with
  | header bs =>
    rw [if_pos header_not_data] at hx
    cases hx
    exact ⟨_, .header _⟩
  | data bs p full hp hb =>
    rw [if_neg (by simp)] at hx
    obtain ⟨blob, h1, h2, h3⟩ := isPayload_read hp hl
    obtain ⟨blob', g1, g2⟩ := grows_blob (s := ⟨bytes, []⟩) (t := ⟨bytes, spare⟩) ⟨rfl, spare, rfl⟩ _ h1
    obtain ⟨raw, g3, g4, g5⟩ := payload_raw (sched ⟨i, ⟨bytes, spare⟩, osmData⟩) (payload_trim g2 h2)
    have hrf : raw.Fits := by
      unfold Slice.Fits
      rcases g5 with ⟨r, e1, rfl⟩ | g5
      · exact (readBlob_fits hf g1).1 raw e1
      · rw [g4, g5]
        have := hsched ⟨i, ⟨bytes, spare⟩, osmData⟩
        unfold poolBuffer
        split
        · simp; omega
        · exact this
    have e1 : rawOf inflate (sched ⟨i, ⟨bytes, spare⟩, osmData⟩) ⟨i, ⟨bytes, spare⟩, osmData⟩ = .ok raw := by
      unfold rawOf
      dsimp only
      rw [g1]
      exact g3
    obtain ⟨raw, sp⟩ := raw
    dsimp only at g4
    subst g4
    obtain ⟨pb, k1, k2, _⟩ := read_block Rewrite.reader hb sp hrf
    rw [e1, Res.ok_bind, k1, Res.ok_bind] at hx
    unfold Rewrite.rewriteDecoded at hx
    split at hx
    · cases hx
      exact ⟨_, .data _ _ _ hp hb⟩
    · obtain ⟨out, k3, hx⟩ := Res.bind_eq_ok.1 hx
      cases hx
      rw [Rewrite.rewriteBlock_eq hw] at k3
      obtain ⟨q, q1, q2, q3⟩ := write_blob_func Blob.zero (block_embSpec _) k3 hxl
      exact ⟨_, .data _ q _ (.inl ⟨_, q3⟩) (write_block (shows_mapRefs _ k2) q1 (by omega))⟩

/-- A file that conforms, with content that a pass understands. -/
def ConfHas (inflate : Inflate) (file : List UInt8) (cs : List Content) : Prop :=
  Rewrite.SoundHas inflate file cs ∧ ∃ blocks, IsOsmFile inflate file blocks

theorem works_isBlock (inflate : Inflate) (sched : Block → Sched) (hsched : ∀ b, (sched b).pooled.length < 2 ^ 63)
    {si : NodeIndex.SubIdx} (hw : WellFormedSub si) {bs : List Block} {ys : List (Option PrimitiveBlock)}
    (h : Matches (fun b y => HasBlock inflate (Seen b) y) bs ys) (hf : ∀ b ∈ bs, b.Data.Fits) : ∀ {xs : List Rewrite.Out},
    mapRes (Rewrite.rewriteWork inflate sched si) bs = .ok xs → (∀ x ∈ xs, x.2.length < 2 ^ 63) →
    ∃ zs, Matches (HasBlock inflate) xs zs := by
  induction h with
  | nil => intro xs hx _; cases hx; exact ⟨[], .nil⟩
  | cons h _ ih =>
    intro xs hx hl
    unfold mapRes at hx
    obtain ⟨x, e1, hx⟩ := Res.bind_eq_ok.1 hx
    obtain ⟨ys, e2, hx⟩ := Res.bind_eq_ok.1 hx
    cases hx
    obtain ⟨z, hz⟩ := rewriteWork_isBlock inflate sched hsched hw (hf _ (by simp)) h e1 (hl _ (by simp))
    obtain ⟨zs, hzs⟩ := ih (fun b hb => hf b (by simp [hb])) e2 fun x hx => hl x (by simp [hx])
    exact ⟨z :: zs, .cons hz hzs⟩

/-- One pass. -/
theorem pass_conf (inflate : Inflate) (sched : Block → Sched) (hsched : ∀ b, (sched b).pooled.length < 2 ^ 63)
    {si : NodeIndex.SubIdx} (hw : WellFormedSub si) {file : List UInt8} (hl : file.length < 2 ^ 63) {cs : List Content}
    (hc : ConfHas inflate file cs) (hsm : SmallFile cs) (inp out : String) (fs : FS) (hin : Holds fs inp file) :
    ∃ fs' file', (Rewrite.pass inflate sched si inp out).exec fs = .ok ((), fs') ∧ Holds fs' out file' ∧ file'.length < 2 ^ 63 ∧
      ConfHas inflate file' (cs.map (·.mapRefs (locate si.element si.locations))) ∧
      ∀ g, g ≠ out → fs' g = fs g := by
  obtain ⟨hs, blocks, xs0, x1, x2⟩ := hc
  have hc' := Rewrite.soundHas_has hs
  obtain ⟨bs, h1, h2⟩ := hs
  obtain ⟨bs', h1', h3⟩ := hc'
  rw [h1] at h1'
  cases h1'
  have hne : file ≠ [] := ((split_iff file hl bs).1 h1).1
  obtain ⟨bs', h1', rfl⟩ := split_of x1 hl hne (kinds_block x2)
  rw [h1] at h1'
  cases h1'
  obtain ⟨hbne, hb⟩ := Rewrite.split_blocks hl h1
  obtain ⟨xs, e3⟩ := Rewrite.mapRes_all (f := Rewrite.rewriteWork inflate sched si) (as := bs) (by
    intro b hb'
    obtain ⟨c, hc', hcc⟩ := Rewrite.matches_mem h3 b hb'
    exact Rewrite.work_small inflate sched hsched hw (hb b hb').1 hcc (by rintro d rfl; exact hsm.1 d hc'))
  obtain ⟨m1, m2⟩ := Rewrite.works_content inflate sched hsched hw bs cs xs hb h3 e3
  obtain ⟨fs3, o1, o2, o3⟩ := Rewrite.output_exec out xs fs
  have hlen : (fileOf xs).length < 2 ^ 63 := by
    have a1 := Rewrite.fileOf_length xs m1
    have a2 := Rewrite.each_length m2
    have a3 := hsm.2
    rw [List.length_map] at a2
    have : xs.length * (2 ^ 31 + 68) ≤ 2 ^ 31 * (2 ^ 31 + 68) := Nat.mul_le_mul_right _ (by omega)
    omega
  obtain ⟨zs, hz⟩ := works_isBlock inflate sched hsched hw (matches_seen x2) (fun b hb' => (hb b hb').1) e3
    (fun x hx => by have := (m1 x hx).2; omega)
  refine ⟨fs3, fileOf xs, ?_, o2, hlen, ⟨Rewrite.fileOf_sound inflate ?_ m1 hlen (Rewrite.works_sound inflate sched hw h2 e3),
    zs, xs, fileOf_isFile xs m1, hz⟩, o3⟩
  · obtain ⟨pos, hin⟩ := hin
    unfold Rewrite.pass
    rw [Prog.exec_bind, exec_OsOpen_some hin, Res.ok_bind, Prog.exec_bind, exec_MMapMap]
    dsimp only
    rw [hin]
    dsimp only
    rw [if_neg hne, Res.ok_bind, Prog.exec_bind, Prog.exec_lift, h1, Res.ok_bind, Res.ok_bind, Prog.exec_bind, Prog.exec_lift,
      e3, Res.ok_bind, Res.ok_bind]
    exact o1
  · rintro rfl
    have := Rewrite.mapRes_len e3
    exact hbne (List.length_eq_zero_iff.1 this.symm)

end Osm.Format
