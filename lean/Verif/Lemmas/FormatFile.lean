import Verif.Lemmas.FormatWrite
import Verif.Lemmas.Whole

/-! # Files as the format has them -/

namespace Osm.Format
open Osm Osm.Spec Osm.Spec.Proto Osm.Spec.OsmFormat Osm.Pb Osm.T Osm.Pbf

/-! ### Blobs and their headers, written -/

theorem write_header (bh : BlobHeader) (h : bh.Kind.length < 2 ^ 63) : IsBlobHeader (blobHeaderBytes bh) bh.Kind bh.DataSize := by
  refine ⟨(if bh.Kind ≠ [] then [(1, .bytes bh.Kind)] else []) ++
    (if bh.DataSize ≠ 0 then [(3, .num bh.DataSize.toInt64.toUInt64.toNat)] else []), ?_, ?_, ?_, ?_⟩
  · unfold blobHeaderBytes
    refine isMessage_append ?_ ?_
    · split
      · exact isMessage_one (isField_buf (by decide) h)
      · exact .nil
    · split
      · exact isMessage_one (isField_var (by decide) _)
      · exact .nil
  · intro f hf
    rw [List.mem_append] at hf
    rcases hf with hf | hf
    all_goals
      split at hf
      · simp at hf; subst hf; simp
      · simp at hf
  · rw [items_append]
    by_cases h1 : bh.Kind = [] <;> by_cases h2 : bh.DataSize = 0 <;> simp [h1, h2, items]
  · unfold scalar
    rw [nums_append]
    by_cases h1 : bh.Kind = [] <;> by_cases h2 : bh.DataSize = 0 <;> simp [h1, h2, nums, ofNat_toInt32]

theorem isBlob_tail (b : Blob) (hb : (blobTailBytes b).length < 2 ^ 63) : ∃ fs, IsMessage (blobTailBytes b) fs ∧ Only [2] [3] fs ∧
    items 1 fs = [] ∧ nums 2 fs = (b.RawSize.map fun n => n.toInt64.toUInt64.toNat).toList ∧
    items 3 fs = (nonEmpty b.ZLibData).toList := by
  unfold blobTailBytes at hb ⊢
  refine ⟨(match b.RawSize with | some n => [(2, .num n.toInt64.toUInt64.toNat)] | none => []) ++
    (match nonEmpty b.ZLibData with | some p => [(3, .bytes p)] | none => []), ?_, ?_, ?_, ?_, ?_⟩
  · refine isMessage_append ?_ ?_
    · cases b.RawSize with
      | none => exact .nil
      | some n => exact isMessage_one (isField_var (by decide) _)
    · revert hb
      cases nonEmpty b.ZLibData with
      | none => intro _; exact .nil
      | some p =>
        intro hb
        refine isMessage_one (isField_buf (by decide) ?_)
        simp [bufField] at hb
        omega
  · intro f hf
    rw [List.mem_append] at hf
    rcases hf with hf | hf
    · split at hf
      · simp at hf; subst hf; simp
      · simp at hf
    · split at hf
      · simp at hf; subst hf; simp
      · simp at hf
  · rw [items_append]
    cases b.RawSize <;> cases nonEmpty b.ZLibData <;> simp [items]
  · rw [nums_append]
    cases b.RawSize <;> cases nonEmpty b.ZLibData <;> simp [nums]
  · rw [items_append]
    cases b.RawSize <;> cases nonEmpty b.ZLibData <;> simp [items]

theorem isBlob_of {b : Blob} {pre : List UInt8} {raw : Option (List UInt8)}
    (hpre : IsMessage pre (raw.map fun p => ((1, .bytes p) : Field)).toList)
    (hb : (pre ++ blobTailBytes b).length < 2 ^ 63) :
    IsBlob (pre ++ blobTailBytes b) raw b.RawSize (nonEmpty b.ZLibData) := by
  rw [List.length_append] at hb
  obtain ⟨fs, h1, h2, h3, h4, h5⟩ := isBlob_tail b (by omega)
  refine ⟨_, isMessage_append hpre h1, ?_, ?_, ?_, ?_⟩
  · intro f hf
    rw [List.mem_append] at hf
    rcases hf with hf | hf
    · cases raw <;> simp at hf
      subst hf
      simp
    · have := h2 f hf
      match f, this with
      | (j, .bytes b), this => simp at this ⊢; omega
      | (j, .num n), this => simpa using this
  · rw [items_append, h3]
    cases raw <;> simp [items]
  · rw [nums_append, h4]
    cases raw <;> cases b.RawSize <;> simp [nums, ofNat_toInt32]
  · rw [items_append, h5]
    cases raw <;> cases nonEmpty b.ZLibData <;> simp [items]

theorem write_blob_none (b : Blob) {out : List UInt8} (h : b.Write none [] = .ok out) (hl : out.length < 2 ^ 63) :
    IsBlob out (nonEmpty b.Raw) b.RawSize (nonEmpty b.ZLibData) := by
  unfold Blob.Write at h
  rw [blob_writeRaw_none, Res.ok_bind, blob_writeTail_eq] at h
  simp only [List.nil_append, Res.ok.injEq] at h
  subst h
  refine isBlob_of ?_ hl
  revert hl
  cases nonEmpty b.Raw with
  | none => intro _; exact .nil
  | some p =>
    intro hl
    refine isMessage_one (isField_buf (by decide) ?_)
    simp [bufField] at hl
    omega

theorem write_blob_func (b : Blob) {f : Embedder} {o : Option (List UInt8)} (hf : EmbSpec f o) {out : List UInt8}
    (h : b.Write (some f) [] = .ok out) (hl : out.length < 2 ^ 63) :
    ∃ p, o = some p ∧ p.length < 268435456 ∧ IsBlob out (some p) b.RawSize (nonEmpty b.ZLibData) := by
  have hw := embSpec_embed268435456 hf 1
  unfold Blob.Write Blob.writeRaw at h
  dsimp only at h
  rw [hw []] at h
  cases o with
  | none => simp [optField, appendRes] at h
  | some p =>
    by_cases hp : p.length < 268435456
    · simp only [optField, if_pos hp, appendRes, Res.ok_bind, blob_writeTail_eq, List.nil_append, Res.ok.injEq] at h
      refine ⟨p, rfl, hp, ?_⟩
      subst h
      exact isBlob_of (isMessage_one (isField_fix4 (by decide) hp)) hl
    · simp [optField, if_neg hp, appendRes] at h

/-! ### Framing -/

theorem be32_fold (n : Nat) (h : n < 2 ^ 32) : (be32 (UInt32.ofNat n)).foldl (fun n b => 256 * n + b.toNat) 0 = n := by
  have key : ∀ s, s < 32 → (UInt32.ofNat n >>> UInt32.ofNat s).toUInt8.toNat = n / 2 ^ s % 256 := by
    intro s hs
    rw [UInt32.toNat_toUInt8, UInt32.toNat_shiftRight, UInt32.toNat_ofNat', Nat.mod_eq_of_lt h, UInt32.toNat_ofNat',
      Nat.mod_eq_of_lt (show s < 2 ^ 32 by omega), Nat.mod_eq_of_lt hs, Nat.shiftRight_eq_div_pow]
  have k0 := key 0 (by omega)
  rw [show UInt32.ofNat n >>> UInt32.ofNat 0 = UInt32.ofNat n by
    apply UInt32.toNat_inj.1; rw [UInt32.toNat_shiftRight]; simp] at k0
  have k1 := key 8 (by omega)
  have k2 := key 16 (by omega)
  have k3 := key 24 (by omega)
  unfold be32
  simp only [List.foldl_cons, List.foldl_nil]
  rw [k0]
  rw [show (8 : UInt32) = UInt32.ofNat 8 from rfl, show (16 : UInt32) = UInt32.ofNat 16 from rfl,
    show (24 : UInt32) = UInt32.ofNat 24 from rfl, k1, k2, k3]
  omega

theorem be32_of_fold {size : List UInt8} (h : size.length = 4) {n : Nat}
    (hn : size.foldl (fun n b => 256 * n + b.toNat) 0 = n) : n < 2 ^ 32 ∧ be32 (UInt32.ofNat n) = size := by
  match size, h with
  | [a, b, c, d], _ =>
    simp only [List.foldl_cons, List.foldl_nil] at hn
    have ha := a.toNat_lt
    have hb := b.toNat_lt
    have hc := c.toNat_lt
    have hd := d.toNat_lt
    have hlt : n < 2 ^ 32 := by omega
    refine ⟨hlt, ?_⟩
    have key : ∀ s, s < 32 → (UInt32.ofNat n >>> UInt32.ofNat s).toUInt8.toNat = n / 2 ^ s % 256 := by
      intro s hs
      rw [UInt32.toNat_toUInt8, UInt32.toNat_shiftRight, UInt32.toNat_ofNat', Nat.mod_eq_of_lt hlt, UInt32.toNat_ofNat',
        Nat.mod_eq_of_lt (show s < 2 ^ 32 by omega), Nat.mod_eq_of_lt hs, Nat.shiftRight_eq_div_pow]
    have k0 := key 0 (by omega)
    rw [show UInt32.ofNat n >>> UInt32.ofNat 0 = UInt32.ofNat n by
      apply UInt32.toNat_inj.1; rw [UInt32.toNat_shiftRight]; simp] at k0
    have k1 := key 8 (by omega)
    have k2 := key 16 (by omega)
    have k3 := key 24 (by omega)
    unfold be32
    rw [show (8 : UInt32) = UInt32.ofNat 8 from rfl, show (16 : UInt32) = UInt32.ofNat 16 from rfl,
      show (24 : UInt32) = UInt32.ofNat 24 from rfl]
    simp only [List.cons.injEq, and_true]
    refine ⟨?_, ?_, ?_, ?_⟩ <;> apply UInt8.toNat_inj.1
    · rw [k3]; omega
    · rw [k2]; omega
    · rw [k1]; omega
    · rw [k0]; omega

theorem frame_eq (kind : GoStr) (blob : List UInt8) : frame kind blob =
    be32 (UInt32.ofNat (blobHeaderBytes ⟨kind, (UInt32.ofNat blob.length).toInt32⟩).length) ++
      blobHeaderBytes ⟨kind, (UInt32.ofNat blob.length).toInt32⟩ ++ blob := by
  unfold frame
  simp only [blobHeader_write_eq]
  have e : ∀ (y : List UInt8), ([0, 0, 0, 0] ++ y).length - 4 = y.length := by intro y; simp
  have e2 : ∀ (y : List UInt8), ([0, 0, 0, 0] ++ y).drop 4 = y := by intro y; rfl
  rw [e, e2]

theorem toInt32_len {n : Nat} (h : n < 2 ^ 31) : (UInt32.ofNat n).toInt32.toInt = n := by
  have : (UInt32.ofNat n).toInt32 = Int32.ofNat n := rfl
  rw [this]
  exact Int32.toInt_ofNat_of_lt h

theorem header_short {bh : BlobHeader} (h : bh.Kind.length < 2 ^ 31) : (blobHeaderBytes bh).length < 2 ^ 32 := by
  unfold blobHeaderBytes
  rw [List.length_append]
  have t1 : (tagBytes 1 PbFixedBytes).length ≤ 10 := leb128_length_le10 (by decide)
  have t3 : (tagBytes 3 PbVarInt).length ≤ 10 := leb128_length_le10 (by decide)
  have l1 : ∀ v : UInt64, (leb128 v.toNat).length ≤ 10 := fun v => leb128_length_le10 v.toNat_lt
  have a := l1 (UInt64.ofNat bh.Kind.length)
  have b := l1 bh.DataSize.toInt64.toUInt64
  split <;> split <;> simp only [bufField, varField, List.length_append, List.length_nil] <;> omega

/-- What is written is a file. -/
theorem fileOf_isFile (xs : List (GoStr × List UInt8)) (h : ∀ x ∈ xs, Writable x) : IsFile (fileOf xs) xs := by
  induction xs with
  | nil => exact .nil
  | cons x xs ih =>
    obtain ⟨h1, h2⟩ := h x (by simp)
    have hk : x.1.length < 2 ^ 31 := by rcases h1 with e | e <;> rw [e] <;> decide
    unfold fileOf
    rw [List.flatMap_cons, frame_eq]
    refine .cons _ _ x.2 _ x.1 _ xs (be32_length _) (be32_fold _ (header_short hk)) (write_header _ (Nat.lt_trans hk (by decide)))
      (toInt32_len h2) (ih fun y hy => h y (by simp [hy]))

/-- A file is split into its blobs. -/
theorem blockFile_of {file : List UInt8} {xs : List (GoStr × List UInt8)} (h : IsFile file xs) (hl : file.length < 2 ^ 63)
    (hk : ∀ x ∈ xs, x.1 = osmHeader ∨ x.1 = osmData) : ∀ i, ∃ bs, BlockFile i file bs ∧ bs.map Seen = xs := by
  induction h with
  | nil => intro i; exact ⟨[], .nil i, rfl⟩
  | cons size header blob rest kind dataSize xs h1 h2 h3 h4 _ ih =>
    intro i
    simp only [List.length_append] at hl
    obtain ⟨bs, h5, h6⟩ := ih (by omega) (fun x hx => hk x (by simp [hx])) (i + 1)
    obtain ⟨h7, h8⟩ := be32_of_fold h1 h2
    have hr := read_header h3 (blob ++ rest) (by unfold Slice.Fits; simp only [List.length_append]; omega)
    have := BlockFile.cons i header blob rest kind dataSize bs h7 hr (hk (kind, blob) (by simp)) h4 h5
    rw [h8] at this
    exact ⟨_, this, by rw [List.map_cons, h6]; rfl⟩

theorem split_of {file : List UInt8} {xs : List (GoStr × List UInt8)} (h : IsFile file xs) (hl : file.length < 2 ^ 63)
    (hne : file ≠ []) (hk : ∀ x ∈ xs, x.1 = osmHeader ∨ x.1 = osmData) : ∃ bs, split file = .ok bs ∧ bs.map Seen = xs := by
  obtain ⟨bs, h1, h2⟩ := blockFile_of h hl hk 0
  exact ⟨bs, (split_iff file hl bs).2 ⟨hne, h1⟩, h2⟩

end Osm.Format
