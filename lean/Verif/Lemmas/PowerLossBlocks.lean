import Verif.Spec.PowerLossBlocks
import Verif.Lemmas.PowerLoss
import Verif.Lemmas.Pbf
import Verif.Lemmas.Interrupt

/-! # Files of blocks of which pages are lost -/

namespace Osm.PowerLoss
open Osm Osm.Spec Osm.T Osm.Pbf Osm.Rewrite

/-- Some blocks, and perhaps the header of the next one. -/
def Part (xs : List (GoStr × List UInt8)) (x : List UInt8) : Prop :=
  ∃ ys zs, xs = ys ++ zs ∧ (x = fileOf ys ∨ ∃ z rest, zs = z :: rest ∧ x = fileOf ys ++ frameHeader z.1 z.2)

theorem fileOf_append (xs ys : List (GoStr × List UInt8)) : fileOf (xs ++ ys) = fileOf xs ++ fileOf ys := by
  simp [fileOf]

theorem fileOf_cons (x : GoStr × List UInt8) (xs : List (GoStr × List UInt8)) :
    fileOf (x :: xs) = frameHeader x.1 x.2 ++ (x.2 ++ fileOf xs) := by
  rw [← List.append_assoc]; rfl

theorem frameHeader_eq (kind : GoStr) (data : List UInt8) :
    frameHeader kind data = be32 (UInt32.ofNat (headerOf kind data).length) ++ headerOf kind data :=
  List.append_cancel_right (bs := data) (by rw [← Pbf.frame_eq, ← Rewrite.frame_eq])

theorem frameHeader_length (kind : GoStr) (data : List UInt8) :
    (frameHeader kind data).length = 4 + (headerOf kind data).length := by
  rw [frameHeader_eq, List.length_append, be32_length]

theorem part_prefix {xs : List (GoStr × List UInt8)} {x : List UInt8} (h : Part xs x) : x <+: fileOf xs := by
  obtain ⟨ys, zs, rfl, h | ⟨z, rest, rfl, h⟩⟩ := h
  · exact ⟨fileOf zs, by rw [h, fileOf_append]⟩
  · exact ⟨z.2 ++ fileOf rest, by rw [h, fileOf_append, fileOf_cons, List.append_assoc]⟩

/-- A part does not end inside a header. -/
theorem part_length {xs ys zs : List (GoStr × List UInt8)} {x : List UInt8} (h : Part xs x) (hs : xs = ys ++ zs) :
    x.length ≤ (fileOf ys).length ∨
    ∃ z rest, zs = z :: rest ∧ (fileOf ys).length + (frameHeader z.1 z.2).length ≤ x.length := by
  obtain ⟨as, bs, hab, h⟩ := h
  rw [hs] at hab
  rcases List.append_eq_append_iff.1 hab with ⟨c, h1, h2⟩ | ⟨c, h1, h2⟩
  · subst h1
    cases c with
    | nil =>
      rcases h with h | ⟨z, rest, hz, h⟩
      · left; rw [h, List.append_nil]; exact Nat.le_refl _
      · right
        refine ⟨z, rest, by rw [h2, List.nil_append, hz], ?_⟩
        rw [h, List.append_nil, List.length_append]; exact Nat.le_refl _
    | cons z c =>
      right
      refine ⟨z, c ++ bs, by rw [h2]; rfl, ?_⟩
      have : (fileOf (ys ++ z :: c)).length ≤ x.length := by
        rcases h with h | ⟨z, rest, hz, h⟩
        · rw [h]; exact Nat.le_refl _
        · rw [h, List.length_append]; omega
      rw [fileOf_append, fileOf_cons] at this
      simp only [List.length_append] at this
      omega
  · subst h1
    rw [fileOf_append, List.length_append]
    rcases h with h | ⟨z, rest, hz, h⟩
    · left; rw [h]; omega
    · rw [h, List.length_append]
      rw [hz] at h2
      cases c with
      | nil => exact .inr ⟨z, rest, by rw [h2]; rfl, by simp [fileOf]⟩
      | cons y c =>
        left
        obtain ⟨rfl, rfl⟩ : z = y ∧ rest = c ++ zs := by simpa using h2
        rw [fileOf_cons, List.length_append]
        omega

theorem getD_prefix {x y : List UInt8} (h : x <+: y) (i : Nat) (hi : i < y.length) :
    some (x.getD i 0) = some 0 ∨ some (x.getD i 0) = y[i]? := by
  obtain ⟨z, rfl⟩ := h
  rw [List.getD_eq_getElem?_getD]
  by_cases hx : i < x.length
  · right
    rw [List.getElem?_append_left hx, List.getElem?_eq_getElem hx]; rfl
  · left
    rw [List.getElem?_eq_none (by omega)]; rfl

/-- A beginning of the file at every moment: each byte is the one of the file, or zero, and there are not more. -/
theorem spoiled_prefix {page : Nat} {ops : List FsOp} {fs : FS} {f : String} {left final : List UInt8}
    (hm : ∀ x, Moment ops fs f x → x <+: final) (hp : AfterPowerLoss page ops fs f left) :
    left.length ≤ final.length ∧ ∀ i, i < left.length → left[i]? = some 0 ∨ left[i]? = final[i]? := by
  obtain ⟨⟨x, hx, hl⟩, hb⟩ := hp
  have hle : left.length ≤ final.length := by rw [hl]; exact (hm x hx).length_le
  refine ⟨hle, fun i hi => ?_⟩
  obtain ⟨y, hy, hyb⟩ := hb (i / page)
  rw [hyb i rfl hi]
  exact getD_prefix (hm y hy) i (by omega)

/-- Reading what is left, from the beginning of a block on. -/
theorem walk {page : Nat} {ops : List FsOp} {fs : FS} {f : String} {left : List UInt8} {xs : List (GoStr × List UInt8)}
    (hw : ∀ x ∈ xs, Writable x) (hm : ∀ x, Moment ops fs f x → Part xs x) (hp : AfterPowerLoss page ops fs f left)
    (ho : HeadersOnOnePage page xs) (hlen : left.length < 2 ^ 62) : ∀ (zs ys : List (GoStr × List UInt8)) (i : Nat) (bs : List Block),
    xs = ys ++ zs → (fileOf ys).length ≤ left.length → BlockFile i (left.drop (fileOf ys).length) bs →
    bs.length ≤ zs.length ∧ Matches SpoiledBlock bs (zs.take bs.length) := by
  have hsp := spoiled_prefix (fun x hx => part_prefix (hm x hx)) hp
  intro zs
  induction zs with
  | nil =>
    intro ys i bs hx hl hb
    rw [List.append_nil] at hx
    subst hx
    have : left.drop (fileOf xs).length = [] := List.drop_eq_nil_of_le hsp.1
    rw [this, blockFile_nil_iff] at hb
    subst hb
    exact ⟨Nat.le_refl _, .nil⟩
  | cons z zs ih =>
    intro ys i bs hx hl hb
    by_cases hend : left.length ≤ (fileOf ys).length
    · rw [List.drop_eq_nil_of_le hend, blockFile_nil_iff] at hb
      subst hb
      exact ⟨Nat.zero_le _, .nil⟩
    have hz : Writable z := hw z (by rw [hx]; simp)
    have hh64 := headerOf_length (data := z.2) hz.1
    have hfh := frameHeader_eq z.1 z.2
    have hhl := frameHeader_length z.1 z.2
    have hfl : (frame z.1 z.2).length = (frameHeader z.1 z.2).length + z.2.length := by
      rw [Rewrite.frame_eq, List.length_append]
    -- the file reaches beyond the header
    have hreach : (fileOf ys).length + (frameHeader z.1 z.2).length ≤ left.length := by
      obtain ⟨⟨x, hxm, hxl⟩, _⟩ := hp
      rcases part_length (hm x hxm) hx with h | ⟨z', rest, he, h⟩
      · omega
      · cases he; omega
    -- the page of the header
    obtain ⟨x, hxm, hxb⟩ := hp.2 ((fileOf ys).length / page)
    have hpage : ∀ j, j < (frameHeader z.1 z.2).length →
        left[(fileOf ys).length + j]? = some (x.getD ((fileOf ys).length + j) 0) := fun j hj =>
      hxb _ (ho ys z zs hx _ (by omega) (by omega)) (by omega)
    generalize hd : left.drop (fileOf ys).length = tail at hb
    have htl : tail.length = left.length - (fileOf ys).length := by rw [← hd, List.length_drop]
    have hti : ∀ j, tail[j]? = left[(fileOf ys).length + j]? := fun j => by rw [← hd, List.getElem?_drop]
    cases hb with
    | nil => simp at htl; omega
    | cons _ header data rest kind size bs hh hr hk hsz hrest =>
      rcases part_length (hm x hxm) hx with hno | ⟨z', rest', he, hyes⟩
      · -- the header is lost
        exfalso
        have hzero : ∀ j, j < 4 → (be32 (UInt32.ofNat header.length))[j]? = some 0 := by
          intro j hj
          have := hti j
          rw [hpage j (by omega), List.getD_eq_getElem?_getD, List.getElem?_eq_none (l := x) (by omega)] at this
          rw [List.append_assoc, List.append_assoc] at this
          rw [List.getElem?_append_left (by rw [be32_length]; exact hj)] at this
          exact this
        have h0 : be32 (UInt32.ofNat header.length) = be32 0 := by
          apply List.ext_getElem?
          intro j
          by_cases hj : j < 4
          · rw [hzero j hj]
            match j, hj with
            | 0, _ => rfl
            | 1, _ => rfl
            | 2, _ => rfl
            | 3, _ => rfl
          · rw [List.getElem?_eq_none (by rw [be32_length]; omega), List.getElem?_eq_none (by rw [be32_length]; omega)]
        have h0 := congrArg UInt32.toNat (be32_inj h0)
        rw [UInt32.toNat_ofNat', Nat.mod_eq_of_lt hh] at h0
        have : header = [] := List.eq_nil_of_length_eq_zero h0
        subst this
        have htot : (data ++ rest).length ≤ left.length := by
          simp only [List.length_append, be32_length] at htl ⊢
          omega
        have : ReadBlobHeader ⟨[], data ++ rest⟩ = .ok ⟨[], 0⟩ := by
          simpa [blobHeaderBytes] using blobHeader_read ⟨[], 0⟩ (data ++ rest) (by
            unfold Slice.Fits
            simp [blobHeaderBytes] at htot ⊢
            omega)
        rw [this] at hr
        cases hr
        rcases hk with h | h <;> exact absurd h (by decide)
      · cases he
        have hpre : x <+: fileOf ys ++ fileOf (z :: zs) := by
          rw [← fileOf_append, ← hx]; exact part_prefix (hm x hxm)
        generalize htg : be32 (UInt32.ofNat header.length) ++ header ++ data ++ rest = tail at htl hti
        have htake : tail.take (frameHeader z.1 z.2).length = frameHeader z.1 z.2 := by
          apply List.ext_getElem?
          intro j
          rw [List.getElem?_take]
          split
          · next hj =>
            rw [hti, hpage j hj]
            obtain ⟨more, hmore⟩ := hpre
            have h1 : x[(fileOf ys).length + j]? = (fileOf ys ++ fileOf (z :: zs))[(fileOf ys).length + j]? := by
              rw [← hmore, List.getElem?_append_left (by omega)]
            rw [List.getElem?_append_right (by omega), Nat.add_sub_cancel_left, fileOf_cons,
              List.getElem?_append_left hj] at h1
            rw [← h1, List.getD_eq_getElem?_getD, List.getElem?_eq_getElem (by omega)]
            rfl
          · next hj => rw [List.getElem?_eq_none (by omega)]
        have hsplit : be32 (UInt32.ofNat (headerOf z.1 z.2).length) ++ (headerOf z.1 z.2 ++ tail.drop (frameHeader z.1 z.2).length) =
            be32 (UInt32.ofNat header.length) ++ (header ++ (data ++ rest)) := by
          rw [← List.append_assoc, ← hfh]
          conv => lhs; lhs; rw [← htake]
          rw [List.take_append_drop, ← htg]
          simp only [List.append_assoc]
        obtain ⟨he, h2⟩ := append_split hsplit (by simp [be32_length])
        have he := be32_inj he
        have hln : (headerOf z.1 z.2).length = header.length := by
          have := congrArg UInt32.toNat he
          rw [UInt32.toNat_ofNat', UInt32.toNat_ofNat', Nat.mod_eq_of_lt hh, Nat.mod_eq_of_lt (by omega)] at this
          exact this
        obtain ⟨h3, h4⟩ := append_split h2 hln
        subst h3
        have htot : (data ++ rest).length ≤ left.length := by
          rw [← h4, List.length_drop]; omega
        rw [headerOf_read z.1 z.2 _ (by omega)] at hr
        cases hr
        have hdl : data.length = z.2.length := by
          have := size_toInt hz.2
          omega
        have hys : (fileOf (ys ++ [z])).length = (fileOf ys).length + (frameHeader z.1 z.2).length + z.2.length := by
          rw [fileOf_append]
          simp only [fileOf, List.flatMap_cons, List.flatMap_nil, List.append_nil, List.length_append, hfl]
          omega
        have hdata : ∀ j, j < data.length → data[j]? = left[(fileOf ys).length + (frameHeader z.1 z.2).length + j]? := by
          intro j hj
          have := congrArg (fun l => l[j]?) h4
          simp only [List.getElem?_drop] at this
          rw [List.getElem?_append_left hj, hti] at this
          rw [← this]
          congr 1
          omega
        have hrl : (data ++ rest).length = tail.length - (frameHeader z.1 z.2).length := by rw [← h4, List.length_drop]
        rw [List.length_append] at hrl
        have hrest' : rest = left.drop (fileOf (ys ++ [z])).length := by
          have h5 : rest = (data ++ rest).drop data.length := by simp
          rw [h5, ← h4, List.drop_drop, ← htg, ← hd, List.drop_drop, hys]
          congr 1
          omega
        rw [hrest'] at hrest
        obtain ⟨r1, r2⟩ := ih (ys ++ [z]) (i + 1) bs (by rw [hx]; simp) (by omega) hrest
        refine ⟨by simp only [List.length_cons]; omega, ?_⟩
        rw [List.length_cons, List.take_succ_cons]
        refine .cons ⟨rfl, hdl, fun j hj => ?_⟩ r2
        have hj : j < data.length := hj
        show data[j]? = some 0 ∨ data[j]? = z.2[j]?
        rw [hdata j hj]
        rcases hsp.2 ((fileOf ys).length + (frameHeader z.1 z.2).length + j) (by omega) with h | h
        · exact .inl h
        · right
          rw [h, hx, fileOf_append, fileOf_cons, List.getElem?_append_right (by omega),
            List.getElem?_append_right (by omega), List.getElem?_append_left (by omega)]
          congr 1
          omega

/-- What has been written to a new file at a moment. -/
theorem moment_created {f : String} {ps : List (List UInt8)} {fs : FS} {x : List UInt8} (hnew : fs f = none)
    (h : Moment (.create f :: ps.map (.write f)) fs f x) : ∃ j, x = (ps.take j).flatten := by
  obtain ⟨done, rest, pos, hs, h⟩ := h
  cases done with
  | nil => rw [show runOps [] fs = fs from rfl, hnew] at h; cases h
  | cons d ds =>
    rw [List.cons_append] at hs
    obtain ⟨rfl, hs2⟩ := List.cons_eq_cons.1 hs
    refine ⟨ds.length, ?_⟩
    have hds : ds = (ps.take ds.length).map (.write f) := by
      have := congrArg (List.take ds.length) hs2
      rw [List.take_left] at this
      rw [List.map_take, this]
    rw [hds, runOps_cons, run_pieces f _ ((FsOp.create f).run fs) ⟨[], 0⟩ (set_same _ _ _) (Nat.le_refl _)] at h
    simp only [FsOp.run, set_same, Option.map_some, Option.some.injEq] at h
    have := congrArg File.data h
    simpa [File.write] using this.symm

theorem part_pieces (xs : List (GoStr × List UInt8)) : ∀ j, Part xs (((Interrupt.blockPieces xs).take j).flatten) := by
  induction xs with
  | nil => exact fun j => ⟨[], [], rfl, .inl (by simp [Interrupt.blockPieces, fileOf])⟩
  | cons x xs ih =>
    intro j
    have e : Interrupt.blockPieces (x :: xs) = frameHeader x.1 x.2 :: x.2 :: Interrupt.blockPieces xs := by
      simp [Interrupt.blockPieces]
    match j with
    | 0 => exact ⟨[], x :: xs, rfl, .inl (by simp [fileOf])⟩
    | 1 => exact ⟨[], x :: xs, rfl, .inr ⟨x, xs, rfl, by rw [e]; simp [fileOf]⟩⟩
    | j + 2 =>
      obtain ⟨ys, zs, rfl, h⟩ := ih j
      refine ⟨x :: ys, zs, rfl, ?_⟩
      rw [e, List.take_succ_cons, List.take_succ_cons, List.flatten_cons, List.flatten_cons]
      rcases h with h | ⟨z, rest, rfl, h⟩
      · exact .inl (by rw [h, fileOf_cons])
      · exact .inr ⟨z, rest, rfl, by rw [h, fileOf_cons]; simp only [List.append_assoc]⟩

theorem part_frames (xs : List (GoStr × List UInt8)) (j : Nat) : Part xs ((xs.map fun x => frame x.1 x.2).take j).flatten :=
  ⟨xs.take j, xs.drop j, (List.take_append_drop _ _).symm, .inl (by rw [← List.map_take, ← List.flatMap_def]; rfl)⟩

/-- What is read, if anything is. -/
theorem read_left {page : Nat} {ops : List FsOp} {fs : FS} {f : String} {left : List UInt8} {xs : List (GoStr × List UInt8)}
    (hw : ∀ x ∈ xs, Writable x) (hm : ∀ x, Moment ops fs f x → Part xs x) (hp : AfterPowerLoss page ops fs f left)
    (ho : HeadersOnOnePage page xs) (hlen : left.length < 2 ^ 62) : split left = .panic ∨
    ∃ bs, split left = .ok bs ∧ 1 ≤ bs.length ∧ bs.length ≤ xs.length ∧ Matches SpoiledBlock bs (xs.take bs.length) := by
  cases hs : split left with
  | panic => exact .inl rfl
  | hang => exact absurd hs (split_ne_hang left (by omega))
  | ok bs =>
    right
    obtain ⟨h1, h2⟩ := (split_iff left (by omega) bs).1 hs
    obtain ⟨r1, r2⟩ := walk hw hm hp ho hlen xs [] 0 bs rfl (Nat.zero_le _) h2
    refine ⟨bs, rfl, ?_, r1, r2⟩
    cases bs with
    | nil => cases h2; exact absurd rfl h1
    | cons => simp

end Osm.PowerLoss
