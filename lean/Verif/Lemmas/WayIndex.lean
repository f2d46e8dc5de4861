import Verif.Spec.WayIndex
import Verif.Lemmas.Loop
import Verif.Lemmas.Hl
import Verif.Lemmas.SubIndex

namespace Osm.WayIndex
open Osm Osm.Spec

/-- An unsigned word below 2^63 read as a signed one. -/
theorem toInt64_small (x : UInt64) (h : x.toNat < 2 ^ 63) : x.toInt64.toInt = x.toNat := by
  rw [Int64.toInt, BitVec.toInt_eq_toNat_bmod]
  show ((x.toNat : Int)).bmod _ = _
  rw [Int.bmod_def]
  omega

theorem wayID_eq (d : UInt64) : (WayID d).toInt = wId d := by
  unfold WayID wId
  have hs : (d >>> 33).toNat = d.toNat / 2 ^ 33 := by
    rw [UInt64.toNat_shiftRight, Nat.shiftRight_eq_div_pow]; rfl
  have := d.toNat_lt
  rw [toInt64_small _ (by omega), hs]

theorem offset_eq (d : UInt64) : (Offset d).toInt = wOffset d := by
  have h : Offset d = (d &&& 0x1ffffffff).toInt64 := rfl
  have ha : (d &&& 0x1ffffffff).toNat = d.toNat % 2 ^ 33 := by
    rw [UInt64.toNat_and]
    exact Nat.and_two_pow_sub_one_eq_mod _ 33
  unfold wOffset
  rw [h, toInt64_small _ (by omega), ha]

theorem wId_lt (d : UInt64) : wId d < 2 ^ 31 := by
  unfold wId; have := d.toNat_lt; omega
theorem wOffset_lt (d : UInt64) : wOffset d < 2 ^ 33 := Nat.mod_lt _ (by decide)

/-- A left shift that does not overflow is a multiplication. -/
theorem goShl_eq (x s : Int64) (n : Nat) (hx : x.toInt = n) (h0 : 0 ≤ s.toInt) (h1 : s.toInt < 63)
    (h : n * 2 ^ s.toInt.toNat < 2 ^ 63) : ∃ o, goShl x s = .ok o ∧ o.toInt = (n * 2 ^ s.toInt.toNat : Nat) := by
  unfold goShl
  rw [if_neg (by rw [Int64.lt_iff_toInt_lt, show (0 : Int64).toInt = 0 from rfl]; omega),
    if_neg (by
      rw [ge_iff_le, Int64.le_iff_toInt_le, show (64 : Int64).toInt = 64 from rfl]; omega)]
  refine ⟨_, rfl, ?_⟩
  obtain ⟨k, hk⟩ := Int.eq_ofNat_of_zero_le h0
  have hk' : s.toInt.toNat = k := by omega
  rw [hk'] at h ⊢
  have hs : s = Int64.ofNat k := by
    apply Int64.toInt_inj.1
    rw [hk, Int64.toInt_ofNat_of_lt (by omega)]
  have hxx : x = Int64.ofNat n := by
    apply Int64.toInt_inj.1
    have : n ≤ n * 2 ^ k := Nat.le_mul_of_pos_right _ (Nat.two_pow_pos k)
    rw [hx, Int64.toInt_ofNat_of_lt (by omega)]
  have hshift : (x <<< s) = Int64.ofNat (n * 2 ^ k) := by
    rw [hs, hxx]
    apply Int64.toBitVec_inj.1
    rw [Int64.toBitVec_shiftLeft]
    apply BitVec.eq_of_toNat_eq
    have e1 : ∀ m, (Int64.ofNat m).toBitVec = BitVec.ofNat 64 m := fun m => rfl
    rw [e1, e1, e1]
    have e2 : (BitVec.ofNat 64 k).smod 64 = BitVec.ofNat 64 k := by
      have : ∀ k : Fin 63, (BitVec.ofNat 64 k.val).smod 64 = BitVec.ofNat 64 k.val := by decide
      exact this ⟨k, by omega⟩
    rw [e2]
    rw [BitVec.shiftLeft_eq', BitVec.toNat_shiftLeft, BitVec.toNat_ofNat, BitVec.toNat_ofNat, BitVec.toNat_ofNat]
    rw [Nat.shiftLeft_eq]
    rw [Nat.mod_eq_of_lt (a := k) (by omega)]
    rw [Nat.mod_mul_mod]
  rw [hshift, Int64.toInt_ofNat_of_lt h]

theorem start_eq {ids : List UInt64} {loc : List UInt8} {shift : Int64} (hw : WayOrdered ids loc shift)
    {d : UInt64} (hd : d ∈ ids) : ∃ o, goShl (Offset d) shift = .ok o ∧ o.toInt = wStart shift d := by
  have := hw.starts d hd
  have := hw.memory
  exact goShl_eq (Offset d) shift (wOffset d) (offset_eq d) hw.range.1 hw.range.2 (by
    show wStart shift d < 2 ^ 63; omega)

theorem decodeAt_eq {si : SubIdx} (hw : WayOrderedSub si) {d : UInt64} (hd : d ∈ si.Ids) :
    si.decodeAt d = Stored si.Loc si.AlignmentShift d := by
  obtain ⟨o, h1, h2⟩ := start_eq hw.1 hd
  unfold SubIdx.decodeAt Stored
  rw [h1]
  simp only [Res.ok_bind]
  have := hw.1.starts d hd
  rw [if_pos ⟨by omega, by omega⟩, show o.toInt.toNat = wStart si.AlignmentShift d by omega]

theorem sorted_get {ids : List UInt64} (hs : ids.Pairwise fun a b => wId a < wId b) {i j : Nat} (hij : i < j)
    (hj : j < ids.length) : wId ids[i] < wId ids[j] :=
  (List.pairwise_iff_getElem.1 hs) i j (by omega) hj hij

theorem id_lt (id : Int64) (d : UInt64) : id < WayID d ↔ id.toInt < wId d := by
  rw [Int64.lt_iff_toInt_lt, wayID_eq]
theorem id_eq (id : Int64) (d : UInt64) : id = WayID d ↔ id.toInt = wId d := by
  rw [← Int64.toInt_inj, wayID_eq]

/-- Everything below `lo` is before the id, everything from `hi` after it. -/
def Bracket (ids : List UInt64) (id : Int) (lo hi : Nat) : Prop :=
  (∀ k (hk : k < ids.length), k < lo → (wId ids[k] : Int) < id) ∧
  (∀ k (hk : k < ids.length), hi ≤ k → id < wId ids[k])

theorem search_ok {ids : List UInt64} (hs : ids.Pairwise fun a b => wId a < wId b) (id : Int64) :
    ∀ (fuel lo hi : Nat), hi - lo < fuel → lo ≤ hi → hi ≤ ids.length → Bracket ids id.toInt lo hi →
    ∃ p, search ids id fuel lo hi = .ok p ∧ ∀ k (hk : k < ids.length), (wId ids[k] : Int) = id.toInt → k = p := by
  intro fuel
  induction fuel with
  | zero => intro lo hi h; omega
  | succ fuel ih =>
    intro lo hi hf hle hhi hb
    unfold search
    rcases Nat.lt_or_ge lo hi with hlt | hge
    · rw [if_pos hlt]
      have hm : (lo + hi) / 2 < ids.length := by omega
      dsimp only
      rw [List.getElem?_eq_getElem hm]
      simp only [Res.ofOption_some, Res.ok_bind]
      simp only [id_lt, id_eq]
      by_cases h1 : id.toInt < wId ids[(lo + hi) / 2]
      · rw [if_pos h1]
        refine ih lo _ (by omega) (by omega) (by omega) ⟨hb.1, fun k hk hk2 => ?_⟩
        rcases Nat.lt_or_ge ((lo + hi) / 2) k with h | h
        · have := sorted_get hs h hk; omega
        · have : k = (lo + hi) / 2 := by omega
          subst this; exact h1
      · rw [if_neg h1]
        by_cases h2 : id.toInt = wId ids[(lo + hi) / 2]
        · rw [if_pos h2]
          refine ⟨_, rfl, fun k hk hk2 => ?_⟩
          rcases Nat.lt_trichotomy k ((lo + hi) / 2) with h | h | h
          · have := sorted_get hs h hm; omega
          · exact h
          · have := sorted_get hs h hk; omega
        · rw [if_neg h2]
          refine ih _ hi (by omega) (by omega) (by omega) ⟨fun k hk hk2 => ?_, hb.2⟩
          rcases Nat.lt_or_ge k ((lo + hi) / 2) with h | h
          · have := sorted_get hs h hm; omega
          · have : k = (lo + hi) / 2 := by omega
            subst this; omega
    · rw [if_neg (by omega)]
      refine ⟨lo, rfl, fun k hk hk2 => ?_⟩
      rcases Nat.lt_or_ge k lo with h | h
      · have := hb.1 k hk h; omega
      · have := hb.2 k hk (by omega); omega

/-- The result of a lookup. -/
def Result (si : SubIdx) (id : Int64) (hint : Int) (r : Res Found) : Prop :=
  (∀ d ∈ si.Ids, (wId d : Int) = id.toInt → ∃ p c, 0 ≤ p ∧ p < (si.Ids.length : Int) ∧
    r = (Stored si.Loc si.AlignmentShift d >>= fun ls => .ok ⟨ls, p, true, [c]⟩)) ∧
  ((∀ d ∈ si.Ids, (wId d : Int) ≠ id.toInt) → ∃ c, r = .ok ⟨[], hint, false, [c]⟩)

theorem findBetween_ok {si : SubIdx} (hw : WayOrderedSub si) (id : Int64) (hint : Int) (lo hi : Nat) (hle : lo ≤ hi)
    (hhi : hi ≤ si.Ids.length) (hb : Bracket si.Ids id.toInt lo hi) :
    Result si id hint (si.findBetween id hint lo hi) := by
  obtain ⟨p, h1, h2⟩ := search_ok hw.1.sorted id (si.Ids.length + 1) lo hi (by omega) hle hhi hb
  unfold SubIdx.findBetween
  rw [h1]
  simp only [Res.ok_bind]
  refine ⟨?_, ?_⟩
  · intro d hd hid
    obtain ⟨k, hk, rfl⟩ := List.getElem_of_mem hd
    have := h2 k hk hid
    subst this
    rw [List.getElem?_eq_getElem hk]
    dsimp only
    rw [if_neg (by
      rw [ne_eq, Decidable.not_not]
      exact ((id_eq id _).2 hid.symm).symm), decodeAt_eq hw hd]
    exact ⟨k, .hitDefault, by omega, by omega, rfl⟩
  · intro hno
    cases hp : si.Ids[p]? with
    | none => exact ⟨_, rfl⟩
    | some d =>
      dsimp only
      have hd := List.mem_of_getElem? hp
      rw [if_pos (by
        intro he
        exact hno d hd (((id_eq id d).1 he.symm).symm))]
      exact ⟨_, rfl⟩

theorem find_ok {si : SubIdx} (hw : WayOrderedSub si) (id : Int64) (hint : Int) (hh : 0 ≤ hint) :
    Result si id hint (si.FindLocations id hint) := by
  unfold SubIdx.FindLocations
  by_cases ht : id > si.Top
  · rw [if_pos ht]
    rw [gt_iff_lt, Int64.lt_iff_toInt_lt] at ht
    refine ⟨?_, fun _ => ⟨_, rfl⟩⟩
    intro d hd hid
    have := hw.2 d hd
    omega
  · rw [if_neg ht]
    by_cases hlt : hint < (si.Ids.length : Int)
    · rw [if_pos hlt, if_neg (by omega)]
      obtain ⟨k, rfl⟩ := Int.eq_ofNat_of_zero_le hh
      have hk : k < si.Ids.length := by omega
      rw [show ((k : Int)).toNat = k by omega, List.getElem?_eq_getElem hk]
      simp only [Res.ofOption_some, Res.ok_bind]
      simp only [id_lt, id_eq]
      by_cases h1 : id.toInt < wId si.Ids[k]
      · rw [if_pos h1]
        refine findBetween_ok hw id k 0 k (by omega) (by omega) ⟨fun _ _ h => by omega, fun j hj hkj => ?_⟩
        rcases Nat.lt_or_ge k j with h | h
        · have := sorted_get hw.1.sorted h hj; omega
        · have : j = k := by omega
          subst this; exact h1
      · rw [if_neg h1]
        by_cases h2 : id.toInt = wId si.Ids[k]
        · rw [if_pos h2, decodeAt_eq hw (List.getElem_mem hk)]
          refine ⟨?_, fun hno => absurd h2.symm (hno _ (List.getElem_mem hk))⟩
          intro d hd hid
          obtain ⟨j, hj, rfl⟩ := List.getElem_of_mem hd
          have : j = k := by
            rcases Nat.lt_trichotomy j k with h | h | h
            · have := sorted_get hw.1.sorted h hk; omega
            · exact h
            · have := sorted_get hw.1.sorted h hj; omega
          subst this
          exact ⟨j, .hitHint, by omega, by omega, rfl⟩
        · rw [if_neg h2]
          refine findBetween_ok hw id k k si.Ids.length (by omega) (by omega)
            ⟨fun j hj hjk => ?_, fun j hj h => by omega⟩
          have := sorted_get hw.1.sorted hjk hk
          omega
    · rw [if_neg hlt]
      exact findBetween_ok hw id hint 0 si.Ids.length (by omega) (by omega)
        ⟨fun _ _ h => by omega, fun j hj h => by omega⟩

/-! ## Passes -/

/-- How many entries start before byte `t` (all of them if none reaches it). -/
def before (shift : Int64) (t : Int) (ids : List UInt64) : Nat := (ids.takeWhile fun d => decide ((wStart shift d : Int) < t)).length

theorem firstReaching_ok {loc : List UInt8} {shift : Int64} (t : Int) : ∀ (ids : List UInt64) (i : Nat),
    0 ≤ shift.toInt → shift.toInt < 63 → loc.length < 2 ^ 63 → (∀ d ∈ ids, wStart shift d ≤ loc.length) →
    firstReaching shift t i ids = .ok (if before shift t ids < ids.length then some (i + before shift t ids) else none) := by
  intro ids
  induction ids with
  | nil => intro i _ _ _ _; rfl
  | cons d ds ih =>
    intro i h0 h1 hm hs
    unfold firstReaching
    have hd := hs d (by simp)
    obtain ⟨o, e1, e2⟩ := goShl_eq (Offset d) shift (wOffset d) (offset_eq d) h0 h1 (by
      show wStart shift d < 2 ^ 63; omega)
    rw [e1]
    simp only [Res.ok_bind]
    have e3 : o.toInt = wStart shift d := e2
    rw [e3]
    by_cases hc : (wStart shift d : Int) ≥ t
    · rw [if_pos hc]
      have : before shift t (d :: ds) = 0 := by
        unfold before
        rw [List.takeWhile_cons_of_neg (by simp; omega)]
        rfl
      rw [this, if_pos (by simp)]
      simp
    · rw [if_neg hc, ih (i + 1) h0 h1 hm (fun x hx => hs x (by simp [hx]))]
      have : before shift t (d :: ds) = before shift t ds + 1 := by
        unfold before
        rw [List.takeWhile_cons_of_pos (by simp; omega)]
        rfl
      rw [this]
      simp only [List.length_cons, Nat.add_lt_add_iff_right]
      split
      · simp; omega
      · rfl

theorem before_le (shift : Int64) (t : Int) (ids : List UInt64) : before shift t ids ≤ ids.length := by
  unfold before
  exact (List.takeWhile_prefix _).length_le

theorem before_iff {shift : Int64} (t : Int) : ∀ (ids : List UInt64),
    (ids.Pairwise fun a b => wStart shift a ≤ wStart shift b) → ∀ i (h : i < ids.length),
    i < before shift t ids ↔ (wStart shift ids[i] : Int) < t := by
  intro ids
  induction ids with
  | nil => intro _ i h; simp at h
  | cons d ds ih =>
    intro hs i h
    rw [List.pairwise_cons] at hs
    by_cases hc : (wStart shift d : Int) < t
    · have hb : before shift t (d :: ds) = before shift t ds + 1 := by
        unfold before
        rw [List.takeWhile_cons_of_pos (by simpa using hc)]
        rfl
      rw [hb]
      cases i with
      | zero => simp [hc]
      | succ i =>
        rw [List.getElem_cons_succ, ← ih hs.2 i (by simpa using h)]
        omega
    · have hb : before shift t (d :: ds) = 0 := by
        unfold before
        rw [List.takeWhile_cons_of_neg (by simpa using hc)]
        rfl
      rw [hb]
      constructor
      · intro h; omega
      · intro h'
        cases i with
        | zero => exact absurd h' hc
        | succ i =>
          rw [List.getElem_cons_succ] at h'
          have := hs.1 _ (List.getElem_mem (show i < ds.length by simpa using h))
          omega

theorem before_drop {shift : Int64} (t : Int) : ∀ (ids : List UInt64) (s : Nat), s ≤ before shift t ids →
    before shift t (ids.drop s) = before shift t ids - s := by
  intro ids
  induction ids with
  | nil => intro s h; simp [before]
  | cons d ds ih =>
    intro s h
    cases s with
    | zero => simp
    | succ s =>
      by_cases hc : (wStart shift d : Int) < t
      · have hb : before shift t (d :: ds) = before shift t ds + 1 := by
          unfold before
          rw [List.takeWhile_cons_of_pos (by simpa using hc)]
          rfl
        rw [hb] at h ⊢
        rw [List.drop_succ_cons, ih s (by omega)]
        omega
      · have hb : before shift t (d :: ds) = 0 := by
          unfold before
          rw [List.takeWhile_cons_of_neg (by simpa using hc)]
          rfl
        omega

theorem before_mono {shift : Int64} {t t' : Int} (h : t ≤ t') : ∀ (ids : List UInt64),
    before shift t ids ≤ before shift t' ids := by
  intro ids
  induction ids with
  | nil => simp [before]
  | cons d ds ih =>
    unfold before at *
    by_cases hc : (wStart shift d : Int) < t
    · rw [List.takeWhile_cons_of_pos (by simpa using hc),
        List.takeWhile_cons_of_pos (by simp; omega)]
      simpa using ih
    · rw [List.takeWhile_cons_of_neg (by simpa using hc)]
      simp

/-- What a pass contains. -/
theorem sub_at (ix : WayIdx) (hrange : 0 ≤ ix.AlignmentShift.toInt ∧ ix.AlignmentShift.toInt < 63)
    (hL : ix.Loc.length < 2 ^ 63) (hstarts : ∀ d ∈ ix.Ids, wStart ix.AlignmentShift d ≤ ix.Loc.length) (n p : Nat)
    (hn63 : n < 2 ^ 63) (hp : p < n) :
    ix.SubIndexWithScaledPass (Int64.ofNat p) (Int64.ofNat n) =
      let c := ix.Loc.length / n
      let a := before ix.AlignmentShift (c * p : Nat) ix.Ids
      let e := before ix.AlignmentShift (c * (p + 1) : Nat) ix.Ids
      if e = 0 then .panic
      else Res.ofOption ix.Ids[e - 1]? >>= fun last =>
        .ok ⟨(ix.Ids.take e).drop (if a < ix.Ids.length then a else 0), ix.Loc, ix.AlignmentShift, WayID last⟩ := by
  have hnn : (Int64.ofNat n).toInt = n := Int64.toInt_ofNat_of_lt hn63
  have hpp : (Int64.ofNat p).toInt = p := Int64.toInt_ofNat_of_lt (by omega)
  unfold WayIdx.SubIndexWithScaledPass
  rw [if_neg (by
    intro h0
    have : (Int64.ofNat n).toInt = 0 := by rw [h0]; rfl
    omega)]
  dsimp only
  rw [hnn, hpp, ← Int.ofNat_tdiv]
  clear hnn hpp
  generalize hc : ix.Loc.length / n = c
  have hcn : c * n ≤ ix.Loc.length := by rw [← hc]; exact Nat.div_mul_le_self _ _
  have hcp : c * (p + 1) ≤ c * n := Nat.mul_le_mul_left _ (by omega)
  have hcp0 : c * p ≤ c * (p + 1) := Nat.mul_le_mul_left _ (by omega)
  have g1 : goInt (((c : Nat) : Int) * (p : Int)) = (c * p : Nat) := by
    rw [← Int.natCast_mul]
    exact Pb.goInt_small _ (Int.natCast_nonneg _) (by omega)
  have g2 : goInt ((p : Int) + 1) = (p + 1 : Nat) := Pb.goInt_small _ (by omega) (by omega)
  have g3 : goInt (((c : Nat) : Int) * ((p + 1 : Nat) : Int)) = (c * (p + 1) : Nat) := by
    rw [← Int.natCast_mul]
    exact Pb.goInt_small _ (Int.natCast_nonneg _) (by omega)
  rw [g1, g2, g3]
  generalize ha : before ix.AlignmentShift (c * p : Nat) ix.Ids = a
  generalize he : before ix.AlignmentShift (c * (p + 1) : Nat) ix.Ids = e
  have hae : a ≤ e := by rw [← ha, ← he]; exact before_mono (Int.ofNat_le.2 hcp0) _
  have hel : e ≤ ix.Ids.length := by rw [← he]; exact before_le _ _ _
  rw [firstReaching_ok _ ix.Ids 0 hrange.1 hrange.2 hL hstarts, ha]
  simp only [Res.ok_bind, Nat.zero_add]
  have hstart : (if a < ix.Ids.length then some a else none).getD 0 = if a < ix.Ids.length then a else 0 := by
    split <;> rfl
  rw [hstart]
  generalize hs : (if a < ix.Ids.length then a else 0) = st
  have hst : st ≤ e := by rw [← hs]; split <;> omega
  rw [firstReaching_ok _ (ix.Ids.drop st) st hrange.1 hrange.2 hL
    (fun d hd => hstarts d (List.mem_of_mem_drop hd)), before_drop _ _ _ (by omega), he]
  simp only [Res.ok_bind]
  have hend : (if e - st < (ix.Ids.drop st).length then some (st + (e - st)) else none).getD ix.Ids.length = e := by
    rw [List.length_drop]
    split
    · simp; omega
    · simp; omega
  rw [hend]

theorem sub_ok (ix : WayIdx) (hw : WayOrdered ix.Ids ix.Loc ix.AlignmentShift) (n p : Nat) (hn63 : n < 2 ^ 63)
    (hp : p < n) :
    ix.SubIndexWithScaledPass (Int64.ofNat p) (Int64.ofNat n) =
      let c := ix.Loc.length / n
      let a := before ix.AlignmentShift (c * p : Nat) ix.Ids
      let e := before ix.AlignmentShift (c * (p + 1) : Nat) ix.Ids
      if e = 0 then .panic
      else Res.ofOption ix.Ids[e - 1]? >>= fun last =>
        .ok ⟨(ix.Ids.take e).drop (if a < ix.Ids.length then a else 0), ix.Loc, ix.AlignmentShift, WayID last⟩ :=
  sub_at ix hw.range hw.memory hw.starts n p hn63 hp

theorem mapRes_back {α β : Type} {f : α → Res β} {xs : List α} {ys : List β}
    (h : mapRes f xs = .ok ys) : ∀ y ∈ ys, ∃ x ∈ xs, f x = .ok y := by
  induction xs generalizing ys with
  | nil => unfold mapRes at h; cases h; simp
  | cons a xs ih =>
    unfold mapRes at h
    obtain ⟨y0, h1, h⟩ := Res.bind_eq_ok.1 h
    obtain ⟨ys2, h2, h⟩ := Res.bind_eq_ok.1 h
    cases h
    intro y hy
    rcases List.mem_cons.1 hy with rfl | hy
    · exact ⟨a, by simp, h1⟩
    · obtain ⟨x, hx, he⟩ := ih h2 y hy
      exact ⟨x, by simp [hx], he⟩

/-- The order of the ids does not matter, only that of the offsets. -/
theorem passes_at (ix : WayIdx) (hrange : 0 ≤ ix.AlignmentShift.toInt ∧ ix.AlignmentShift.toInt < 63)
    (hmemory : ix.Loc.length < 2 ^ 63) (hstarts : ∀ d ∈ ix.Ids, wStart ix.AlignmentShift d ≤ ix.Loc.length)
    (hs : ix.Ids.Pairwise fun a b => wStart ix.AlignmentShift a ≤ wStart ix.AlignmentShift b)
    (h0 : ∀ d, ix.Ids.head? = some d → wStart ix.AlignmentShift d = 0) (n : Nat) (hn : 1 ≤ n) (hn63 : n < 2 ^ 63) :
    WayPassesCover ix n ↔ ∃ d, ix.Ids.getLast? = some d ∧ wStart ix.AlignmentShift d < ix.Loc.length / n * n := by
  unfold WayPassesCover
  generalize hc : ix.Loc.length / n = c
  constructor
  · rintro ⟨subs, h1, h2⟩
    have hmem : ∀ s ∈ subs, ∃ p, p < n ∧ ix.SubIndexWithScaledPass (Int64.ofNat p) (Int64.ofNat n) = .ok s := by
      intro s hs
      obtain ⟨p, hp, he⟩ := mapRes_back h1 s hs
      exact ⟨p, List.mem_range.1 hp, he⟩
    have hne : ix.Ids ≠ [] := by
      intro hnil
      obtain ⟨m, rfl⟩ : ∃ m, n = m + 1 := ⟨n - 1, by omega⟩
      rw [List.range_succ_eq_map] at h1
      unfold mapRes at h1
      obtain ⟨s, he, _⟩ := Res.bind_eq_ok.1 h1
      rw [sub_at ix hrange hmemory hstarts (m + 1) 0 hn63 (by omega)] at he
      dsimp only at he
      rw [hnil] at he
      rw [show ∀ t, before ix.AlignmentShift t [] = 0 from fun _ => rfl, if_pos rfl] at he
      cases he
    refine ⟨ix.Ids.getLast hne, List.getLast?_eq_some_getLast hne, ?_⟩
    obtain ⟨s, hs1, hs2⟩ := (h2 _).1 (List.getLast_mem hne)
    obtain ⟨p, hp, he⟩ := hmem s hs1
    rw [sub_at ix hrange hmemory hstarts n p hn63 hp] at he
    dsimp only at he
    rw [hc] at he
    split at he
    · cases he
    · obtain ⟨_, _, he⟩ := Res.bind_eq_ok.1 he
      cases he
      dsimp only at hs2
      have hs3 := List.mem_of_mem_drop hs2
      obtain ⟨j, hj, hje⟩ := List.getElem_of_mem hs3
      rw [List.getElem_take] at hje
      rw [List.length_take] at hj
      have := (before_iff (c * (p + 1) : Nat) ix.Ids hs j (by omega)).1 (by omega)
      rw [hje] at this
      have hcp : c * (p + 1) ≤ c * n := Nat.mul_le_mul_left _ (by omega)
      omega
  · rintro ⟨last, hl1, hl2⟩
    have hcpos : 1 ≤ c := by
      rcases Nat.eq_zero_or_pos c with h | h
      · rw [h, Nat.zero_mul] at hl2; omega
      · exact h
    have hne : ix.Ids ≠ [] := by rintro h; rw [h] at hl1; simp at hl1
    have hlast : last = ix.Ids.getLast hne := by
      rw [List.getLast?_eq_some_getLast hne] at hl1
      simpa using hl1.symm
    have hlen : 0 < ix.Ids.length := List.length_pos_iff.2 hne
    have hhead : wStart ix.AlignmentShift ix.Ids[0] = 0 :=
      h0 _ (by rw [List.head?_eq_getElem?, List.getElem?_eq_getElem hlen])
    have hall : ∀ d ∈ ix.Ids, wStart ix.AlignmentShift d < c * n := by
      intro d hd
      obtain ⟨i, hi, rfl⟩ := List.getElem_of_mem hd
      rw [hlast, List.getLast_eq_getElem] at hl2
      rcases Nat.lt_or_ge i (ix.Ids.length - 1) with h | h
      · have := (List.pairwise_iff_getElem.1 hs) i (ix.Ids.length - 1) hi (by omega) h
        omega
      · have : i = ix.Ids.length - 1 := by omega
        subst this; exact hl2
    -- the passes
    let sub : Nat → SubIdx := fun p =>
      let a := before ix.AlignmentShift (c * p : Nat) ix.Ids
      let e := before ix.AlignmentShift (c * (p + 1) : Nat) ix.Ids
      ⟨(ix.Ids.take e).drop (if a < ix.Ids.length then a else 0), ix.Loc, ix.AlignmentShift,
        WayID (ix.Ids[e - 1]?.getD 0)⟩
    have hsub : ∀ p, p < n → ix.SubIndexWithScaledPass (Int64.ofNat p) (Int64.ofNat n) = .ok (sub p) := by
      intro p hp
      rw [sub_at ix hrange hmemory hstarts n p hn63 hp]
      dsimp only
      rw [hc]
      have he : 0 < before ix.AlignmentShift (c * (p + 1) : Nat) ix.Ids := by
        rw [before_iff _ _ hs 0 hlen, hhead]
        have : 1 ≤ c * (p + 1) := Nat.mul_pos hcpos (by omega)
        omega
      have hel := before_le ix.AlignmentShift (c * (p + 1) : Nat) ix.Ids
      rw [if_neg (by omega)]
      have hget : ix.Ids[before ix.AlignmentShift (c * (p + 1) : Nat) ix.Ids - 1]? =
        some (ix.Ids[before ix.AlignmentShift (c * (p + 1) : Nat) ix.Ids - 1]'(by omega)) :=
        List.getElem?_eq_getElem (by omega)
      simp only [sub]
      rw [hget]
      rfl
    refine ⟨(List.range n).map sub, ?_, ?_⟩
    · exact T.mapRes_ok _ fun p hp => hsub p (List.mem_range.1 hp)
    · intro d
      constructor
      · intro hd
        have hlt := hall d hd
        obtain ⟨i, hi, rfl⟩ := List.getElem_of_mem hd
        refine ⟨sub (wStart ix.AlignmentShift ix.Ids[i] / c), ?_, ?_⟩
        · refine List.mem_map_of_mem ?_
          rw [List.mem_range, Nat.div_lt_iff_lt_mul hcpos, Nat.mul_comm]
          exact hlt
        · simp only [sub]
          generalize hp : wStart ix.AlignmentShift ix.Ids[i] / c = p
          have hp1 : c * p ≤ wStart ix.AlignmentShift ix.Ids[i] := by rw [← hp]; exact Nat.mul_div_le _ _
          have hp2 : wStart ix.AlignmentShift ix.Ids[i] < c * (p + 1) := by
            rw [← hp]; exact Nat.lt_mul_div_succ _ hcpos
          have ha := before_iff (c * p : Nat) _ hs i hi
          have he := (before_iff (c * (p + 1) : Nat) _ hs i hi).2 (by omega)
          have hna : ¬ i < before ix.AlignmentShift (c * p : Nat) ix.Ids := by
            rw [ha]; omega
          rw [if_pos (by omega)]
          have hel := before_le ix.AlignmentShift (c * (p + 1) : Nat) ix.Ids
          generalize before ix.AlignmentShift (c * p : Nat) ix.Ids = a at *
          generalize before ix.AlignmentShift (c * (p + 1) : Nat) ix.Ids = e at *
          rw [List.mem_iff_getElem]
          refine ⟨i - a, by rw [List.length_drop, List.length_take]; omega, ?_⟩
          rw [List.getElem_drop, List.getElem_take]
          congr 1
          omega
      · rintro ⟨s, hs1, hs2⟩
        obtain ⟨p, _, rfl⟩ := List.mem_map.1 hs1
        simp only [sub] at hs2
        exact List.mem_of_mem_take (List.mem_of_mem_drop hs2)

theorem passes_iff (ix : WayIdx) (hw : WayOrdered ix.Ids ix.Loc ix.AlignmentShift)
    (hs : ix.Ids.Pairwise fun a b => wStart ix.AlignmentShift a ≤ wStart ix.AlignmentShift b)
    (h0 : ∀ d, ix.Ids.head? = some d → wStart ix.AlignmentShift d = 0) (n : Nat) (hn : 1 ≤ n) (hn63 : n < 2 ^ 63) :
    WayPassesCover ix n ↔ ∃ d, ix.Ids.getLast? = some d ∧ wStart ix.AlignmentShift d < ix.Loc.length / n * n :=
  passes_at ix hw.range hw.memory hw.starts hs h0 n hn hn63

end Osm.WayIndex
