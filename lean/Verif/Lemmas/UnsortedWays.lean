import Verif.Spec.Unsorted
import Verif.Lemmas.WayOutput

/-! # The way index of a source in any order -/

namespace Osm.WayIndex
open Osm Osm.Spec

/-- Ways in any order whose data start within the location data, which fits in memory. -/
structure Usable (ids : List UInt64) (loc : List UInt8) (shift : Int64) : Prop where
  range : 0 ≤ shift.toInt ∧ shift.toInt < 63
  memory : loc.length < 2 ^ 63
  starts : ∀ d ∈ ids, wStart shift d ≤ loc.length

/-- The ids do not go down. -/
def Climbs (ids : List UInt64) : Prop := ids.Pairwise fun a b => wId a ≤ wId b

theorem Usable.decode {si : SubIdx} (u : Usable si.Ids si.Loc si.AlignmentShift) {d : UInt64} (hd : d ∈ si.Ids) :
    si.decodeAt d = Stored si.Loc si.AlignmentShift d := by
  have hs := u.starts d hd
  have hm := u.memory
  obtain ⟨o, h1, h2⟩ := goShl_eq (Offset d) si.AlignmentShift (wOffset d) (offset_eq d) u.range.1 u.range.2 (by
    show wStart si.AlignmentShift d < 2 ^ 63; omega)
  have h3 : o.toInt = wStart si.AlignmentShift d := h2
  unfold SubIdx.decodeAt Stored
  rw [h1]
  simp only [Res.ok_bind]
  rw [if_pos ⟨by omega, by omega⟩, show o.toInt.toNat = wStart si.AlignmentShift d by omega]

theorem climbs_get {ids : List UInt64} (hs : Climbs ids) {i j : Nat} (hij : i < j)
    (hj : j < ids.length) : wId ids[i] ≤ wId ids[j] :=
  (List.pairwise_iff_getElem.1 hs) i j (by omega) hj hij

theorem search_any (ids : List UInt64) (id : Int64) :
    ∀ (fuel lo hi : Nat), hi - lo < fuel → lo ≤ hi → hi ≤ ids.length → (Climbs ids → Bracket ids id.toInt lo hi) →
    ∃ p, search ids id fuel lo hi = .ok p ∧
      (Climbs ids → (∃ d ∈ ids, (wId d : Int) = id.toInt) → ∃ h : p < ids.length, (wId ids[p] : Int) = id.toInt) := by
  intro fuel
  induction fuel with
  | zero => intro lo hi h; omega
  | succ fuel ih =>
    intro lo hi hf hle hhi hb
    unfold search
    rcases Nat.lt_or_ge lo hi with hlt | hge
    · rw [if_pos hlt]
      have hm : (lo + hi) / 2 < ids.length := by omega
      dsimp only
      rw [List.getElem?_eq_getElem hm]
      simp only [Res.ofOption_some, Res.ok_bind]
      simp only [id_lt, id_eq]
      by_cases h1 : id.toInt < wId ids[(lo + hi) / 2]
      · rw [if_pos h1]
        refine ih lo _ (by omega) (by omega) (by omega) fun hc => ⟨(hb hc).1, fun k hk hk2 => ?_⟩
        rcases Nat.lt_or_ge ((lo + hi) / 2) k with h | h
        · have := climbs_get hc h hk; omega
        · have : k = (lo + hi) / 2 := by omega
          subst this; exact h1
      · rw [if_neg h1]
        by_cases h2 : id.toInt = wId ids[(lo + hi) / 2]
        · rw [if_pos h2]
          exact ⟨_, rfl, fun _ _ => ⟨hm, h2.symm⟩⟩
        · rw [if_neg h2]
          refine ih _ hi (by omega) (by omega) (by omega) fun hc => ⟨fun k hk hk2 => ?_, (hb hc).2⟩
          rcases Nat.lt_or_ge k ((lo + hi) / 2) with h | h
          · have := climbs_get hc h hm; omega
          · have : k = (lo + hi) / 2 := by omega
            subst this; omega
    · rw [if_neg (by omega)]
      refine ⟨lo, rfl, ?_⟩
      rintro hc ⟨d, hd, hid⟩
      obtain ⟨k, hk, rfl⟩ := List.getElem_of_mem hd
      rcases Nat.lt_or_ge k lo with h | h
      · have := (hb hc).1 k hk h; omega
      · have := (hb hc).2 k hk (by omega); omega

/-- The result of a lookup: what is stored for some entry with the id, or nothing; and if the ids do not go down,
nothing only if there is no such entry. -/
def Fair (si : SubIdx) (id : Int64) (hint : Int) (r : Res Found) : Prop :=
  (∃ d ∈ si.Ids, (wId d : Int) = id.toInt ∧ ∃ p c, 0 ≤ p ∧
    r = (Stored si.Loc si.AlignmentShift d >>= fun ls => .ok ⟨ls, p, true, [c]⟩)) ∨
  ((∃ c, r = .ok ⟨[], hint, false, [c]⟩) ∧
    (Climbs si.Ids → (∀ d ∈ si.Ids, (wId d : Int) ≤ si.Top.toInt) → ∀ d ∈ si.Ids, (wId d : Int) ≠ id.toInt))

theorem findBetween_any {si : SubIdx} (u : Usable si.Ids si.Loc si.AlignmentShift) (id : Int64) (hint : Int) (lo hi : Nat)
    (hle : lo ≤ hi) (hhi : hi ≤ si.Ids.length) (hb : Climbs si.Ids → Bracket si.Ids id.toInt lo hi) :
    Fair si id hint (si.findBetween id hint lo hi) := by
  obtain ⟨p, h1, h2⟩ := search_any si.Ids id (si.Ids.length + 1) lo hi (by omega) hle hhi hb
  unfold SubIdx.findBetween
  rw [h1]
  simp only [Res.ok_bind]
  cases hp : si.Ids[p]? with
  | none =>
    refine Or.inr ⟨⟨_, rfl⟩, fun hc _ d hd hid => ?_⟩
    obtain ⟨h, _⟩ := h2 hc ⟨d, hd, hid⟩
    rw [List.getElem?_eq_getElem h] at hp
    cases hp
  | some d =>
    dsimp only
    have hd := List.mem_of_getElem? hp
    by_cases he : WayID d = id
    · rw [if_neg (by simpa using he), u.decode hd]
      exact Or.inl ⟨d, hd, ((id_eq id d).1 he.symm).symm, p, .hitDefault, by omega, rfl⟩
    · rw [if_pos he]
      refine Or.inr ⟨⟨_, rfl⟩, fun hc _ d' hd' hid => ?_⟩
      obtain ⟨h, h3⟩ := h2 hc ⟨d', hd', hid⟩
      rw [List.getElem?_eq_getElem h] at hp
      cases hp
      exact he ((id_eq id _).2 h3.symm).symm

theorem find_any {si : SubIdx} (u : Usable si.Ids si.Loc si.AlignmentShift) (id : Int64) (hint : Int) (hh : 0 ≤ hint) :
    Fair si id hint (si.FindLocations id hint) := by
  unfold SubIdx.FindLocations
  by_cases ht : id > si.Top
  · rw [if_pos ht]
    rw [gt_iff_lt, Int64.lt_iff_toInt_lt] at ht
    refine Or.inr ⟨⟨_, rfl⟩, fun _ htop d hd hid => ?_⟩
    have := htop d hd
    omega
  · rw [if_neg ht]
    by_cases hlt : hint < (si.Ids.length : Int)
    · rw [if_pos hlt, if_neg (by omega)]
      obtain ⟨k, rfl⟩ := Int.eq_ofNat_of_zero_le hh
      have hk : k < si.Ids.length := by omega
      rw [show ((k : Int)).toNat = k by omega, List.getElem?_eq_getElem hk]
      simp only [Res.ofOption_some, Res.ok_bind]
      simp only [id_lt, id_eq]
      by_cases h1 : id.toInt < wId si.Ids[k]
      · rw [if_pos h1]
        refine findBetween_any u id k 0 k (by omega) (by omega) fun hc => ⟨fun _ _ h => by omega, fun j hj hkj => ?_⟩
        rcases Nat.lt_or_ge k j with h | h
        · have := climbs_get hc h hj; omega
        · have : j = k := by omega
          subst this; exact h1
      · rw [if_neg h1]
        by_cases h2 : id.toInt = wId si.Ids[k]
        · rw [if_pos h2, u.decode (List.getElem_mem hk)]
          exact Or.inl ⟨_, List.getElem_mem hk, h2.symm, k, .hitHint, by omega, rfl⟩
        · rw [if_neg h2]
          refine findBetween_any u id k k si.Ids.length (by omega) (by omega)
            fun hc => ⟨fun j hj hjk => ?_, fun j hj h => by omega⟩
          have := climbs_get hc hjk hk
          omega
    · rw [if_neg hlt]
      exact findBetween_any u id hint 0 si.Ids.length (by omega) (by omega)
        fun _ => ⟨fun _ _ h => by omega, fun j hj h => by omega⟩

/-- The passes of an index in any order. -/
theorem sub_any (ix : WayIdx) (p n : Int64) (si : SubIdx)
    (h : ix.SubIndexWithScaledPass p n = .ok si) :
    si.Ids.Sublist ix.Ids ∧ si.Loc = ix.Loc ∧ si.AlignmentShift = ix.AlignmentShift ∧
      (Climbs ix.Ids → Climbs si.Ids ∧ ∀ d ∈ si.Ids, (wId d : Int) ≤ si.Top.toInt) := by
  unfold WayIdx.SubIndexWithScaledPass at h
  split at h
  · simp at h
  · dsimp only at h
    obtain ⟨s, _, h⟩ := Res.bind_eq_ok.1 h
    obtain ⟨e, _, h⟩ := Res.bind_eq_ok.1 h
    split at h
    · simp at h
    · obtain ⟨last, h1, h2⟩ := Res.bind_eq_ok.1 h
      rw [Res.ofOption_eq_ok] at h1
      simp only [Res.ok.injEq] at h2
      subst h2
      generalize e.getD ix.Ids.length = b at *
      generalize s.getD 0 = a at *
      have hsub : ((ix.Ids.take b).drop a).Sublist ix.Ids :=
        (List.drop_sublist _ _).trans (List.take_sublist _ _)
      refine ⟨hsub, rfl, rfl, fun hc => ⟨List.Pairwise.sublist hsub hc, ?_⟩⟩
      intro d hd
      have hbl : b - 1 < ix.Ids.length := by
        rcases Nat.lt_or_ge (b - 1) ix.Ids.length with h | h
        · exact h
        · rw [List.getElem?_eq_none h] at h1; simp at h1
      rw [List.getElem?_eq_getElem hbl] at h1
      simp only [Option.some.injEq] at h1
      subst h1
      dsimp only
      rw [wayID_eq]
      have he2 := List.mem_of_mem_drop hd
      obtain ⟨k, hk, hke⟩ := List.getElem_of_mem he2
      rw [List.length_take] at hk
      rw [List.getElem_take] at hke
      subst hke
      rcases Nat.lt_or_ge k (b - 1) with hkb | hkb
      · have := climbs_get hc hkb hbl
        omega
      · have : k = b - 1 := by omega
        subst this
        omega

theorem usable_sub {ix : WayIdx} (u : Usable ix.Ids ix.Loc ix.AlignmentShift) {si : SubIdx}
    (h1 : si.Ids.Sublist ix.Ids) (h2 : si.Loc = ix.Loc) (h3 : si.AlignmentShift = ix.AlignmentShift) :
    Usable si.Ids si.Loc si.AlignmentShift := by
  rw [h2, h3]
  exact ⟨u.range, u.memory, fun d hd => u.starts d (h1.subset hd)⟩

end Osm.WayIndex

namespace Osm.WayIndexer
open Osm Osm.T Osm.WayIndex Osm.Spec

theorem workAll_any (shift : Int64) (blocks : List (Option PrimitiveBlock))
    (h : WaysAnyOrder shift (allWays blocks)) :
    workAll shift blocks = .ok ((blocks.map waysOf).map (elementOf shift)) := by
  obtain ⟨amt, h1, h2⟩ := amt_ok shift h.range
  unfold workAll
  rw [h1]
  simp only [Res.ok_bind]
  have hids := h.ids
  have hsp := h.space
  rw [allWays_eq] at hids hsp
  clear h1
  have hr := h.range
  clear h
  induction blocks with
  | nil => rfl
  | cons b bs ih =>
    rw [List.map_cons, List.flatten_cons] at hids hsp
    rw [waysBlocks_append] at hsp
    unfold mapRes
    have hb : work shift amt b = .ok (elementOf shift (waysOf b)) := by
      cases b with
      | none => rfl
      | some pb =>
        exact work_ok shift amt hr h2 pb (by
          have : waysOf (some pb) = sourceWays pb := rfl
          rw [this] at hsp
          omega) (fun w hw => hids w (List.mem_append_left _ hw))
    rw [hb]
    simp only [Res.ok_bind]
    rw [ih (fun w hw => hids w (List.mem_append_right _ hw)) (by omega)]
    rfl

/-- The file written for ways in any order. -/
theorem output_any (shift : Int64) (blocks : List (Option PrimitiveBlock))
    (h : WaysAnyOrder shift (allWays blocks)) (out : String) (chunks : Nat → Nat) (fs : FS) :
    ∃ batches fs' file, workAll shift blocks = .ok batches ∧
      (Output out shift chunks never batches).exec fs = .ok ((), fs') ∧ Holds fs' out file ∧
      NewWayIndex file = .ok ⟨entries shift 0 (allWays blocks), locData shift (allWays blocks), shift⟩ := by
  have hsp := h.space
  have hwork := workAll_any shift blocks h
  have hb := batches_ok shift h.range.1 (blocks.map waysOf) 0 0 (by rw [← allWays_eq]; omega)
    (by rw [← allWays_eq]; exact h.ids)
  rw [← allWays_eq, Nat.zero_add] at hb
  have hspec := loopSpec out (out ++ ".loc.tmp") (tmp_ne out) shift ((blocks.map waysOf).map (elementOf shift)) 0 0
  obtain ⟨r1, -, -⟩ := withHeader_exec out chunks never _ _ hspec (header shift) (header_length shift) fs
  obtain ⟨fs', m, e1, ⟨pos, e2⟩, e3, e4, e5⟩ := r1 (Int64.ofNat (allWays blocks).length)
    (bytesOf (entries shift 0 (allWays blocks))) (locData shift (allWays blocks)) (by
      unfold batchBytes
      rw [show (0 : Int64) = Int64.ofNat 0 from rfl, hb]; rfl)
  rw [List.take_of_length_le (e5.1 fun _ => rfl)] at e2
  have hlen := entries_length shift (allWays blocks) 0
  have hload := load_file (entries shift 0 (allWays blocks)) (locData shift (allWays blocks)) shift (by
    have := length_le_blocks shift (allWays blocks)
    omega)
  rw [hlen] at hload
  exact ⟨_, fs', _, hwork, by rw [output_shape]; exact e1, ⟨pos, e2⟩, hload⟩

theorem entries_usable (shift : Int64) (ws : List Way) (h : WaysAnyOrder shift ws) :
    Usable (entries shift 0 ws) (locData shift ws) shift where
  range := ⟨h.range.1, by have := h.range.2; omega⟩
  memory := by rw [locData_length]; have := h.memory; omega
  starts := by
    intro d hd
    obtain ⟨w, _, _, _, q3, _⟩ := (entries_mem shift ws h.ids 0 [] (by simp) (by have := h.space; omega)).1 d hd
    unfold wStart
    rw [locData_length]
    exact Nat.mul_le_mul_right _ (by omega)

theorem entries_climb (shift : Int64) (ws : List Way) (hid : ∀ w ∈ ws, 0 ≤ w.ID.toInt ∧ w.ID.toInt < 2 ^ 31)
    (hs : WaysNeverDown ws) : ∀ k, k + waysBlocks shift ws ≤ 2 ^ 33 → Climbs (entries shift k ws) := by
  induction ws with
  | nil => intro k _; exact .nil
  | cons w ws ih =>
    intro k hk
    rw [waysBlocks_cons] at hk
    have hpos := wayBlocks_pos shift w
    obtain ⟨i0, i1⟩ := hid w (by simp)
    have hs := List.pairwise_cons.1 hs
    have r1 := ih (fun x hx => hid x (by simp [hx])) hs.2 (k + wayBlocks shift w) (by omega)
    obtain ⟨m1, -⟩ := entries_mem shift ws (fun x hx => hid x (by simp [hx])) (k + wayBlocks shift w)
      (List.replicate ((k + wayBlocks shift w) * 2 ^ shift.toInt.toNat) 0) (by simp) (by omega)
    have he := entry_id w.ID k i1 (by omega)
    refine List.pairwise_cons.2 ⟨?_, r1⟩
    intro d hd
    obtain ⟨x, hx, q1, -⟩ := m1 d hd
    have := hs.1 x hx
    omega

theorem entries_offsets (shift : Int64) (ws : List Way) (hid : ∀ w ∈ ws, 0 ≤ w.ID.toInt ∧ w.ID.toInt < 2 ^ 31) :
    ∀ k, k + waysBlocks shift ws ≤ 2 ^ 33 → (entries shift k ws).Pairwise (fun a b => wOffset a < wOffset b) := by
  induction ws with
  | nil => intro k _; exact .nil
  | cons w ws ih =>
    intro k hk
    rw [waysBlocks_cons] at hk
    have hpos := wayBlocks_pos shift w
    obtain ⟨i0, i1⟩ := hid w (by simp)
    have r1 := ih (fun x hx => hid x (by simp [hx])) (k + wayBlocks shift w) (by omega)
    obtain ⟨m1, -⟩ := entries_mem shift ws (fun x hx => hid x (by simp [hx])) (k + wayBlocks shift w)
      (List.replicate ((k + wayBlocks shift w) * 2 ^ shift.toInt.toNat) 0) (by simp) (by omega)
    have ho := entry_off w.ID k i1 (by omega)
    refine List.pairwise_cons.2 ⟨?_, r1⟩
    intro d hd
    obtain ⟨x, hx, -, q2, -⟩ := m1 d hd
    omega

end Osm.WayIndexer
