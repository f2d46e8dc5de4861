import Verif.Lemmas.WayIndexer

/-! # The way indexer's output file -/

namespace Osm.WayIndexer
open Osm Osm.Pb Osm.T Osm.WayIndex Osm.Spec

theorem wordsOf_append (ws : List UInt64) (t : List UInt8) : wordsOf (bytesOf ws ++ t) = ws ++ wordsOf t := by
  induction ws with
  | nil => rfl
  | cons w ws ih =>
    have : bytesOf (w :: ws) ++ t = le64 w ++ (bytesOf ws ++ t) := by simp [bytesOf]
    rw [this]
    unfold le64
    simp only [List.cons_append, List.nil_append]
    rw [wordsOf, leWord_le64, ih]

theorem load_file (es : List UInt64) (loc : List UInt8) (shift : Int64) (h : es.length < 2 ^ 59) :
    NewWayIndex (header shift (Int64.ofNat es.length) ++ bytesOf es ++ loc) = .ok ⟨es, loc, shift⟩ := by
  have hh : header shift (Int64.ofNat es.length) = bytesOf [(Int64.ofNat es.length).toUInt64, shift.toUInt64] := rfl
  have hc : (Int64.ofNat es.length).toUInt64.toNat = es.length := by
    show (UInt64.ofNat es.length).toNat = _
    rw [UInt64.toNat_ofNat']
    omega
  unfold NewWayIndex wordAt
  have hw : wordsOf (header shift (Int64.ofNat es.length) ++ bytesOf es ++ loc) =
      (Int64.ofNat es.length).toUInt64 :: shift.toUInt64 :: wordsOf (bytesOf es ++ loc) := by
    rw [hh, List.append_assoc, wordsOf_append]; rfl
  rw [hw]
  simp only [List.getElem?_cons_zero, Res.ofOption_some, Res.ok_bind, Nat.zero_div, show 8 / 8 = 1 from rfl,
    List.getElem?_cons_succ]
  have hn : (16 + (Int64.ofNat es.length).toUInt64 * 8).toNat = 16 + 8 * es.length := by
    rw [UInt64.toNat_add, UInt64.toNat_mul, hc, show (8 : UInt64).toNat = 8 from rfl,
      show (16 : UInt64).toNat = 16 from rfl]
    omega
  rw [hn]
  have hlen : (header shift (Int64.ofNat es.length) ++ bytesOf es).length = 16 + 8 * es.length := by
    rw [List.length_append, header_length, bytesOf_length]
  rw [if_pos ⟨by omega, by rw [List.length_append, hlen]; omega⟩]
  have ht : ∀ t, (header shift (Int64.ofNat es.length) ++ bytesOf es ++ t).take (16 + 8 * es.length) =
      header shift (Int64.ofNat es.length) ++ bytesOf es := by
    intro t; rw [← hlen, List.take_left']; rfl
  have hd : ∀ t, (header shift (Int64.ofNat es.length) ++ bytesOf es ++ t).drop (16 + 8 * es.length) = t := by
    intro t; rw [← hlen, List.drop_left']; rfl
  rw [ht, hd]
  have h16 : (header shift (Int64.ofNat es.length) ++ bytesOf es).drop 16 = bytesOf es := by
    rw [← header_length shift (Int64.ofNat es.length), List.drop_left']; rfl
  rw [h16]
  have := wordsOf_append es []
  rw [List.append_nil] at this
  rw [this]
  simp [wordsOf]

theorem load_noHeader {d : List UInt8} (h : d <+: zeros16 ∨ zeros16 <+: d) (p n : Int64) :
    (NewWayIndex d >>= fun ix => ix.SubIndexWithScaledPass p n) = .panic := by
  rcases h with h | ⟨t, rfl⟩
  · have ht := List.prefix_iff_eq_take.1 h
    have hle := h.length_le
    have hz : zeros16.length = 16 := rfl
    rcases Nat.lt_or_ge d.length 16 with hlt | hge
    · have hk : NewWayIndex d = .panic := by
        have key : (wordsOf d)[0]? = none ∨ ((wordsOf d)[0]? = some 0 ∧ (wordsOf d)[1]? = none) := by
          rw [ht]
          have : ∀ k : Fin 16, (wordsOf (zeros16.take k))[0]? = none ∨
              ((wordsOf (zeros16.take k))[0]? = some 0 ∧ (wordsOf (zeros16.take k))[1]? = none) := by decide
          exact this ⟨d.length, hlt⟩
        unfold NewWayIndex wordAt
        rcases key with k | ⟨k1, k2⟩
        · rw [show 0 / 8 = 0 from rfl, k]; rfl
        · rw [show 0 / 8 = 0 from rfl, show 8 / 8 = 1 from rfl, k1, k2]; rfl
      rw [hk]; rfl
    · have : d = zeros16 := by rw [ht, List.take_of_length_le (by omega)]
      subst this
      have hl : NewWayIndex zeros16 = .ok ⟨[], [], 0⟩ := by decide +kernel
      rw [hl]
      simp only [Res.ok_bind]
      unfold WayIdx.SubIndexWithScaledPass
      split
      · rfl
      · rfl
  · have hl : NewWayIndex (zeros16 ++ t) = .ok ⟨[], t, 0⟩ := by
      have := load_file [] t 0 (by decide)
      exact this
    rw [hl]
    simp only [Res.ok_bind]
    unfold WayIdx.SubIndexWithScaledPass
    split
    · rfl
    · rfl

/-! ## The index -/

/-- Every entry of the index belongs to a way, and its data are that way's. -/
theorem entries_mem (shift : Int64) (ws : List Way) (hid : ∀ w ∈ ws, 0 ≤ w.ID.toInt ∧ w.ID.toInt < 2 ^ 31) :
    ∀ k (pre : List UInt8), pre.length = k * 2 ^ shift.toInt.toNat → k + waysBlocks shift ws ≤ 2 ^ 33 →
    (∀ d ∈ entries shift k ws, ∃ w ∈ ws, (wId d : Int) = w.ID.toInt ∧ k ≤ wOffset d ∧
      wOffset d + wayBlocks shift w ≤ k + waysBlocks shift ws ∧
      Stored (pre ++ locData shift ws) shift d = .ok (indexedRefs w)) ∧
    (∀ w ∈ ws, ∃ d ∈ entries shift k ws, (wId d : Int) = w.ID.toInt) := by
  induction ws with
  | nil => intro k pre _ _; simp [entries]
  | cons w ws ih =>
    intro k pre hpre hk
    obtain ⟨i0, i1⟩ := hid w (by simp)
    rw [waysBlocks_cons] at hk ⊢
    have hpos := wayBlocks_pos shift w
    obtain ⟨m1, m2⟩ := ih (fun x hx => hid x (by simp [hx])) (k + wayBlocks shift w) (pre ++ wayData shift w)
      (by rw [List.length_append, hpre, wayData_length, Nat.add_mul]) (by omega)
    have hl : pre ++ locData shift (w :: ws) = pre ++ wayData shift w ++ locData shift ws := by
      simp [locData]
    have he : (wId (entry w.ID k) : Int) = w.ID.toInt := by
      rw [entry_id _ _ i1 (by omega)]; omega
    have ho := entry_off w.ID k i1 (by omega)
    refine ⟨?_, ?_⟩
    · intro d hd
      rcases List.mem_cons.1 hd with rfl | hd
      · refine ⟨w, by simp, he, by omega, by omega, ?_⟩
        unfold Stored wStart
        rw [ho, hl, List.append_assoc, ← hpre, List.drop_left' rfl]
        exact wayData_decode _ _ _
      · obtain ⟨x, hx, q1, q2, q3, q4⟩ := m1 d hd
        refine ⟨x, by simp [hx], q1, by omega, by omega, ?_⟩
        rw [hl]
        exact q4
    · intro x hx
      rcases List.mem_cons.1 hx with rfl | hx
      · exact ⟨_, List.mem_cons_self, he⟩
      · obtain ⟨d, hd, q⟩ := m2 x hx
        exact ⟨d, List.mem_cons_of_mem _ hd, q⟩

theorem entries_sorted (shift : Int64) (ws : List Way) (hid : ∀ w ∈ ws, 0 ≤ w.ID.toInt ∧ w.ID.toInt < 2 ^ 31)
    (hs : ws.Pairwise fun a b => a.ID.toInt < b.ID.toInt) :
    ∀ k, k + waysBlocks shift ws ≤ 2 ^ 33 →
    (entries shift k ws).Pairwise (fun a b => wId a < wId b) ∧
    (entries shift k ws).Pairwise (fun a b => wOffset a < wOffset b) := by
  induction ws with
  | nil => intro k _; exact ⟨.nil, .nil⟩
  | cons w ws ih =>
    intro k hk
    rw [waysBlocks_cons] at hk
    have hpos := wayBlocks_pos shift w
    obtain ⟨i0, i1⟩ := hid w (by simp)
    rw [List.pairwise_cons] at hs
    obtain ⟨r1, r2⟩ := ih (fun x hx => hid x (by simp [hx])) hs.2 (k + wayBlocks shift w) (by omega)
    obtain ⟨m1, -⟩ := entries_mem shift ws (fun x hx => hid x (by simp [hx])) (k + wayBlocks shift w)
      (List.replicate ((k + wayBlocks shift w) * 2 ^ shift.toInt.toNat) 0) (by simp) (by omega)
    have he := entry_id w.ID k i1 (by omega)
    have ho := entry_off w.ID k i1 (by omega)
    refine ⟨List.pairwise_cons.2 ⟨?_, r1⟩, List.pairwise_cons.2 ⟨?_, r2⟩⟩
    · intro d hd
      obtain ⟨x, hx, q1, -⟩ := m1 d hd
      have := hs.1 x hx
      omega
    · intro d hd
      obtain ⟨x, hx, -, q2, -⟩ := m1 d hd
      omega

theorem entries_ordered (shift : Int64) (ws : List Way) (h : WaysIndexable shift ws) :
    WayOrdered (entries shift 0 ws) (locData shift ws) shift where
  range := ⟨h.range.1, by have := h.range.2; omega⟩
  memory := by rw [locData_length]; have := h.memory; omega
  starts := by
    intro d hd
    obtain ⟨w, _, _, _, q3, _⟩ := (entries_mem shift ws h.ids 0 [] (by simp) (by have := h.space; omega)).1 d hd
    unfold wStart
    rw [locData_length]
    exact Nat.mul_le_mul_right _ (by omega)
  sorted := (entries_sorted shift ws h.ids h.ascending 0 (by have := h.space; omega)).1

theorem length_le_blocks (shift : Int64) (ws : List Way) : ws.length ≤ waysBlocks shift ws := by
  induction ws with
  | nil => simp
  | cons w ws ih =>
    rw [waysBlocks_cons, List.length_cons]
    have := wayBlocks_pos shift w
    omega

/-- One pass covers the index of some ways. -/
theorem single_pass (shift : Int64) (ws : List Way) (h : WaysIndexable shift ws) (hne : ws ≠ []) :
    ∃ si, WayIdx.SubIndexWithScaledPass ⟨entries shift 0 ws, locData shift ws, shift⟩ 0 1 = .ok si ∧
      si.Ids = entries shift 0 ws ∧ si.Loc = locData shift ws ∧ si.AlignmentShift = shift ∧ WayOrderedSub si := by
  have hw := entries_ordered shift ws h
  have hlen := entries_length shift ws 0
  have hpos : 0 < ws.length := List.length_pos_iff.2 hne
  have hs2 := (entries_sorted shift ws h.ids h.ascending 0 (by have := h.space; omega)).2
  have hstart : ∀ d ∈ entries shift 0 ws, wStart shift d < (locData shift ws).length := by
    intro d hd
    obtain ⟨w, _, _, _, q3, _⟩ := (entries_mem shift ws h.ids 0 [] (by simp) (by have := h.space; omega)).1 d hd
    unfold wStart
    rw [locData_length]
    have := wayBlocks_pos shift w
    exact Nat.mul_lt_mul_of_pos_right (by omega) (Nat.two_pow_pos _)
  have hso : (entries shift 0 ws).Pairwise fun a b => wStart shift a ≤ wStart shift b :=
    hs2.imp fun hab => Nat.mul_le_mul_right _ (Nat.le_of_lt hab)
  have := sub_ok ⟨entries shift 0 ws, locData shift ws, shift⟩ hw 1 0 (by omega) (by omega)
  dsimp only at this
  rw [Nat.div_one, Nat.mul_zero, Nat.mul_one] at this
  have he : before shift ((locData shift ws).length : Nat) (entries shift 0 ws) = (entries shift 0 ws).length := by
    have hle := before_le shift ((locData shift ws).length : Nat) (entries shift 0 ws)
    rcases Nat.lt_or_ge (before shift ((locData shift ws).length : Nat) (entries shift 0 ws))
      (entries shift 0 ws).length with hlt | hge
    · have := (before_iff ((locData shift ws).length : Nat) _ hso _ hlt).2 (by
        have := hstart _ (List.getElem_mem hlt)
        omega)
      omega
    · omega
  have ha : before shift (0 : Nat) (entries shift 0 ws) = 0 := by
    rcases Nat.eq_zero_or_pos (before shift (0 : Nat) (entries shift 0 ws)) with h0 | h0
    · exact h0
    · have := (before_iff (0 : Nat) _ hso 0 (by omega)).1 h0
      omega
  rw [he, ha, if_neg (by omega), List.take_length, if_pos (by omega), List.drop_zero,
    List.getElem?_eq_getElem (by omega)] at this
  refine ⟨_, this, rfl, rfl, rfl, ?_, ?_⟩
  · exact hw
  · intro d hd
    show (wId d : Int) ≤ (WayID _).toInt
    rw [wayID_eq]
    have hd : d ∈ entries shift 0 ws := hd
    obtain ⟨i, hi, rfl⟩ := List.getElem_of_mem hd
    rcases Nat.lt_or_ge i ((entries shift 0 ws).length - 1) with hlt | hge
    · have := sorted_get hw.sorted hlt (by omega)
      omega
    · have : i = (entries shift 0 ws).length - 1 := by
        have : i < (entries shift 0 ws).length := hi
        omega
      subst this
      exact Int.le_refl _

end Osm.WayIndexer
