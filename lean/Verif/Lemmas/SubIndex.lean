import Verif.Lemmas.NodeIndex
import Verif.Lemmas.Hl

namespace Osm.NodeIndex
open Osm Osm.Spec

/-- The first position whose running total has reached the target, or the end. -/
def cutAt (t : Nat) : Nat → List IndexElement → Nat
  | _, [] => 0
  | acc, e :: es => if t ≤ acc then 0 else cutAt t (acc + rCount e) es + 1

theorem slotCount_nil : slotCount [] = 0 := rfl
theorem slotCount_cons (e : IndexElement) (es : List IndexElement) :
    slotCount (e :: es) = rCount e + slotCount es := by simp [slotCount]
theorem slotCount_append (a b : List IndexElement) :
    slotCount (a ++ b) = slotCount a + slotCount b := by simp [slotCount]

theorem cutAt_le (t : Nat) : ∀ (acc : Nat) (es : List IndexElement), cutAt t acc es ≤ es.length
  | _, [] => by simp [cutAt]
  | acc, e :: es => by
    unfold cutAt
    have := cutAt_le t (acc + rCount e) es
    split <;> simp <;> omega

/-- Before the cut the total is below the target. -/
theorem cutAt_below (t : Nat) : ∀ (acc : Nat) (es : List IndexElement) (j : Nat), j < cutAt t acc es →
    acc + slotCount (es.take j) < t
  | _, [], j, h => by simp [cutAt] at h
  | acc, e :: es, j, h => by
    unfold cutAt at h
    split at h
    · omega
    · cases j with
      | zero => simp [slotCount]; omega
      | succ j =>
        have := cutAt_below t (acc + rCount e) es j (by omega)
        simp only [List.take_succ_cons, slotCount_cons]
        omega

/-- At the cut, if it is not the end, the total has reached the target. -/
theorem cutAt_reached (t : Nat) : ∀ (acc : Nat) (es : List IndexElement), cutAt t acc es < es.length →
    t ≤ acc + slotCount (es.take (cutAt t acc es))
  | _, [], h => by simp [cutAt] at h
  | acc, e :: es, h => by
    unfold cutAt at h ⊢
    split
    · simp [slotCount]; omega
    · next hn =>
      simp only [hn, if_false, List.length_cons] at h
      have := cutAt_reached t (acc + rCount e) es (by omega)
      simp only [List.take_succ_cons, slotCount_cons]
      omega

theorem slotCount_take_mono (es : List IndexElement) {i j : Nat} (h : i ≤ j) :
    slotCount (es.take i) ≤ slotCount (es.take j) := by
  have : es.take j = es.take i ++ (es.take j).drop i := by
    have := (List.take_append_drop i (es.take j)).symm
    rwa [List.take_take, Nat.min_eq_left h] at this
  rw [this, slotCount_append]
  omega

theorem cutAt_mono {t t' : Nat} (h : t ≤ t') (es : List IndexElement) :
    cutAt t 0 es ≤ cutAt t' 0 es := by
  rcases Nat.lt_or_ge (cutAt t' 0 es) (cutAt t 0 es) with hlt | hge
  · have h1 := cutAt_below t 0 es _ hlt
    have h2 := cutAt_le t 0 es
    have h3 := cutAt_reached t' 0 es (by omega)
    omega
  · exact hge

theorem cutAt_lt_iff (t : Nat) (es : List IndexElement) (hne : es ≠ []) :
    cutAt t 0 es < es.length ↔ t ≤ slotCount es.dropLast := by
  rw [List.dropLast_eq_take]
  have hpos : 0 < es.length := List.length_pos_iff.2 hne
  constructor
  · intro h
    have := cutAt_reached t 0 es h
    have := slotCount_take_mono es (show cutAt t 0 es ≤ es.length - 1 by omega)
    omega
  · intro h
    rcases Nat.lt_or_ge (cutAt t 0 es) es.length with hlt | hge
    · exact hlt
    · have := cutAt_below t 0 es (es.length - 1) (by omega)
      omega

theorem firstReaching_eq (target : UInt64) : ∀ (es : List IndexElement) (i : Nat) (total : UInt64),
    total.toNat + slotCount es < 2 ^ 64 →
    (cutAt target.toNat total.toNat es < es.length →
      (firstReaching target i total es).1 = some (i + cutAt target.toNat total.toNat es) ∧
      (firstReaching target i total es).2.toNat = total.toNat + slotCount (es.take (cutAt target.toNat total.toNat es))) ∧
    (cutAt target.toNat total.toNat es = es.length →
      (firstReaching target i total es).1 = none ∧
      (firstReaching target i total es).2.toNat = total.toNat + slotCount es)
  | [], i, total, _ => by simp [cutAt, firstReaching, slotCount]
  | e :: es, i, total, h => by
    rw [slotCount_cons] at h
    have hadd : (total + e.Count).toNat = total.toNat + rCount e := by
      rw [UInt64.toNat_add, count_eq]; omega
    have ih := firstReaching_eq target es (i + 1) (total + e.Count) (by rw [hadd]; omega)
    rw [hadd] at ih
    unfold firstReaching cutAt
    have hcond : (total ≥ target) ↔ target.toNat ≤ total.toNat := UInt64.le_iff_toNat_le
    by_cases hc : target.toNat ≤ total.toNat
    · rw [if_pos (hcond.2 hc), if_pos hc]
      simp [slotCount]
    · rw [if_neg (mt hcond.1 hc), if_neg hc]
      simp only [List.length_cons, List.take_succ_cons, slotCount_cons, Nat.add_lt_add_iff_right,
        Nat.add_right_cancel_iff]
      refine ⟨fun hlt => ?_, fun heq => ?_⟩
      · obtain ⟨h1, h2⟩ := ih.1 hlt
        rw [h1, h2]
        exact ⟨by congr 1; omega, by omega⟩
      · obtain ⟨h1, h2⟩ := ih.2 heq
        rw [h1, h2]
        exact ⟨rfl, by omega⟩

/-- Cutting the rest at a later target. -/
theorem cutAt_drop {t t' : Nat} (h : t ≤ t') : ∀ (acc : Nat) (es : List IndexElement),
    cutAt t acc es + cutAt t' (acc + slotCount (es.take (cutAt t acc es))) (es.drop (cutAt t acc es))
      = cutAt t' acc es
  | acc, [] => by simp [cutAt]
  | acc, e :: es => by
    have e1 : cutAt t acc (e :: es) = if t ≤ acc then 0 else cutAt t (acc + rCount e) es + 1 := rfl
    have e2 : cutAt t' acc (e :: es) = if t' ≤ acc then 0 else cutAt t' (acc + rCount e) es + 1 := rfl
    by_cases h1 : t ≤ acc
    · rw [e1, if_pos h1]
      simp only [List.take_zero, slotCount_nil, List.drop_zero, Nat.add_zero, Nat.zero_add]
    · rw [e1, e2, if_neg h1, if_neg (by omega)]
      have := cutAt_drop h (acc + rCount e) es
      simp only [List.take_succ_cons, List.drop_succ_cons, slotCount_cons]
      rw [← Nat.add_assoc acc]
      omega

/-- What a pass is: the ranges between two cuts; or a panic if no range starts late enough. -/
theorem subIndex_eq (ix : NodeIdx) (hc : Complete ix) (hL : ix.locations.length < 2 ^ 63) (p n : Nat)
    (hn : p < n) (hn64 : n < 2 ^ 64) :
    ix.SubIndex (UInt64.ofNat p) (UInt64.ofNat n) =
      let s := ix.locations.length / n
      let a := cutAt (s * p) 0 ix.elements
      let b := cutAt (s * (p + 1)) 0 ix.elements
      if a < ix.elements.length ∧ 0 < b then
        (match ix.elements[b - 1]? with
         | some last => .ok ⟨(ix.elements.take b).drop a, ix.locations, last.LastID⟩
         | none => .panic)
      else .panic := by
  have hnn : (UInt64.ofNat n).toNat = n := by simp; omega
  have hpp : (UInt64.ofNat p).toNat = p := by simp; omega
  have hll : (UInt64.ofNat ix.locations.length).toNat = ix.locations.length := by simp; omega
  have hdiv : (UInt64.ofNat ix.locations.length / UInt64.ofNat n).toNat = ix.locations.length / n := by
    rw [UInt64.toNat_div, hll, hnn]
  have hsn : ix.locations.length / n * n ≤ ix.locations.length := Nat.div_mul_le_self _ _
  have hsp : ix.locations.length / n * p + ix.locations.length / n ≤ ix.locations.length := by
    have : ix.locations.length / n * (p + 1) ≤ ix.locations.length / n * n := Nat.mul_le_mul_left _ hn
    rw [Nat.mul_add, Nat.mul_one] at this
    omega
  have hst : (UInt64.ofNat ix.locations.length / UInt64.ofNat n * UInt64.ofNat p).toNat
      = ix.locations.length / n * p := by
    rw [UInt64.toNat_mul, hdiv, hpp, Nat.mod_eq_of_lt]; omega
  have het : (UInt64.ofNat ix.locations.length / UInt64.ofNat n * UInt64.ofNat p
        + UInt64.ofNat ix.locations.length / UInt64.ofNat n).toNat
      = ix.locations.length / n * (p + 1) := by
    rw [UInt64.toNat_add, hst, hdiv, Nat.mul_add, Nat.mul_one, Nat.mod_eq_of_lt]; omega
  have hne : UInt64.ofNat n ≠ 0 := by
    intro h
    have := congrArg UInt64.toNat h
    rw [hnn] at this
    simp at this
    omega
  unfold Complete at hc
  unfold NodeIdx.SubIndex
  rw [if_neg hne]
  dsimp only
  have f1 := firstReaching_eq (UInt64.ofNat ix.locations.length / UInt64.ofNat n * UInt64.ofNat p)
    ix.elements 0 0 (by rw [show (0 : UInt64).toNat = 0 from rfl]; omega)
  rw [hst, show (0 : UInt64).toNat = 0 from rfl] at f1
  generalize hsdef : ix.locations.length / n = s at *
  generalize hadef : cutAt (s * p) 0 ix.elements = a at *
  have hale : a ≤ ix.elements.length := hadef ▸ cutAt_le _ _ _
  rcases Nat.lt_or_ge a ix.elements.length with hlt | hge
  · obtain ⟨e1, e2⟩ := f1.1 hlt
    rw [e1]
    simp only [Nat.zero_add, Option.getD_some]
    have hsplit : slotCount (ix.elements.take a) + slotCount (ix.elements.drop a) = slotCount ix.elements := by
      rw [← slotCount_append, List.take_append_drop]
    have f2 := firstReaching_eq (UInt64.ofNat ix.locations.length / UInt64.ofNat n * UInt64.ofNat p
        + UInt64.ofNat ix.locations.length / UInt64.ofNat n) (ix.elements.drop a) a
      (firstReaching (UInt64.ofNat ix.locations.length / UInt64.ofNat n * UInt64.ofNat p) 0 0 ix.elements).2
      (by rw [e2]; omega)
    rw [e2, het, Nat.zero_add] at f2
    have hd := cutAt_drop (show s * p ≤ s * (p + 1) from Nat.mul_le_mul_left _ (by omega)) 0 ix.elements
    rw [hadef, Nat.zero_add] at hd
    generalize cutAt (s * (p + 1)) 0 ix.elements = b at *
    have hend : (firstReaching (UInt64.ofNat ix.locations.length / UInt64.ofNat n * UInt64.ofNat p
        + UInt64.ofNat ix.locations.length / UInt64.ofNat n) a
        (firstReaching (UInt64.ofNat ix.locations.length / UInt64.ofNat n * UInt64.ofNat p) 0 0 ix.elements).2
        (ix.elements.drop a)).1.getD ix.elements.length = b := by
      rcases Nat.lt_or_ge (cutAt (s * (p + 1)) (slotCount (ix.elements.take a)) (ix.elements.drop a))
          (ix.elements.drop a).length with h | h
      · rw [(f2.1 h).1]
        exact hd
      · have := cutAt_le (s * (p + 1)) (slotCount (ix.elements.take a)) (ix.elements.drop a)
        rw [(f2.2 (by omega)).1]
        simp only [Option.getD_none]
        rw [List.length_drop] at h this
        omega
    rw [hend]
    by_cases hb : b = 0
    · rw [if_pos hb, if_neg (by omega)]
    · rw [if_neg hb, if_pos ⟨hlt, by omega⟩]
      cases ix.elements[b - 1]? <;> rfl
  · have hae : a = ix.elements.length := by omega
    obtain ⟨e1, e2⟩ := f1.2 hae
    rw [e1]
    simp only [Option.getD_none, List.drop_zero]
    have hzero : (firstReaching (UInt64.ofNat ix.locations.length / UInt64.ofNat n * UInt64.ofNat p
        + UInt64.ofNat ix.locations.length / UInt64.ofNat n) 0
        (firstReaching (UInt64.ofNat ix.locations.length / UInt64.ofNat n * UInt64.ofNat p) 0 0 ix.elements).2
        ix.elements).1.getD ix.elements.length = 0 := by
      cases he : ix.elements with
      | nil => rfl
      | cons x xs =>
        rw [← he]
        rw [he, firstReaching, if_pos]
        · rfl
        · rw [ge_iff_le, UInt64.le_iff_toNat_le, het, ← he, e2, Nat.mul_add, Nat.mul_one]
          omega
    rw [hzero, if_pos rfl, if_neg (by omega)]

/-- Passes are well-formed. -/
theorem subIndex_wf (ix : NodeIdx) (wf : WellFormed ix.elements ix.locations) (p n : UInt64) (si : SubIdx)
    (h : ix.SubIndex p n = .ok si) :
    WellFormedSub si ∧ si.locations = ix.locations ∧ ∀ e ∈ si.element, e ∈ ix.elements := by
  unfold NodeIdx.SubIndex at h
  split at h
  · simp at h
  · dsimp only at h
    split at h
    · simp at h
    · next hne =>
      rw [Res.bind_eq_ok] at h
      obtain ⟨last, h1, h2⟩ := h
      rw [Res.ofOption_eq_ok] at h1
      simp only [Res.ok.injEq] at h2
      subst h2
      generalize (firstReaching _ _ _ _).1.getD ix.elements.length = b at *
      generalize (firstReaching _ _ _ _).1.getD 0 = a at *
      have hsub : ((ix.elements.take b).drop a).Sublist ix.elements :=
        (List.drop_sublist _ _).trans (List.take_sublist _ _)
      have hmem : ∀ e ∈ (ix.elements.take b).drop a, e ∈ ix.elements := fun e he => hsub.subset he
      have hbl : b - 1 < ix.elements.length := by
        rcases Nat.lt_or_ge (b - 1) ix.elements.length with h | h
        · exact h
        · rw [List.getElem?_eq_none h] at h1; simp at h1
      rw [List.getElem?_eq_getElem hbl] at h1
      simp only [Option.some.injEq] at h1
      refine ⟨⟨⟨fun e he => wf.nonempty e (hmem e he), fun e he => wf.ids e (hmem e he),
        fun e he => wf.slots e (hmem e he), wf.sorted.sublist hsub⟩, ?_⟩, rfl, hmem⟩
      intro e he
      subst h1
      have hlm : ix.elements[b - 1] ∈ ix.elements := List.getElem_mem hbl
      dsimp only
      rw [last_eq _ (wf.nonempty _ hlm) (wf.ids _ hlm)]
      have he2 := List.mem_of_mem_drop he
      obtain ⟨k, hk, hke⟩ := List.getElem_of_mem he2
      rw [List.length_take] at hk
      rw [List.getElem_take] at hke
      subst hke
      have := wf.nonempty _ hlm
      rcases Nat.lt_or_ge k (b - 1) with hkb | hkb
      · have := sorted_get wf hkb hbl
        omega
      · have : k = b - 1 := by omega
        subst this
        omega

theorem mapRes_snoc {α β : Type} (f : α → Res β) (xs : List α) (x : α) (ys : List β)
    (h : mapRes f (xs ++ [x]) = .ok ys) :
    ∃ ys' y, mapRes f xs = .ok ys' ∧ f x = .ok y ∧ ys = ys' ++ [y] := by
  induction xs generalizing ys with
  | nil =>
    rw [List.nil_append] at h
    unfold mapRes mapRes at h
    rw [Res.bind_eq_ok] at h
    obtain ⟨y, h1, h2⟩ := h
    simp only [Res.ok_bind, Res.ok.injEq] at h2
    exact ⟨[], y, rfl, h1, by rw [← h2]; rfl⟩
  | cons a xs ih =>
    rw [List.cons_append] at h
    unfold mapRes at h
    rw [Res.bind_eq_ok] at h
    obtain ⟨y, h1, h2⟩ := h
    rw [Res.bind_eq_ok] at h2
    obtain ⟨ys2, h3, h4⟩ := h2
    simp only [Res.ok.injEq] at h4
    obtain ⟨ys', z, h5, h6, h7⟩ := ih ys2 h3
    refine ⟨y :: ys', z, ?_, h6, ?_⟩
    · unfold mapRes
      rw [h1, Res.ok_bind, h5]
      rfl
    · rw [← h4, h7]; rfl

theorem mapRes_mem {α β : Type} {f : α → Res β} {xs : List α} {ys : List β}
    (h : mapRes f xs = .ok ys) : ∀ x ∈ xs, ∃ y, f x = .ok y := by
  induction xs generalizing ys with
  | nil => simp
  | cons a xs ih =>
    unfold mapRes at h
    rw [Res.bind_eq_ok] at h
    obtain ⟨y, h1, h2⟩ := h
    rw [Res.bind_eq_ok] at h2
    obtain ⟨ys2, h3, h4⟩ := h2
    intro x hx
    rcases List.mem_cons.1 hx with rfl | hx
    · exact ⟨y, h1⟩
    · exact ih h3 x hx

theorem mapRes_exists {α β : Type} {f : α → Res β} {xs : List α} (h : ∀ x ∈ xs, ∃ y, f x = .ok y) :
    ∃ ys, mapRes f xs = .ok ys := by
  induction xs with
  | nil => exact ⟨[], rfl⟩
  | cons a xs ih =>
    obtain ⟨y, hy⟩ := h a (by simp)
    obtain ⟨ys, hys⟩ := ih fun x hx => h x (by simp [hx])
    refine ⟨y :: ys, ?_⟩
    unfold mapRes
    rw [hy, Res.ok_bind, hys]
    rfl

/-- The `p`-th pass in terms of cuts. -/
theorem subIndex_ok (ix : NodeIdx) (hc : Complete ix) (hL : ix.locations.length < 2 ^ 63) (p n : Nat)
    (hn : p < n) (hn64 : n < 2 ^ 64) (si : SubIdx)
    (h : ix.SubIndex (UInt64.ofNat p) (UInt64.ofNat n) = .ok si) :
    cutAt (ix.locations.length / n * p) 0 ix.elements < ix.elements.length ∧
    0 < cutAt (ix.locations.length / n * (p + 1)) 0 ix.elements ∧
    si.element = (ix.elements.take (cutAt (ix.locations.length / n * (p + 1)) 0 ix.elements)).drop
      (cutAt (ix.locations.length / n * p) 0 ix.elements) := by
  rw [subIndex_eq ix hc hL p n hn hn64] at h
  dsimp only at h
  split at h
  · next hcond =>
    split at h
    · simp only [Res.ok.injEq] at h
      exact ⟨hcond.1, hcond.2, by rw [← h]⟩
    · simp at h
  · simp at h

theorem subIndex_exists (ix : NodeIdx) (hc : Complete ix) (hL : ix.locations.length < 2 ^ 63) (p n : Nat)
    (hn : p < n) (hn64 : n < 2 ^ 64)
    (h1 : cutAt (ix.locations.length / n * p) 0 ix.elements < ix.elements.length)
    (h2 : 0 < cutAt (ix.locations.length / n * (p + 1)) 0 ix.elements) :
    ∃ si, ix.SubIndex (UInt64.ofNat p) (UInt64.ofNat n) = .ok si := by
  rw [subIndex_eq ix hc hL p n hn hn64]
  dsimp only
  rw [if_pos ⟨h1, h2⟩]
  have := cutAt_le (ix.locations.length / n * (p + 1)) 0 ix.elements
  rw [List.getElem?_eq_getElem (by omega)]
  exact ⟨_, rfl⟩

theorem take_cut_append (ix : NodeIdx) (s p : Nat) :
    ix.elements.take (cutAt (s * p) 0 ix.elements) ++
      (ix.elements.take (cutAt (s * (p + 1)) 0 ix.elements)).drop (cutAt (s * p) 0 ix.elements)
    = ix.elements.take (cutAt (s * (p + 1)) 0 ix.elements) := by
  have hle := cutAt_mono (show s * p ≤ s * (p + 1) from Nat.mul_le_mul_left _ (by omega)) ix.elements
  have := (List.take_append_drop (cutAt (s * p) 0 ix.elements)
    (ix.elements.take (cutAt (s * (p + 1)) 0 ix.elements)))
  rwa [List.take_take, Nat.min_eq_left hle] at this

theorem cutAt_zero (es : List IndexElement) : cutAt 0 0 es = 0 := by
  cases es <;> simp [cutAt]

theorem passes_concat (ix : NodeIdx) (hc : Complete ix) (hL : ix.locations.length < 2 ^ 63) (n : Nat)
    (hn64 : n < 2 ^ 64) : ∀ (k : Nat), k ≤ n → ∀ subs,
    mapRes (fun p => ix.SubIndex (UInt64.ofNat p) (UInt64.ofNat n)) (List.range k) = .ok subs →
    subs.flatMap (·.element) = ix.elements.take (cutAt (ix.locations.length / n * k) 0 ix.elements)
  | 0, _, subs, h => by
    simp only [List.range_zero, mapRes, Res.ok.injEq] at h
    subst h
    simp [cutAt_zero]
  | k + 1, hk, subs, h => by
    rw [List.range_succ] at h
    obtain ⟨ys', y, h1, h2, rfl⟩ := mapRes_snoc _ _ _ _ h
    have ih := passes_concat ix hc hL n hn64 k (by omega) ys' h1
    obtain ⟨_, _, h3⟩ := subIndex_ok ix hc hL k n (by omega) hn64 y h2
    rw [List.flatMap_append, ih, List.flatMap_cons, List.flatMap_nil, List.append_nil, h3,
      take_cut_append]

theorem passes_iff (ix : NodeIdx) (hc : Complete ix) (hL : ix.locations.length < 2 ^ 63) (n : Nat)
    (hn : 1 ≤ n) (hn64 : n < 2 ^ 64) :
    PassesCover ix n ↔ ∃ last, ix.elements.getLast? = some last ∧
      ix.locations.length % n < rCount last ∧
      rCount last ≤ ix.locations.length / n + ix.locations.length % n := by
  have hdm := Nat.div_add_mod ix.locations.length n
  have hs1 : ix.locations.length / n * n = n * (ix.locations.length / n) := Nat.mul_comm _ _
  have hs2 : ix.locations.length / n * (n - 1) + ix.locations.length / n = ix.locations.length / n * n := by
    rw [← Nat.mul_succ]; congr 1; omega
  unfold PassesCover
  cases hgl : ix.elements.getLast? with
  | none =>
    have hnil : ix.elements = [] := by simpa using hgl
    simp only [reduceCtorEq, false_and, exists_false, iff_false]
    rintro ⟨subs, h, -⟩
    obtain ⟨si, hsi⟩ := mapRes_mem h 0 (by simp; omega)
    have := subIndex_ok ix hc hL 0 n (by omega) hn64 si hsi
    rw [hnil] at this
    simp at this
  | some last =>
    have hne : ix.elements ≠ [] := by rintro h; rw [h] at hgl; simp at hgl
    have hlast : ix.elements.dropLast ++ [last] = ix.elements := by
      have hl2 : ix.elements.getLast hne = last := by
        rw [List.getLast?_eq_some_getLast hne] at hgl
        simpa using hgl
      rw [← hl2]
      exact List.dropLast_concat_getLast hne
    have hD : slotCount ix.elements.dropLast + rCount last = ix.locations.length := by
      unfold Complete at hc
      rw [← hc]
      conv => rhs; rw [← hlast]
      rw [slotCount_append]
      simp [slotCount]
    have hcond : (∃ l, some last = some l ∧ ix.locations.length % n < rCount l ∧
        rCount l ≤ ix.locations.length / n + ix.locations.length % n) ↔
        (ix.locations.length / n * (n - 1) ≤ slotCount ix.elements.dropLast ∧
          ¬ ix.locations.length / n * n ≤ slotCount ix.elements.dropLast) := by
      constructor
      · rintro ⟨l, h, h1, h2⟩
        simp only [Option.some.injEq] at h
        subst h
        omega
      · rintro ⟨h1, h2⟩
        exact ⟨last, rfl, by omega, by omega⟩
    rw [hcond, ← cutAt_lt_iff _ _ hne, ← cutAt_lt_iff _ _ hne]
    constructor
    · rintro ⟨subs, h, hall⟩
      obtain ⟨si, hsi⟩ := mapRes_mem h (n - 1) (by simp; omega)
      obtain ⟨h1, -, -⟩ := subIndex_ok ix hc hL (n - 1) n (by omega) hn64 si hsi
      refine ⟨h1, fun hlt => ?_⟩
      have := passes_concat ix hc hL n hn64 n (Nat.le_refl _) subs h
      rw [hall] at this
      have := congrArg List.length this
      rw [List.length_take] at this
      omega
    · rintro ⟨h1, h2⟩
      have hex : ∀ p ∈ List.range n, ∃ si, ix.SubIndex (UInt64.ofNat p) (UInt64.ofNat n) = .ok si := by
        intro p hp
        have hp : p < n := by simpa using hp
        refine subIndex_exists ix hc hL p n hp hn64 ?_ ?_
        · have := cutAt_mono (Nat.mul_le_mul_left (ix.locations.length / n) (show p ≤ n - 1 by omega))
            ix.elements
          omega
        · have hspos : 0 < ix.locations.length / n := by
            rcases Nat.eq_zero_or_pos (ix.locations.length / n) with h0 | h0
            · exfalso
              apply h2
              rw [h0, Nat.zero_mul, cutAt_zero]
              exact List.length_pos_iff.2 hne
            · exact h0
          have hpos : 0 < ix.locations.length / n * (p + 1) := Nat.mul_pos hspos (by omega)
          rcases Nat.eq_zero_or_pos (cutAt (ix.locations.length / n * (p + 1)) 0 ix.elements) with h0 | h0
          · have := cutAt_reached (ix.locations.length / n * (p + 1)) 0 ix.elements
              (by rw [h0]; exact List.length_pos_iff.2 hne)
            rw [h0] at this
            simp [slotCount] at this
            omega
          · exact h0
      obtain ⟨subs, hsubs⟩ := mapRes_exists hex
      refine ⟨subs, hsubs, ?_⟩
      rw [passes_concat ix hc hL n hn64 n (Nat.le_refl _) subs hsubs]
      have := cutAt_le (ix.locations.length / n * n) 0 ix.elements
      rw [List.take_of_length_le (by omega)]

/-- All but the last range of a pass start below the pass's share. -/
theorem pass_size (ix : NodeIdx) (hc : Complete ix) (hL : ix.locations.length < 2 ^ 63) (p n : Nat)
    (hn : p < n) (hn64 : n < 2 ^ 64) (si : SubIdx)
    (h : ix.SubIndex (UInt64.ofNat p) (UInt64.ofNat n) = .ok si) :
    slotCount si.element.dropLast ≤ ix.locations.length / n := by
  obtain ⟨h1, h2, h3⟩ := subIndex_ok ix hc hL p n hn hn64 si h
  have ha := cutAt_reached _ 0 ix.elements h1
  generalize hadef : cutAt (ix.locations.length / n * p) 0 ix.elements = a at *
  have hb := cutAt_below (ix.locations.length / n * (p + 1)) 0 ix.elements
  generalize hbdef : cutAt (ix.locations.length / n * (p + 1)) 0 ix.elements = b at *
  have hab : a ≤ b := by
    rw [← hadef, ← hbdef]
    exact cutAt_mono (Nat.mul_le_mul_left _ (by omega)) _
  rcases Nat.lt_or_ge a b with hlt | hge
  · have hd : si.element.dropLast = (ix.elements.take (b - 1)).drop a := by
      rw [h3, List.dropLast_eq_take, List.length_drop, List.length_take, List.take_drop, List.take_take]
      have := cutAt_le (ix.locations.length / n * (p + 1)) 0 ix.elements
      congr 2
      omega
    have hb1 := hb (b - 1) (by omega)
    have hsum : slotCount (ix.elements.take a) + slotCount ((ix.elements.take (b - 1)).drop a)
        = slotCount (ix.elements.take (b - 1)) := by
      have := List.take_append_drop a (ix.elements.take (b - 1))
      rw [List.take_take, Nat.min_eq_left (by omega)] at this
      rw [← slotCount_append, this]
    rw [hd]
    rw [Nat.mul_add, Nat.mul_one] at hb1
    omega
  · have : si.element = [] := by
      rw [h3]
      apply List.drop_eq_nil_of_le
      rw [List.length_take]
      omega
    rw [this]
    simp [slotCount]

end Osm.NodeIndex
