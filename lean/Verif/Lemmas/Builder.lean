import Verif.Spec.Hl

namespace Osm.T
open Osm Osm.Spec

/-! ### Byte order -/

theorem strLt_iff (a b : GoStr) : strLt a b = true ↔ a < b := by
  induction a generalizing b with
  | nil => cases b <;> simp [strLt]
  | cons x xs ih =>
    cases b with
    | nil => simp [strLt]
    | cons y ys =>
      rw [strLt, List.cons_lt_cons_iff, ← ih]
      by_cases h1 : x < y
      · simp [h1]
      · by_cases h2 : y < x
        · simp only [h1, h2, if_false, if_true, false_or]
          constructor
          · simp
          · rintro ⟨rfl, _⟩; exact absurd h2 h1
        · have : x = y := by
            apply UInt8.toNat.inj
            rw [UInt8.lt_iff_toNat_lt] at h1 h2
            omega
          simp [this]

theorem strLt_irrefl (a : GoStr) : strLt a a = false := by
  induction a with
  | nil => rfl
  | cons x xs ih => simp [strLt, ih]

theorem strLt_trans : ∀ (a b c : GoStr), strLt a b = true → strLt b c = true → strLt a c = true
  | [], [], _, h, _ => by simp [strLt] at h
  | [], _ :: _, [], _, h => by simp [strLt] at h
  | [], _ :: _, _ :: _, _, _ => rfl
  | _ :: _, [], _, h, _ => by simp [strLt] at h
  | _ :: _, _ :: _, [], _, h => by simp [strLt] at h
  | x :: xs, y :: ys, z :: zs, h1, h2 => by
    have ih := strLt_trans xs ys zs
    simp only [strLt, UInt8.lt_iff_toNat_lt] at *
    grind

theorem strLt_total : ∀ (a b : GoStr), a ≠ b → strLt a b = true ∨ strLt b a = true
  | [], [], h => absurd rfl h
  | [], _ :: _, _ => Or.inl rfl
  | _ :: _, [], _ => Or.inr rfl
  | x :: xs, y :: ys, h => by
    have ih := strLt_total xs ys
    by_cases hxy : x = y
    · subst hxy
      have : xs ≠ ys := fun e => h (by rw [e])
      simpa [strLt] using ih this
    · have : x.toNat ≠ y.toNat := fun e => hxy (UInt8.toNat.inj e)
      simp only [strLt, UInt8.lt_iff_toNat_lt]
      grind

/-! ### Sorting -/

/-- A strict total order. -/
structure StrictTotal {α : Type} (less : α → α → Bool) : Prop where
  irrefl : ∀ a, less a a = false
  trans : ∀ a b c, less a b = true → less b c = true → less a c = true
  total : ∀ a b, a ≠ b → less a b = true ∨ less b a = true

theorem StrictTotal.asymm {α : Type} {less : α → α → Bool} (h : StrictTotal less) (a b : α)
    (h1 : less a b = true) : less b a = false := by
  cases h2 : less b a with
  | false => rfl
  | true => have := h.trans a b a h1 h2; rw [h.irrefl] at this; simp at this

theorem sortBy_perm {α : Type} (less : α → α → Bool) (xs : List α) : (sortBy less xs).Perm xs :=
  List.mergeSort_perm _ _

theorem sortBy_sorted {α : Type} [DecidableEq α] {less : α → α → Bool} (h : StrictTotal less)
    (xs : List α) : (sortBy less xs).Pairwise (fun a b => less b a = false) := by
  have := List.pairwise_mergeSort (le := fun a b => !less b a)
    (fun a b c h1 h2 => by
      simp only [Bool.not_eq_true'] at h1 h2 ⊢
      cases h3 : less c a with
      | false => rfl
      | true =>
        exfalso
        by_cases hbc : b = c
        · subst hbc; rw [h3] at h1; simp at h1
        · rcases h.total b c hbc with h4 | h4
          · have := h.trans _ _ _ h4 h3; rw [this] at h1; simp at h1
          · rw [h4] at h2; simp at h2)
    (fun a b => by
      by_cases hab : a = b
      · subst hab; simp [h.irrefl]
      · rcases h.total a b hab with h4 | h4
        · simp [h.asymm _ _ h4]
        · simp [h.asymm _ _ h4]) xs
  refine this.imp ?_
  intro a b hab
  simpa using hab

/-- Whatever algorithm sorts the list, the result is `sortBy`. -/
theorem sortBy_unique {α : Type} [DecidableEq α] {less : α → α → Bool} (h : StrictTotal less)
    (xs ys : List α) (hp : ys.Perm xs) (hs : ys.Pairwise (fun a b => less b a = false)) :
    ys = sortBy less xs := by
  refine List.Perm.eq_of_pairwise (le := fun a b => less b a = false) ?_ hs (sortBy_sorted h xs)
    (hp.trans (sortBy_perm less xs).symm)
  intro a b _ _ h1 h2
  by_cases hab : a = b
  · exact hab
  · rcases h.total a b hab with h3 | h3
    · rw [h3] at h2; simp at h2
    · rw [h3] at h1; simp at h1

theorem sortBy_congr {α : Type} [DecidableEq α] {less : α → α → Bool} (h : StrictTotal less)
    {xs ys : List α} (hp : xs.Perm ys) : sortBy less xs = sortBy less ys :=
  sortBy_unique h ys _ ((sortBy_perm less xs).trans hp) (sortBy_sorted h xs)

theorem strLt_strictTotal : StrictTotal strLt := ⟨strLt_irrefl, strLt_trans, strLt_total⟩

theorem less_strictTotal (stb : Builder) : StrictTotal stb.less where
  irrefl a := by simp [Builder.less, strLt_irrefl]
  trans a b c h1 h2 := by
    have ht := strLt_trans a b c
    unfold Builder.less at *
    simp only [ne_eq, gt_iff_lt, UInt32.lt_iff_toNat_lt, ← UInt32.toNat_inj] at *
    grind
  total a b hab := by
    have ht := strLt_total a b hab
    unfold Builder.less
    simp only [ne_eq, gt_iff_lt, UInt32.lt_iff_toNat_lt, ← UInt32.toNat_inj]
    grind

/-! ### Adding strings -/

/-- The frequency map after adding `xs`. -/
def freqOf (xs : List GoStr) (s : GoStr) : Option UInt32 :=
  if s = [] then some (UInt32.ofNat (0xffffffff + xs.count []))
  else if s ∈ xs then some (UInt32.ofNat (xs.count s)) else none

theorem uint32_ofNat_succ (n : Nat) : UInt32.ofNat n + 1 = UInt32.ofNat (n + 1) := by
  apply UInt32.toNat.inj; simp

theorem added_append (xs : List GoStr) (x : GoStr) : added (xs ++ [x]) = (added xs).AddString x := by
  simp [added]

theorem snoc_induction {α : Type} {P : List α → Prop} (h0 : P [])
    (h1 : ∀ xs x, P xs → P (xs ++ [x])) (xs : List α) : P xs := by
  have : ∀ ys : List α, P ys.reverse := by
    intro ys
    induction ys with
    | nil => simpa using h0
    | cons y ys ih => simpa using h1 _ y ih
  simpa using this xs.reverse

theorem count_ne {s x : GoStr} (h : s ≠ x) : List.count s [x] = 0 := by
  rw [List.count_eq_zero]; simpa using h

theorem added_freq (xs : List GoStr) : (added xs).stringFrequency = freqOf xs := by
  induction xs using snoc_induction with
  | h0 =>
    funext s
    simp [added, NewStringTableBuilder, freqOf]
  | h1 xs x ih =>
    rw [added_append]
    unfold Builder.AddString
    rw [ih]
    funext s
    by_cases hx : x = []
    · subst hx
      simp only [freqOf, if_true]
      by_cases hs : s = []
      · subst hs
        simp only [if_true, uint32_ofNat_succ, List.count_append, List.count_singleton_self,
          Nat.add_assoc]
      · simp only [if_neg hs, List.count_append, count_ne hs, Nat.add_zero]
        simp [hs]
    · have hx' : ([] : GoStr) ≠ x := fun e => hx e.symm
      by_cases hm : x ∈ xs
      · simp only [freqOf, if_neg hx, if_pos hm]
        by_cases hs : s = x
        · subst hs
          simp only [if_true, if_neg hx, uint32_ofNat_succ, List.count_append,
            List.count_singleton_self]
          simp
        · simp only [if_neg hs, List.count_append, count_ne hs, count_ne hx', Nat.add_zero]
          simp [hs]
      · simp only [freqOf, if_neg hx, if_neg hm]
        by_cases hs : s = x
        · subst hs
          simp only [if_true, if_neg hx, List.count_append, List.count_eq_zero.2 hm,
            List.count_singleton_self]
          simp
        · simp only [if_neg hs, List.count_append, count_ne hs, count_ne hx', Nat.add_zero]
          simp [hs]

theorem added_list (xs : List GoStr) :
    (added xs).stringList.Nodup ∧ ∀ s, s ∈ (added xs).stringList ↔ (s = [] ∨ s ∈ xs) := by
  induction xs using snoc_induction with
  | h0 => simp [added, NewStringTableBuilder]
  | h1 xs x ih =>
    rw [added_append]
    unfold Builder.AddString
    rw [added_freq]
    obtain ⟨h1, h2⟩ := ih
    unfold freqOf
    by_cases hx : x = []
    · subst hx
      simp only [if_true]
      refine ⟨h1, fun s => ?_⟩
      rw [h2]; simp; grind
    · simp only [if_neg hx]
      by_cases hm : x ∈ xs
      · simp only [if_pos hm]
        refine ⟨h1, fun s => ?_⟩
        rw [h2]; simp; grind
      · simp only [if_neg hm]
        constructor
        · rw [List.nodup_append]
          refine ⟨h1, by simp, ?_⟩
          intro a ha b hb
          simp at hb
          subst hb
          rw [h2] at ha
          rintro rfl
          rcases ha with ha | ha
          · exact hx ha
          · exact hm ha
        · intro s
          simp [h2, or_assoc]

theorem added_list_length (xs : List GoStr) : (added xs).stringList.length ≤ xs.length + 1 := by
  induction xs using snoc_induction with
  | h0 => simp [added, NewStringTableBuilder]
  | h1 xs x ih =>
    rw [added_append]
    unfold Builder.AddString
    split <;> simp <;> omega

theorem indexAll_eq (ss : List GoStr) (hn : ss.Nodup) (m : GoStr → Option UInt32) (i : Nat) (x : GoStr) :
    indexAll m i ss x = if x ∈ ss then some (UInt32.ofNat (i + ss.idxOf x)) else m x := by
  induction ss generalizing m i with
  | nil => simp [indexAll]
  | cons s ss ih =>
    unfold indexAll
    rw [List.nodup_cons] at hn
    rw [ih hn.2]
    by_cases h : x = s
    · subst h
      simp [hn.1]
    · have h' : s ≠ x := fun e => h e.symm
      have h2 : (s == x) = false := by simpa using h'
      rw [List.idxOf_cons, h2]
      simp only [List.mem_cons, h, false_or, cond_false, if_neg h, if_false]
      rw [show i + 1 + ss.idxOf x = i + (ss.idxOf x + 1) by omega]

/-- The final table. -/
def table (xs : List GoStr) : List GoStr := (added xs).Finalize.stringList

theorem table_perm (xs : List GoStr) : (table xs).Perm (added xs).stringList := sortBy_perm _ _

theorem table_nodup (xs : List GoStr) : (table xs).Nodup :=
  (table_perm xs).nodup_iff.2 (added_list xs).1

theorem mem_table (xs : List GoStr) (s : GoStr) : s ∈ table xs ↔ (s = [] ∨ s ∈ xs) := by
  rw [(table_perm xs).mem_iff]; exact (added_list xs).2 s

theorem table_length (xs : List GoStr) : (table xs).length ≤ xs.length + 1 := by
  rw [(table_perm xs).length_eq]; exact added_list_length xs

theorem getIndex_eq (xs : List GoStr) (s : GoStr) :
    (added xs).Finalize.GetIndex s =
      if s = [] ∨ s ∈ xs then .ok (UInt32.ofNat ((table xs).idxOf s)) else .panic := by
  unfold Finalized.GetIndex
  show Res.ofOption (indexAll (added xs).stringFrequency 0 (table xs) s) = _
  rw [indexAll_eq _ (table_nodup xs)]
  simp only [mem_table, Nat.zero_add]
  by_cases h : s = [] ∨ s ∈ xs
  · simp [h]
  · rw [if_neg h, if_neg h, added_freq]
    simp only [not_or] at h
    simp [freqOf, h.1, h.2]

theorem idxOf_lt_table (xs : List GoStr) (s : GoStr) (h : s = [] ∨ s ∈ xs) :
    (table xs).idxOf s < (table xs).length := by
  rw [List.idxOf_lt_length_iff]; exact (mem_table xs s).2 h

theorem table_get (xs : List GoStr) (hl : xs.length < 2 ^ 32) (s : GoStr) (h : s = [] ∨ s ∈ xs) :
    (UInt32.ofNat ((table xs).idxOf s)).toNat = (table xs).idxOf s ∧
    (table xs)[(UInt32.ofNat ((table xs).idxOf s)).toNat]? = some s := by
  have h1 := idxOf_lt_table xs s h
  have h2 := table_length xs
  have : (UInt32.ofNat ((table xs).idxOf s)).toNat = (table xs).idxOf s := by
    simp; omega
  refine ⟨this, ?_⟩
  rw [this, List.getElem?_eq_getElem h1, List.getElem_idxOf]

theorem freqOf_perm {xs ys : List GoStr} (h : xs.Perm ys) : freqOf xs = freqOf ys := by
  funext s
  unfold freqOf
  simp [h.count_eq, h.mem_iff]

theorem finalize_perm {xs ys : List GoStr} (h : xs.Perm ys) :
    (added xs).Finalize = (added ys).Finalize := by
  have hf : (added xs).stringFrequency = (added ys).stringFrequency := by
    rw [added_freq, added_freq, freqOf_perm h]
  have hless : (added xs).less = (added ys).less := by
    funext a b; unfold Builder.less Builder.freq; rw [hf]
  have hp : (added xs).stringList.Perm (added ys).stringList := by
    rw [List.perm_ext_iff_of_nodup (added_list xs).1 (added_list ys).1]
    intro s
    rw [(added_list xs).2, (added_list ys).2, h.mem_iff]
  unfold Builder.Finalize
  rw [hf, hless, sortBy_congr (less_strictTotal _) hp]

theorem table_sorted (xs : List GoStr) :
    (table xs).Pairwise (fun a b => (added xs).less b a = false) :=
  sortBy_sorted (less_strictTotal _) _

theorem freq_nonempty (xs : List GoStr) (hl : xs.length < 2 ^ 32) (s : GoStr) (hs : s ≠ []) :
    ((added xs).freq s).toNat = xs.count s := by
  unfold Builder.freq
  rw [added_freq]
  simp only [freqOf, if_neg hs]
  have := List.count_le_length (a := s) (l := xs)
  split
  · simp; omega
  · next h => simp [List.count_eq_zero.2 h]

theorem table_before (xs : List GoStr) (hl : xs.length < 2 ^ 32) :
    ((table xs).filter (· ≠ [])).Pairwise (Before xs) := by
  rw [List.pairwise_filter]
  have h1 := table_sorted xs
  have h2 : (table xs).Pairwise (· ≠ ·) := table_nodup xs
  refine (h1.and h2).imp ?_
  rintro a b ⟨hab, hne⟩ ha hb
  have ha : a ≠ [] := by simpa using ha
  have hb : b ≠ [] := by simpa using hb
  have ca := freq_nonempty xs hl a ha
  have cb := freq_nonempty xs hl b hb
  unfold Before
  rw [← ca, ← cb, ← strLt_iff]
  have ht := strLt_total a b hne
  unfold Builder.less at hab
  simp only [ne_eq, gt_iff_lt, UInt32.lt_iff_toNat_lt, ← UInt32.toNat_inj] at hab
  grind

theorem table_head (xs : List GoStr) (hl : xs.length < 2 ^ 32) (he : [] ∉ xs) :
    (table xs).idxOf [] = 0 := by
  have hmem : [] ∈ table xs := (mem_table xs _).2 (Or.inl rfl)
  have h1 := table_sorted xs
  have h2 : (table xs).Pairwise (· ≠ ·) := table_nodup xs
  have h := h1.and h2
  cases ht : table xs with
  | nil => rw [ht] at hmem; simp at hmem
  | cons a l =>
    rw [ht] at hmem h
    by_cases hae : a = []
    · subst hae; simp
    · exfalso
      have hb : [] ∈ l := by
        rcases List.mem_cons.1 hmem with h | h
        · exact absurd h.symm hae
        · exact h
      obtain ⟨hlt, hne⟩ := (List.pairwise_cons.1 h).1 [] hb
      have ha := freq_nonempty xs hl a hae
      have hc := List.count_le_length (a := a) (l := xs)
      have he' : ((added xs).freq []).toNat = 0xffffffff := by
        unfold Builder.freq
        rw [added_freq]
        simp [freqOf, List.count_eq_zero.2 he]
      have hs : strLt [] a = true := by
        cases a with
        | nil => exact absurd rfl hae
        | cons x xs => rfl
      unfold Builder.less at hlt
      simp only [ne_eq, gt_iff_lt, UInt32.lt_iff_toNat_lt, ← UInt32.toNat_inj] at hlt
      rw [he', ha] at hlt
      grind

end Osm.T
