import Verif.Lemmas.TagFilter
import Verif.Spec.Count

/-! # Counting -/

namespace Osm.Count
open Osm Osm.Pb Osm.T Osm.Spec

section
variable {V : Type} [DecidableEq V]

theorem maxArgs_append (v : V) (a b : List (Op V)) : maxArgs v (a ++ b) = maxArgs v a ++ maxArgs v b := by
  simp [maxArgs, List.filterMap_append]

theorem maxArgs_max (v : V) (x : UInt64) (o : List (Op V)) : maxArgs v (.setMax v x :: o) = x :: maxArgs v o := by
  simp [maxArgs]

theorem maxArgs_max_ne {v w : V} (h : w ≠ v) (x : UInt64) (o : List (Op V)) :
    maxArgs v (.setMax w x :: o) = maxArgs v o := by
  simp [maxArgs, h]

theorem maxArgs_add (v w : V) (x : UInt64) (o : List (Op V)) : maxArgs v (.add w x :: o) = maxArgs v o := by
  simp [maxArgs]

theorem addArgs_add (v : V) (x : UInt64) (o : List (Op V)) : addArgs v (.add v x :: o) = x :: addArgs v o := by
  simp [addArgs]

theorem addArgs_add_ne {v w : V} (h : w ≠ v) (x : UInt64) (o : List (Op V)) :
    addArgs v (.add w x :: o) = addArgs v o := by
  simp [addArgs, h]

theorem addArgs_max (v w : V) (x : UInt64) (o : List (Op V)) : addArgs v (.setMax w x :: o) = addArgs v o := by
  simp [addArgs]

/-- All pending updates. -/
def pend (u : Upd V) : List (Op V) := u.threads.flatMap (·.ops)

theorem pend_start (m : V → UInt64) (ops : List (List (Op V))) : pend (start m ops) = ops.flatten := by
  simp only [pend, start, List.flatMap_map]
  induction ops with
  | nil => rfl
  | cons o os ih => rw [List.flatMap_cons, ih, List.flatten_cons]

theorem pend_mid (m : V → UInt64) (l1 l2 : List (Thread V)) (t : Thread V) :
    pend ⟨m, l1 ++ t :: l2⟩ = l1.flatMap (·.ops) ++ (t.ops ++ l2.flatMap (·.ops)) := by
  simp [pend]

theorem pend_done {u : Upd V} (h : u.Done) : pend u = [] := by
  simp only [pend, List.flatMap_eq_nil_iff]
  exact h

/-- A loaded value belongs to a pending maximum. -/
def Wf (t : Thread V) : Prop := ∀ old, t.old = some old → ∃ v x ops, t.ops = .setMax v x :: ops

/-! ## Maximum -/

structure MaxInv (v : V) (x0 : UInt64) (args : List UInt64) (u : Upd V) : Prop where
  mem : u.mem v ∈ x0 :: args
  sub : ∀ x ∈ maxArgs v (pend u), x ∈ args
  cover : ∀ x ∈ x0 :: args, x ≤ u.mem v ∨ x ∈ maxArgs v (pend u)
  noAdd : addArgs v (pend u) = []
  old : ∀ t ∈ u.threads, ∀ old x ops, t.old = some old → t.ops = .setMax v x :: ops → old ≤ u.mem v

theorem addArgs_append (v : V) (a b : List (Op V)) : addArgs v (a ++ b) = addArgs v a ++ addArgs v b := by
  simp [addArgs, List.filterMap_append]

theorem maxInv_start (v : V) (m : V → UInt64) (ops : List (List (Op V))) (h : addArgs v ops.flatten = []) :
    MaxInv v (m v) (maxArgs v ops.flatten) (start m ops) where
  mem := by simp [start]
  sub := by rw [pend_start]; exact fun _ h => h
  cover := by
    rw [pend_start]
    intro x hx
    rcases List.mem_cons.1 hx with rfl | hx
    · exact .inl (UInt64.le_refl _)
    · exact .inr hx
  noAdd := by rw [pend_start]; exact h
  old := by
    intro t ht old x ops' h1 h2
    simp only [start, List.mem_map] at ht
    obtain ⟨o, _, rfl⟩ := ht
    cases h1

theorem store_same (m : V → UInt64) (v : V) (x : UInt64) : store m v x v = x := by simp [store]

theorem store_other (m : V → UInt64) {v w : V} (x : UInt64) (h : w ≠ v) : store m v x w = m w := by simp [store, h]

theorem maxInv_step {v : V} {x0 : UInt64} {args : List UInt64} {u u' : Upd V} (hi : MaxInv v x0 args u)
    (hs : Step u u') : MaxInv v x0 args u' := by
  cases hs with
  | @mk m m' t t' l1 l2 hs =>
    obtain ⟨h1, h2, h3, h4, h5⟩ := hi
    simp only [pend_mid, maxArgs_append, addArgs_append, List.mem_append, List.append_eq_nil_iff] at h2 h3 h4
    have other : ∀ t1 ∈ l1 ++ l2, ∀ old x ops, t1.old = some old → t1.ops = .setMax v x :: ops → old ≤ m v := by
      intro t1 ht1
      apply h5
      simp only [List.mem_append, List.mem_cons] at ht1 ⊢
      rcases ht1 with h | h <;> simp [h]
    have self := h5 t (by simp)
    cases hs with
    | @add v' x ops =>
      have hne : v' ≠ v := by
        rintro rfl
        have := h4.2.1
        rw [addArgs_add] at this
        cases this
      have e : store m v' (m v' + x) v = m v := store_other _ _ (Ne.symm hne)
      simp only [maxArgs_add] at h2 h3
      simp only [addArgs_add_ne hne] at h4
      refine ⟨by dsimp only; rw [e]; exact h1, ?_, ?_, ?_, ?_⟩
      · simp only [pend_mid, maxArgs_append, List.mem_append]; exact h2
      · simp only [pend_mid, maxArgs_append, List.mem_append]; rw [e]; exact h3
      · simp only [pend_mid, addArgs_append, List.append_eq_nil_iff]; exact h4
      · dsimp only; rw [e]
        intro t1 ht1 old y o ho hop
        simp only [List.mem_append, List.mem_cons] at ht1
        rcases ht1 with h | rfl | h
        · exact other t1 (by simp [h]) _ _ _ ho hop
        · cases ho
        · exact other t1 (by simp [h]) _ _ _ ho hop
    | @load v' x ops =>
      refine ⟨h1, ?_, ?_, ?_, ?_⟩
      · simp only [pend_mid, maxArgs_append, List.mem_append]; exact h2
      · simp only [pend_mid, maxArgs_append, List.mem_append]; exact h3
      · simp only [pend_mid, addArgs_append, List.append_eq_nil_iff]; exact h4
      · intro t1 ht1 old y o ho hop
        simp only [List.mem_append, List.mem_cons] at ht1
        rcases ht1 with h | rfl | h
        · exact other t1 (by simp [h]) _ _ _ ho hop
        · dsimp only at ho hop
          cases ho; cases hop
          exact UInt64.le_refl _
        · exact other t1 (by simp [h]) _ _ _ ho hop
    | @leave v' x ops old hle =>
      simp only [addArgs_max] at h4
      have hsub : ∀ y, y ∈ maxArgs v ops → y ∈ maxArgs v (.setMax v' x :: ops) := by
        intro y hy
        by_cases h : v' = v
        · subst h; rw [maxArgs_max]; simp [hy]
        · rw [maxArgs_max_ne h]; exact hy
      refine ⟨h1, ?_, ?_, ?_, ?_⟩
      · simp only [pend_mid, maxArgs_append, List.mem_append]
        intro y hy
        apply h2
        rcases hy with h | h | h
        · exact .inl h
        · exact .inr (.inl (hsub y h))
        · exact .inr (.inr h)
      · simp only [pend_mid, maxArgs_append, List.mem_append]
        intro y hy
        rcases h3 y hy with h | h | h | h
        · exact .inl h
        · exact .inr (.inl h)
        · by_cases hv : v' = v
          · subst hv
            rw [maxArgs_max] at h
            rcases List.mem_cons.1 h with rfl | h
            · exact .inl (UInt64.le_trans (UInt64.not_lt.1 hle) (self _ _ _ rfl rfl))
            · exact .inr (.inr (.inl h))
          · rw [maxArgs_max_ne hv] at h
            exact .inr (.inr (.inl h))
        · exact .inr (.inr (.inr h))
      · simp only [pend_mid, addArgs_append, List.append_eq_nil_iff]; exact h4
      · intro t1 ht1 old' y o ho hop
        simp only [List.mem_append, List.mem_cons] at ht1
        rcases ht1 with h | rfl | h
        · exact other t1 (by simp [h]) _ _ _ ho hop
        · cases ho
        · exact other t1 (by simp [h]) _ _ _ ho hop
    | @cas v' x ops old hgt heq =>
      simp only [addArgs_max] at h4
      by_cases hv : v' = v
      · subst hv
        have hlt : m v' < x := by rw [heq]; exact hgt
        simp only [maxArgs_max, List.mem_cons] at h2 h3
        refine ⟨?_, ?_, ?_, ?_, ?_⟩
        · dsimp only; rw [store_same]; exact List.mem_cons_of_mem _ (h2 x (.inr (.inl (.inl rfl))))
        · simp only [pend_mid, maxArgs_append, List.mem_append]
          intro y hy
          apply h2
          rcases hy with h | h | h
          · exact .inl h
          · exact .inr (.inl (.inr h))
          · exact .inr (.inr h)
        · simp only [pend_mid, maxArgs_append, List.mem_append]
          rw [store_same]
          intro y hy
          rcases h3 y (List.mem_cons.1 hy) with h | h | (h | h) | h
          · exact .inl (UInt64.le_trans h (UInt64.le_of_lt hlt))
          · exact .inr (.inl h)
          · subst h; exact .inl (UInt64.le_refl _)
          · exact .inr (.inr (.inl h))
          · exact .inr (.inr (.inr h))
        · simp only [pend_mid, addArgs_append, List.append_eq_nil_iff]; exact h4
        · dsimp only; rw [store_same]
          intro t1 ht1 old' y o ho hop
          simp only [List.mem_append, List.mem_cons] at ht1
          rcases ht1 with h | rfl | h
          · exact UInt64.le_trans (other t1 (by simp [h]) _ _ _ ho hop) (UInt64.le_of_lt hlt)
          · cases ho
          · exact UInt64.le_trans (other t1 (by simp [h]) _ _ _ ho hop) (UInt64.le_of_lt hlt)
      · have e : store m v' x v = m v := store_other _ _ (Ne.symm hv)
        simp only [maxArgs_max_ne hv] at h2 h3
        refine ⟨by dsimp only; rw [e]; exact h1, ?_, ?_, ?_, ?_⟩
        · simp only [pend_mid, maxArgs_append, List.mem_append]; exact h2
        · simp only [pend_mid, maxArgs_append, List.mem_append]; rw [e]; exact h3
        · simp only [pend_mid, addArgs_append, List.append_eq_nil_iff]; exact h4
        · dsimp only; rw [e]
          intro t1 ht1 old y o ho hop
          simp only [List.mem_append, List.mem_cons] at ht1
          rcases ht1 with h | rfl | h
          · exact other t1 (by simp [h]) _ _ _ ho hop
          · cases ho
          · exact other t1 (by simp [h]) _ _ _ ho hop
    | @casFail v' x ops old hgt hne =>
      refine ⟨h1, ?_, ?_, ?_, ?_⟩
      · simp only [pend_mid, maxArgs_append, List.mem_append]; exact h2
      · simp only [pend_mid, maxArgs_append, List.mem_append]; exact h3
      · simp only [pend_mid, addArgs_append, List.append_eq_nil_iff]; exact h4
      · intro t1 ht1 old y o ho hop
        simp only [List.mem_append, List.mem_cons] at ht1
        rcases ht1 with h | rfl | h
        · exact other t1 (by simp [h]) _ _ _ ho hop
        · cases ho
        · exact other t1 (by simp [h]) _ _ _ ho hop

theorem steps_inv {P : Upd V → Prop} {n : Nat} {u u' : Upd V} (h : Steps n u u') (h0 : P u)
    (hs : ∀ a b, P a → Step a b → P b) : P u' := by
  induction h with
  | refl => exact h0
  | step _ h2 ih => exact hs _ _ (ih h0) h2

/-! ## Sums -/

theorem sum_append (a b : List UInt64) : (a ++ b).sum = a.sum + b.sum := by
  induction a with
  | nil => simp
  | cons x xs ih => rw [List.cons_append, List.sum_cons, ih, List.sum_cons, UInt64.add_assoc]

structure AddInv (v : V) (total : UInt64) (u : Upd V) : Prop where
  sum : u.mem v + (addArgs v (pend u)).sum = total
  noMax : maxArgs v (pend u) = []

theorem addInv_step {v : V} {total : UInt64} {u u' : Upd V} (hi : AddInv v total u) (hs : Step u u') :
    AddInv v total u' := by
  cases hs with
  | @mk m m' t t' l1 l2 hs =>
    obtain ⟨h1, h2⟩ := hi
    simp only [pend_mid, maxArgs_append, addArgs_append, sum_append, List.append_eq_nil_iff] at h1 h2
    cases hs with
    | @add v' x ops =>
      by_cases hv : v' = v
      · subst hv
        refine ⟨?_, ?_⟩
        · simp only [pend_mid, addArgs_append, sum_append]
          rw [store_same, ← h1, addArgs_add, List.sum_cons]
          ac_rfl
        · simp only [pend_mid, maxArgs_append, List.append_eq_nil_iff]
          simpa only [maxArgs_add] using h2
      · refine ⟨?_, ?_⟩
        · simp only [pend_mid, addArgs_append, sum_append]
          rw [store_other _ _ (Ne.symm hv), ← h1, addArgs_add_ne hv]
        · simp only [pend_mid, maxArgs_append, List.append_eq_nil_iff]
          simpa only [maxArgs_add] using h2
    | @load v' x ops =>
      refine ⟨?_, ?_⟩
      · simp only [pend_mid, addArgs_append, sum_append]; exact h1
      · simp only [pend_mid, maxArgs_append, List.append_eq_nil_iff]; exact h2
    | @leave v' x ops old hle =>
      have hne : v' ≠ v := by
        rintro rfl
        have := h2.2.1
        rw [maxArgs_max] at this
        cases this
      refine ⟨?_, ?_⟩
      · simp only [pend_mid, addArgs_append, sum_append]; simpa only [addArgs_max] using h1
      · simp only [pend_mid, maxArgs_append, List.append_eq_nil_iff]
        simpa only [maxArgs_max_ne hne] using h2
    | @cas v' x ops old hgt heq =>
      have hne : v' ≠ v := by
        rintro rfl
        have := h2.2.1
        rw [maxArgs_max] at this
        cases this
      refine ⟨?_, ?_⟩
      · simp only [pend_mid, addArgs_append, sum_append]
        rw [store_other _ _ (Ne.symm hne)]
        simpa only [addArgs_max] using h1
      · simp only [pend_mid, maxArgs_append, List.append_eq_nil_iff]
        simpa only [maxArgs_max_ne hne] using h2
    | @casFail v' x ops old hgt hne =>
      refine ⟨?_, ?_⟩
      · simp only [pend_mid, addArgs_append, sum_append]; exact h1
      · simp only [pend_mid, maxArgs_append, List.append_eq_nil_iff]; exact h2

/-! ## Termination -/

def WfU (u : Upd V) : Prop := ∀ t ∈ u.threads, Wf t

theorem wf_start (m : V → UInt64) (ops : List (List (Op V))) : WfU (start m ops) := by
  intro t ht old ho
  simp only [start, List.mem_map] at ht
  obtain ⟨o, _, rfl⟩ := ht
  cases ho

theorem tstep_wf {m m' : V → UInt64} {t t' : Thread V} (hs : TStep m t m' t') : Wf t' := by
  cases hs <;> intro o ho <;> try cases ho
  exact ⟨_, _, _, rfl⟩

theorem wf_step {u u' : Upd V} (hi : WfU u) (hs : Step u u') : WfU u' := by
  cases hs with
  | @mk m m' t t' l1 l2 hs =>
    intro t1 ht1
    simp only [List.mem_append, List.mem_cons] at ht1
    rcases ht1 with h | rfl | h
    · exact hi _ (by simp [h])
    · exact tstep_wf hs
    · exact hi _ (by simp [h])

theorem can_step (m : V → UInt64) {t : Thread V} (hw : Wf t) (hne : t.ops ≠ []) : ∃ m' t', TStep m t m' t' := by
  obtain ⟨ops, old⟩ := t
  cases old with
  | none =>
    cases ops with
    | nil => exact absurd rfl hne
    | cons o os =>
      cases o with
      | add v x => exact ⟨_, _, .add⟩
      | setMax v x => exact ⟨_, _, .load⟩
  | some old =>
    obtain ⟨v, x, os, rfl⟩ := hw old rfl
    by_cases h : x > old
    · by_cases h2 : m v = old
      · exact ⟨_, _, .cas h h2⟩
      · exact ⟨_, _, .casFail h h2⟩
    · exact ⟨_, _, .leave h⟩

/-- How far a goroutine is from its next update. -/
def rank (m : V → UInt64) (t : Thread V) : Nat :=
  match t.old, t.ops with
  | some old, .setMax v _ :: _ => if m v = old then 1 else 3
  | _, _ => 2

theorem rank_le (m : V → UInt64) (t : Thread V) : 1 ≤ rank m t ∧ rank m t ≤ 3 := by
  unfold rank
  split
  · split <;> omega
  · omega

def ranks (m : V → UInt64) (ts : List (Thread V)) : Nat := (ts.map (rank m)).sum

theorem ranks_bound (m m' : V → UInt64) : ∀ ts : List (Thread V), ranks m' ts ≤ ranks m ts + 2 * ts.length
  | [] => by simp [ranks]
  | t :: ts => by
    have := ranks_bound m m' ts
    have h1 := rank_le m t
    have h2 := rank_le m' t
    simp only [ranks, List.map_cons, List.sum_cons, List.length_cons] at *
    omega

/-- Decreases with every step. -/
def work (u : Upd V) : Nat := (pend u).length * (2 * u.threads.length + 1) + ranks u.mem u.threads

theorem work_step {u u' : Upd V} (hs : Step u u') : work u' < work u := by
  cases hs with
  | @mk m m' t t' l1 l2 hs =>
    have key : (t'.ops.length + 1 = t.ops.length) ∨ (m' = m ∧ t'.ops = t.ops ∧ rank m t' < rank m t) := by
      cases hs with
      | add => left; simp
      | load => right; refine ⟨rfl, rfl, ?_⟩; simp [rank]
      | leave => left; simp
      | cas => left; simp
      | casFail _ h => right; refine ⟨rfl, rfl, ?_⟩; simp [rank, h]
    unfold work
    simp only [pend_mid, ranks, List.map_append, List.map_cons, List.sum_append, List.sum_cons, List.length_append,
      List.length_cons]
    rcases key with h | ⟨h1, h2, h3⟩
    · have b1 := ranks_bound m m' l1
      have b2 := ranks_bound m m' l2
      have r1 := rank_le m t
      have r2 := rank_le m' t'
      simp only [ranks] at b1 b2
      rw [← h]
      generalize hA : (List.flatMap (·.ops) l1).length = A
      generalize hB : (List.flatMap (·.ops) l2).length = B
      generalize hk : 2 * (l1.length + (l2.length + 1)) + 1 = k
      have : (A + (t'.ops.length + 1 + B)) * k = (A + (t'.ops.length + B)) * k + k := by
        rw [show A + (t'.ops.length + 1 + B) = (A + (t'.ops.length + B)) + 1 by omega, Nat.add_mul, Nat.one_mul]
      omega
    · subst h1
      rw [h2]
      omega

theorem steps_work {n : Nat} {u u' : Upd V} (h : Steps n u u') : n + work u' ≤ work u := by
  induction h with
  | refl => omega
  | step _ h2 ih => have := work_step h2; omega

theorem step_threads {n : Nat} {u u' : Upd V} (h : Steps n u u') : u'.threads.length = u.threads.length := by
  induction h with
  | refl => rfl
  | step _ h2 ih =>
    cases h2
    simpa using ih

theorem ranks_start (m : V → UInt64) (ops : List (List (Op V))) :
    ranks (start m ops).mem (start m ops).threads = 2 * ops.length := by
  simp only [start, ranks, List.map_map]
  induction ops with
  | nil => rfl
  | cons o os ih =>
    simp only [List.map_cons, List.sum_cons, List.length_cons] at ih ⊢
    rw [ih]
    simp only [Function.comp, rank]
    omega

theorem not_done {u : Upd V} (hw : WfU u) (h : ¬ u.Done) : ∃ u', Step u u' := by
  simp only [Upd.Done, Classical.not_forall] at h
  obtain ⟨t, ht, hne⟩ := h
  obtain ⟨m, ts⟩ := u
  obtain ⟨l1, l2, rfl⟩ := List.append_of_mem ht
  obtain ⟨m', t', hs⟩ := can_step m (hw t ht) hne
  exact ⟨_, .mk hs⟩

theorem steps_trans {n k : Nat} {a b c : Upd V} (h1 : Steps n a b) (h2 : Steps k b c) : Steps (n + k) a c := by
  induction h2 with
  | refl => exact h1
  | step _ h3 ih => exact .step (ih h1) h3

theorem finishes : ∀ (k : Nat) (u : Upd V), work u ≤ k → WfU u → ∃ n u', Steps n u u' ∧ u'.Done := by
  intro k
  induction k with
  | zero =>
    intro u hk hw
    by_cases hd : u.Done
    · exact ⟨0, u, .refl, hd⟩
    · obtain ⟨u', hs⟩ := not_done hw hd
      have := work_step hs
      omega
  | succ k ih =>
    intro u hk hw
    by_cases hd : u.Done
    · exact ⟨0, u, .refl, hd⟩
    · obtain ⟨u', hs⟩ := not_done hw hd
      have := work_step hs
      obtain ⟨n, u2, h1, h2⟩ := ih u' (by omega) (wf_step hw hs)
      exact ⟨1 + n, u2, steps_trans (.step .refl hs) h1, h2⟩

end

/-! ## Local counters -/

theorem max_isMax (a b : UInt64) : (max a b = a ∨ max a b = b) ∧ a ≤ max a b ∧ b ≤ max a b := by
  unfold max
  split
  · next h => exact ⟨.inl rfl, UInt64.le_refl _, UInt64.le_of_lt h⟩
  · next h => exact ⟨.inr rfl, UInt64.not_lt.1 h, UInt64.le_refl _⟩

theorem max_comm (a b : UInt64) : max a b = max b a := by
  have h1 := max_isMax a b
  have h2 := max_isMax b a
  apply UInt64.le_antisymm
  · rcases h1.1 with h | h <;> rw [h]
    · exact h2.2.2
    · exact h2.2.1
  · rcases h2.1 with h | h <;> rw [h]
    · exact h1.2.2
    · exact h1.2.1

/-- The maximum of a start value and a list. -/
def umax (a : UInt64) (xs : List UInt64) : UInt64 := xs.foldl (fun a x => max x a) a

theorem umax_append (a : UInt64) (xs ys : List UInt64) : umax a (xs ++ ys) = umax (umax a xs) ys := by
  simp [umax, List.foldl_append]

theorem umax_isMax (a : UInt64) (xs : List UInt64) : IsMax (umax a xs) (a :: xs) := by
  induction xs generalizing a with
  | nil => exact ⟨by simp [umax], by simp [umax]⟩
  | cons x xs ih =>
    obtain ⟨h1, h2⟩ := ih (max x a)
    obtain ⟨m1, m2, m3⟩ := max_isMax x a
    have e : umax a (x :: xs) = umax (max x a) xs := rfl
    rw [e]
    refine ⟨?_, ?_⟩
    · rcases List.mem_cons.1 h1 with h | h
      · rw [h]
        rcases m1 with h | h <;> rw [h] <;> simp
      · simp [h]
    · intro y hy
      simp only [List.mem_cons] at hy
      rcases hy with rfl | rfl | hy
      · exact UInt64.le_trans m3 (h2 _ (by simp))
      · exact UInt64.le_trans m2 (h2 _ (by simp))
      · exact h2 _ (by simp [hy])

theorem isMax_unique {x y : UInt64} {xs ys : List UInt64} (hx : IsMax x xs) (hy : IsMax y ys)
    (h : ∀ z, z ∈ xs ↔ z ∈ ys) : x = y :=
  UInt64.le_antisymm (hy.2 _ ((h _).1 hx.1)) (hx.2 _ ((h _).2 hy.1))

/-- The ids of the nodes of a group. -/
def gIds (g : T.PrimitiveGroup) : List Int64 :=
  match g.Dense with
  | none => []
  | some dn => dn.Id

theorem ofNat_add (a b : Nat) : UInt64.ofNat a + UInt64.ofNat b = UInt64.ofNat (a + b) := (UInt64.ofNat_add a b).symm

/-- What the local counters become. -/
def Local.plus (l : Local) (blocks : Nat) (gs : List T.PrimitiveGroup) : Local where
  blockCount := l.blockCount + UInt64.ofNat blocks
  nodeCount := l.nodeCount + UInt64.ofNat (gs.flatMap gIds).length
  wayCount := l.wayCount + UInt64.ofNat (gs.flatMap (·.Ways)).length
  relationCount := l.relationCount + UInt64.ofNat (gs.flatMap (·.Relations)).length
  wayRefCount := l.wayRefCount + UInt64.ofNat ((gs.flatMap (·.Ways)).map (·.Refs.length)).sum
  maxNode := umax l.maxNode ((gs.flatMap gIds).map (·.toUInt64))
  maxWay := umax l.maxWay ((gs.flatMap (·.Ways)).map (·.ID.toUInt64))
  maxRelation := umax l.maxRelation ((gs.flatMap (·.Relations)).map (·.ID.toUInt64))
  maxWayRefCount := umax l.maxWayRefCount ((gs.flatMap (·.Ways)).map (fun w => UInt64.ofNat w.Refs.length))

theorem dense_fold (ids : List Int64) (l : Local) :
    ids.foldl (fun l nid => { l with maxNode := max nid.toUInt64 l.maxNode }) l =
      { l with maxNode := umax l.maxNode (ids.map (·.toUInt64)) } := by
  induction ids generalizing l with
  | nil => rfl
  | cons i is ih => rw [List.foldl_cons, ih]; rfl

theorem countNodes_eq (l : Local) (g : T.PrimitiveGroup) :
    countNodes l g = { l with nodeCount := l.nodeCount + UInt64.ofNat (gIds g).length,
                              maxNode := umax l.maxNode ((gIds g).map (·.toUInt64)) } := by
  obtain ⟨a, d, b, c, e, f⟩ := g
  cases d with
  | none => simp [countNodes, gIds, umax]
  | some dn =>
    simp only [countNodes, gIds]
    unfold countDense
    rw [dense_fold]

theorem ways_fold (ws : List Way) (l : Local) :
    ws.foldl countWay l =
      { l with wayRefCount := l.wayRefCount + UInt64.ofNat (ws.map (·.Refs.length)).sum,
               maxWay := umax l.maxWay (ws.map (·.ID.toUInt64)),
               maxWayRefCount := umax l.maxWayRefCount (ws.map (fun w => UInt64.ofNat w.Refs.length)) } := by
  induction ws generalizing l with
  | nil => simp [umax]
  | cons w ws ih =>
    rw [List.foldl_cons, ih]
    unfold countWay
    dsimp only
    rw [UInt64.add_assoc, ofNat_add, max_comm l.maxWayRefCount]
    rfl

theorem rels_fold (rs : List Relation) (l : Local) :
    rs.foldl countRelation l = { l with maxRelation := umax l.maxRelation (rs.map (·.ID.toUInt64)) } := by
  induction rs generalizing l with
  | nil => rfl
  | cons w ws ih => rw [List.foldl_cons, ih]; rfl

theorem countGroup_eq (l : Local) (g : T.PrimitiveGroup) : countGroup l g = l.plus 0 [g] := by
  unfold countGroup
  rw [countNodes_eq]
  dsimp only
  rw [ways_fold, rels_fold]
  simp [Local.plus]

theorem plus_plus (l : Local) (m n : Nat) (gs hs : List T.PrimitiveGroup) :
    (l.plus m gs).plus n hs = l.plus (m + n) (gs ++ hs) := by
  unfold Local.plus
  dsimp only
  simp only [List.flatMap_append, List.map_append, umax_append, List.length_append, List.sum_append, UInt64.add_assoc,
    ofNat_add]

theorem plus_zero (l : Local) : l.plus 0 [] = l := by
  simp [Local.plus, umax]

theorem groups_fold (gs : List T.PrimitiveGroup) (l : Local) : gs.foldl countGroup l = l.plus 0 gs := by
  induction gs generalizing l with
  | nil => rw [plus_zero]; rfl
  | cons g gs ih =>
    rw [List.foldl_cons, ih, countGroup_eq, plus_plus]
    rfl

theorem countBlock_eq (inflate : Inflate) (sched : Pbf.Block → Sched) (l : Local) (b : Pbf.Block) (gs : List T.PrimitiveGroup)
    (h : groupsOf inflate sched b = .ok gs) : countBlock inflate sched l b = .ok (l.plus 1 gs) := by
  unfold countBlock
  rw [h, Res.ok_bind, groups_fold]
  congr 1
  rw [show ({ l with blockCount := l.blockCount + 1 } : Local) = l.plus 1 [] by simp [Local.plus, umax], plus_plus]
  rfl

theorem blocks_fold (inflate : Inflate) (sched : Pbf.Block → Sched) : ∀ (bs : List Pbf.Block) (l : Local)
    (gss : List (List T.PrimitiveGroup)), mapRes (groupsOf inflate sched) bs = .ok gss →
    foldRes (countBlock inflate sched) l bs = .ok (l.plus bs.length gss.flatten)
  | [], l, gss, h => by
    cases h
    rw [foldRes]
    exact congrArg _ (plus_zero l).symm
  | b :: bs, l, gss, h => by
    unfold mapRes at h
    obtain ⟨gs, h1, h⟩ := Res.bind_eq_ok.1 h
    obtain ⟨rest, h2, h⟩ := Res.bind_eq_ok.1 h
    cases h
    unfold foldRes
    rw [countBlock_eq inflate sched l b gs h1, Res.ok_bind, blocks_fold inflate sched bs _ rest h2, plus_plus,
      List.length_cons, List.flatten_cons, Nat.add_comm]

/-! ## All workers together -/

/-- The value that a counter goes to. -/
def Local.get (l : Local) : Var → UInt64
  | .blockCount => l.blockCount
  | .nodeCount => l.nodeCount
  | .wayCount => l.wayCount
  | .relationCount => l.relationCount
  | .wayRefCount => l.wayRefCount
  | .maxNode => l.maxNode
  | .maxWay => l.maxWay
  | .maxRelation => l.maxRelation
  | .maxWayRefCount => l.maxWayRefCount

/-- Is it a maximum? -/
def Var.isMax : Var → Bool
  | .maxNode | .maxWay | .maxRelation | .maxWayRefCount => true
  | _ => false

theorem final_max (v : Var) (hv : v.isMax = true) (ls : List Local) :
    maxArgs v (ls.map finalOps).flatten = ls.map (·.get v) ∧ addArgs v (ls.map finalOps).flatten = [] := by
  induction ls with
  | nil => exact ⟨rfl, rfl⟩
  | cons l ls ih =>
    rw [List.map_cons, List.flatten_cons, maxArgs_append, addArgs_append, ih.1, ih.2]
    cases v <;> first | (cases hv; done) | (simp [finalOps, maxArgs, addArgs, Local.get])

theorem final_add (v : Var) (hv : v.isMax = false) (ls : List Local) :
    addArgs v (ls.map finalOps).flatten = ls.map (·.get v) ∧ maxArgs v (ls.map finalOps).flatten = [] := by
  induction ls with
  | nil => exact ⟨rfl, rfl⟩
  | cons l ls ih =>
    rw [List.map_cons, List.flatten_cons, maxArgs_append, addArgs_append, ih.1, ih.2]
    cases v <;> first | (cases hv; done) | (simp [finalOps, maxArgs, addArgs, Local.get])

/-- The final value of a maximum. -/
theorem run_max {V : Type} [DecidableEq V] {m : V → UInt64} {ops : List (List (Op V))} {n : Nat} {u : Upd V}
    (h : Steps n (start m ops) u) (hd : u.Done) (v : V) (hv : addArgs v ops.flatten = []) :
    IsMax (u.mem v) (m v :: maxArgs v ops.flatten) := by
  have hi := steps_inv h (maxInv_start v m ops hv) (fun _ _ => maxInv_step)
  refine ⟨hi.mem, fun y hy => ?_⟩
  rcases hi.cover y hy with h | h
  · exact h
  · rw [pend_done hd] at h
    cases h

/-- The final value of a sum. -/
theorem run_add {V : Type} [DecidableEq V] {m : V → UInt64} {ops : List (List (Op V))} {n : Nat} {u : Upd V}
    (h : Steps n (start m ops) u) (hd : u.Done) (v : V) (hv : maxArgs v ops.flatten = []) :
    u.mem v = m v + (addArgs v ops.flatten).sum := by
  have h0 : AddInv v (m v + (addArgs v ops.flatten).sum) (start m ops) := by
    refine ⟨?_, ?_⟩
    · rw [pend_start]; rfl
    · rw [pend_start]; exact hv
  have hi := steps_inv h h0 (fun _ _ => addInv_step)
  rw [← hi.sum, pend_done hd]
  simp [addArgs]

/-- The counter values for one maximum or sum, as a function of what is counted. -/
theorem get_split (v : Var) (l : Local) (hl : l.get v = 0) (m n : Nat) (gs hs : List T.PrimitiveGroup) :
    (v.isMax = false → (l.plus (m + n) (gs ++ hs)).get v = (l.plus m gs).get v + (l.plus n hs).get v) := by
  intro hv
  cases v <;> first | (cases hv; done) | skip
  all_goals
    simp only [Local.get] at hl
    simp only [Local.get, Local.plus, hl, List.flatMap_append, List.length_append, List.map_append, List.sum_append,
      UInt64.zero_add, ofNat_add]

theorem get_max (v : Var) (hv : v.isMax = true) (n : Nat) (gs : List T.PrimitiveGroup) :
    ∃ f : T.PrimitiveGroup → List UInt64, ∀ n gs, (Local.zero.plus n gs).get v = umax 0 (gs.flatMap f) := by
  cases v <;> first | (cases hv; done) | skip
  · exact ⟨fun g => (gIds g).map (·.toUInt64), fun n gs => by
      simp only [Local.get, Local.plus, Local.zero, List.map_flatMap]⟩
  · exact ⟨fun g => g.Ways.map (·.ID.toUInt64), fun n gs => by
      simp only [Local.get, Local.plus, Local.zero, List.map_flatMap]⟩
  · exact ⟨fun g => g.Relations.map (·.ID.toUInt64), fun n gs => by
      simp only [Local.get, Local.plus, Local.zero, List.map_flatMap]⟩
  · exact ⟨fun g => g.Ways.map (fun w => UInt64.ofNat w.Refs.length), fun n gs => by
      simp only [Local.get, Local.plus, Local.zero, List.map_flatMap]⟩

theorem get_zero (v : Var) : Local.zero.get v = 0 := by cases v <;> rfl

theorem sum_gets (v : Var) (hv : v.isMax = false) : ∀ xs : List (Nat × List T.PrimitiveGroup),
    (xs.map fun x => (Local.zero.plus x.1 x.2).get v).sum =
      (Local.zero.plus (xs.map (·.1)).sum (xs.flatMap (·.2))).get v
  | [] => by
    rw [List.map_nil, List.map_nil, List.flatMap_nil, List.sum_nil, List.sum_nil, plus_zero, get_zero]
  | x :: xs => by
    rw [List.map_cons, List.sum_cons, sum_gets v hv xs, List.map_cons, List.sum_cons, List.flatMap_cons,
      get_split v _ (get_zero v) _ _ _ _ hv]

theorem max_gets (v : Var) (hv : v.isMax = true) (xs : List (Nat × List T.PrimitiveGroup)) (x : UInt64)
    (h : IsMax x (0 :: xs.map fun x => (Local.zero.plus x.1 x.2).get v)) (n : Nat) :
    x = (Local.zero.plus n (xs.flatMap (·.2))).get v := by
  obtain ⟨f, hf⟩ := get_max v hv 0 []
  rw [hf]
  simp only [hf] at h
  have hm := umax_isMax 0 ((xs.flatMap (·.2)).flatMap f)
  apply UInt64.le_antisymm
  · rcases List.mem_cons.1 h.1 with h1 | h1
    · rw [h1]; exact hm.2 _ (by simp)
    · obtain ⟨y, hy, h1⟩ := List.mem_map.1 h1
      rw [← h1]
      rcases List.mem_cons.1 (umax_isMax 0 (y.2.flatMap f)).1 with h2 | h2
      · rw [h2]; exact hm.2 _ (by simp)
      · apply hm.2
        obtain ⟨g, hg, h2⟩ := List.mem_flatMap.1 h2
        exact List.mem_cons_of_mem _ (List.mem_flatMap.2 ⟨g, List.mem_flatMap.2 ⟨y, hy, hg⟩, h2⟩)
  · rcases List.mem_cons.1 hm.1 with h1 | h1
    · rw [h1]; exact h.2 _ (by simp)
    · obtain ⟨g, hg, h2⟩ := List.mem_flatMap.1 h1
      obtain ⟨y, hy, hg⟩ := List.mem_flatMap.1 hg
      refine UInt64.le_trans ((umax_isMax 0 (y.2.flatMap f)).2 _ (List.mem_cons_of_mem _ (List.mem_flatMap.2 ⟨g, hg, h2⟩))) ?_
      exact h.2 _ (List.mem_cons_of_mem _ (List.mem_map.2 ⟨y, hy, rfl⟩))

/-- The shared variables at the end. -/
theorem run_final {xs : List (Nat × List T.PrimitiveGroup)} {n : Nat} {u : Upd Var}
    (h : Steps n (start (fun _ => 0) (xs.map fun x => finalOps (Local.zero.plus x.1 x.2))) u) (hd : u.Done) :
    ∀ v, u.mem v = (Local.zero.plus (xs.map (·.1)).sum (xs.flatMap (·.2))).get v := by
  intro v
  have e : (xs.map fun x => finalOps (Local.zero.plus x.1 x.2)) =
      (xs.map fun x => Local.zero.plus x.1 x.2).map finalOps := by rw [List.map_map]; rfl
  rw [e] at h
  cases hv : v.isMax with
  | true =>
    obtain ⟨f1, f2⟩ := final_max v hv (xs.map fun x => Local.zero.plus x.1 x.2)
    have := run_max h hd v f2
    rw [f1, List.map_map] at this
    exact max_gets v hv xs _ this _
  | false =>
    obtain ⟨f1, f2⟩ := final_add v hv (xs.map fun x => Local.zero.plus x.1 x.2)
    have := run_add h hd v f2
    rw [f1, List.map_map, UInt64.zero_add] at this
    rw [this]
    exact sum_gets v hv xs

/-! ## Order does not matter -/

theorem umax_perm {xs ys : List UInt64} (h : xs.Perm ys) : umax 0 xs = umax 0 ys :=
  isMax_unique (umax_isMax 0 xs) (umax_isMax 0 ys) (fun z => by simp [h.mem_iff])

theorem plus_perm (n : Nat) {gs hs : List T.PrimitiveGroup} (h : gs.Perm hs) :
    Local.zero.plus n gs = Local.zero.plus n hs := by
  have h1 := h.flatMap_right gIds
  have h2 := h.flatMap_right (·.Ways)
  have h3 := h.flatMap_right (·.Relations)
  unfold Local.plus
  simp only [Local.zero]
  rw [h1.length_eq, h2.length_eq, h3.length_eq, (h2.map _).sum_nat, umax_perm (h1.map _), umax_perm (h2.map _),
    umax_perm (h3.map _), umax_perm (h2.map (fun w => UInt64.ofNat w.Refs.length))]

theorem plus_trim (l : Local) (n : Nat) (gs : List T.PrimitiveGroup) : l.plus n (gs.map trimGroup) = l.plus n gs := by
  have h1 : (gs.map trimGroup).flatMap gIds = gs.flatMap gIds := by rw [List.flatMap_map]; rfl
  have h2 : (gs.map trimGroup).flatMap (·.Ways) = gs.flatMap (·.Ways) := by rw [List.flatMap_map]; rfl
  have h3 : (gs.map trimGroup).flatMap (·.Relations) = gs.flatMap (·.Relations) := by rw [List.flatMap_map]; rfl
  unfold Local.plus
  rw [h1, h2, h3]

/-! ## What is in the file -/

/-- The groups of a content. -/
def cGroups : Content → List T.PrimitiveGroup
  | .other _ _ => []
  | .data b => b.PrimitiveGroup

theorem fileGroups_eq (cs : List Content) : fileGroups cs = cs.flatMap cGroups := by
  unfold fileGroups
  congr 1

theorem nodeIds_eq (cs : List Content) : nodeIds cs = (fileGroups cs).flatMap gIds := rfl

theorem content_groups (inflate : Inflate) (sched : Pbf.Block → Sched) (hsched : ∀ b, (sched b).pooled.length < 2 ^ 63)
    {b : Pbf.Block} (hf : b.Data.Fits) {c : Content} (hc : HasContent inflate Count.reader b.Kind b.Data.bytes c) :
    ∃ gs, groupsOf inflate sched b = .ok gs ∧ gs.map trimGroup = cGroups c := by
  unfold groupsOf
  cases c with
  | other k bs => rw [if_pos hc.2.2]; exact ⟨[], rfl, rfl⟩
  | data c =>
    obtain ⟨h1, h2⟩ := hc
    rw [if_neg (by rw [h1]; simp)]
    obtain ⟨raw, pb, r1, r2, r3⟩ := h2 b.Index b.Data.spare (sched b) hf (hsched b)
    obtain ⟨i, ⟨bs, sp⟩, kd⟩ := b
    dsimp only at h1 r1
    subst h1
    rw [r1, Res.ok_bind, r2, Res.ok_bind]
    subst r3
    exact ⟨_, rfl, rfl⟩

theorem contents_groups (inflate : Inflate) (sched : Pbf.Block → Sched) (hsched : ∀ b, (sched b).pooled.length < 2 ^ 63) :
    ∀ {bs : List Pbf.Block} {cs : List Content}, (∀ b ∈ bs, b.Data.Fits) →
      Matches (fun b c => HasContent inflate Count.reader b.Kind b.Data.bytes c) bs cs →
      ∃ gss, mapRes (groupsOf inflate sched) bs = .ok gss ∧ gss.flatten.map trimGroup = fileGroups cs := by
  intro bs cs hf h
  induction h with
  | nil => exact ⟨[], rfl, rfl⟩
  | @cons b c bs cs h1 _ ih =>
    obtain ⟨gs, g1, g2⟩ := content_groups inflate sched hsched (hf b (by simp)) h1
    obtain ⟨gss, g3, g4⟩ := ih (fun b hb => hf b (by simp [hb]))
    refine ⟨gs :: gss, ?_, ?_⟩
    · unfold mapRes
      rw [g1, Res.ok_bind, g3]
      rfl
    · rw [List.flatten_cons, List.map_append, g2, g4, fileGroups_eq, fileGroups_eq, List.flatMap_cons]

theorem mapRes_perm {α β : Type} {f : α → Res β} {xs ys : List α} (h : xs.Perm ys) :
    ∀ {zs : List β}, mapRes f xs = .ok zs → ∃ ws, mapRes f ys = .ok ws ∧ zs.Perm ws := by
  induction h with
  | nil => exact fun h => ⟨_, h, .refl _⟩
  | cons x _ ih =>
    intro zs h
    unfold mapRes at h ⊢
    obtain ⟨z, h1, h⟩ := Res.bind_eq_ok.1 h
    obtain ⟨r, h2, h⟩ := Res.bind_eq_ok.1 h
    cases h
    obtain ⟨ws, h3, h4⟩ := ih h2
    rw [h1, Res.ok_bind, h3]
    exact ⟨_, rfl, h4.cons z⟩
  | swap x y l =>
    intro zs h
    unfold mapRes at h
    obtain ⟨z, h1, h⟩ := Res.bind_eq_ok.1 h
    obtain ⟨r, h2, h⟩ := Res.bind_eq_ok.1 h
    cases h
    unfold mapRes at h2
    obtain ⟨z', h3, h2⟩ := Res.bind_eq_ok.1 h2
    obtain ⟨r', h4, h2⟩ := Res.bind_eq_ok.1 h2
    cases h2
    refine ⟨z' :: z :: r', ?_, .swap _ _ _⟩
    unfold mapRes
    rw [h3, Res.ok_bind]
    unfold mapRes
    rw [h1, Res.ok_bind, h4]
    rfl
  | trans _ _ ih1 ih2 =>
    intro zs h
    obtain ⟨ws, h1, h2⟩ := ih1 h
    obtain ⟨vs, h3, h4⟩ := ih2 h1
    exact ⟨vs, h3, h2.trans h4⟩

/-- The updates of all workers. -/
theorem workers_ops (inflate : Inflate) (sched : Pbf.Block → Sched) : ∀ (tooks : List (List Pbf.Block))
    (gss : List (List T.PrimitiveGroup)), mapRes (groupsOf inflate sched) tooks.flatten = .ok gss →
    ∃ xs : List (Nat × List T.PrimitiveGroup),
      mapRes (countWorker inflate sched) tooks = .ok (xs.map fun x => finalOps (Local.zero.plus x.1 x.2)) ∧
      (xs.map (·.1)).sum = tooks.flatten.length ∧ xs.flatMap (·.2) = gss.flatten
  | [], gss, h => by
    cases h
    exact ⟨[], rfl, rfl, rfl⟩
  | t :: ts, gss, h => by
    rw [List.flatten_cons] at h
    obtain ⟨g1, g2, h1, h2, rfl⟩ := Pbf.mapRes_append_ok h
    obtain ⟨xs, x1, x2, x3⟩ := workers_ops inflate sched ts g2 h2
    refine ⟨(t.length, g1.flatten) :: xs, ?_, ?_, ?_⟩
    · unfold mapRes
      rw [x1]
      unfold countWorker
      rw [blocks_fold inflate sched t _ _ h1]
      rfl
    · simp [x2]
    · simp [x3]

theorem flatten_perm {α : Type} {xs ys : List (List α)} (h : xs.Perm ys) : xs.flatten.Perm ys.flatten := by
  induction h with
  | nil => exact .refl _
  | cons x _ ih => rw [List.flatten_cons, List.flatten_cons]; exact ih.append_left x
  | swap x y l =>
    simp only [List.flatten_cons, ← List.append_assoc]
    exact List.Perm.append_right _ List.perm_append_comm
  | trans _ _ h1 h2 => exact h1.trans h2

/-- What is printed at the end of a run. -/
theorem prints_local (inflate : Inflate) (sched : Pbf.Block → Sched) (hsched : ∀ b, (sched b).pooled.length < 2 ^ 63)
    {bs : List Pbf.Block} {cs : List Content} (hf : ∀ b ∈ bs, b.Data.Fits)
    (hm : Matches (fun b c => HasContent inflate Count.reader b.Kind b.Data.bytes c) bs cs)
    {s : Pbf.St (List T.PrimitiveGroup)} (hp : (s.workers.flatMap (·.took)).Perm bs) :
    (∃ ops, mapRes (fun w => countWorker inflate sched w.took) s.workers = .ok ops) ∧
    ∀ m, Prints inflate sched s m → ∀ v, m v = (Local.zero.plus cs.length (fileGroups cs)).get v := by
  obtain ⟨gss, g1, g2⟩ := contents_groups inflate sched hsched hf hm
  obtain ⟨gss', g3, g4⟩ := mapRes_perm hp.symm g1
  rw [List.flatMap_def] at g3
  obtain ⟨xs, x1, x2, x3⟩ := workers_ops inflate sched _ _ g3
  have he : mapRes (fun w => countWorker inflate sched w.took) s.workers =
      mapRes (countWorker inflate sched) (s.workers.map (·.took)) := by
    generalize s.workers = ws
    induction ws with
    | nil => rfl
    | cons w ws ih => simp only [mapRes, List.map_cons, ih]
  refine ⟨⟨_, he.trans x1⟩, ?_⟩
  rintro m ⟨ops, n, u, o1, o2, o3, rfl⟩ v
  rw [he, x1] at o1
  cases o1
  rw [run_final o2 o3 v, x2, x3, plus_perm _ (flatten_perm g4.symm), ← g2, plus_trim]
  congr 2
  rw [← List.flatMap_def, hp.length_eq, Rewrite.each_length hm]

theorem blockFile_length {i : Nat} {file : List UInt8} {bs : List Pbf.Block} (h : BlockFile i file bs) :
    bs.length ≤ file.length := by
  induction h with
  | nil => exact Nat.le_refl _
  | cons _ header data rest kind size bs _ _ _ _ _ ih =>
    simp only [List.length_cons, List.length_append, Pbf.be32_length]
    omega

theorem split_length {file : List UInt8} (hl : file.length < 2 ^ 63) {bs : List Pbf.Block}
    (h : Pbf.split file = .ok bs) : bs.length ≤ file.length :=
  blockFile_length ((Pbf.split_iff file hl bs).1 h).2

/-! ## Maxima as numbers -/

theorem natMax_spec (a : Nat) (xs : List Nat) : (xs.foldl Nat.max a ∈ a :: xs) ∧ ∀ y ∈ a :: xs, y ≤ xs.foldl Nat.max a := by
  induction xs generalizing a with
  | nil => simp
  | cons x xs ih =>
    rw [List.foldl_cons]
    obtain ⟨h1, h2⟩ := ih (Nat.max a x)
    refine ⟨?_, ?_⟩
    · rcases List.mem_cons.1 h1 with h | h
      · rw [h]
        rcases Nat.le_total a x with h' | h'
        · rw [show Nat.max a x = x from Nat.max_eq_right h']; simp
        · rw [show Nat.max a x = a from Nat.max_eq_left h']; simp
      · simp [h]
    · intro y hy
      simp only [List.mem_cons] at hy
      have h3 := h2 (Nat.max a x) (by simp)
      rcases hy with rfl | rfl | hy
      · exact Nat.le_trans (Nat.le_max_left y x) h3
      · exact Nat.le_trans (Nat.le_max_right a y) h3
      · exact h2 _ (by simp [hy])

theorem umax_nat (xs : List UInt64) : (umax 0 xs).toNat = (xs.map (·.toNat)).foldl Nat.max 0 := by
  obtain ⟨h1, h2⟩ := umax_isMax 0 xs
  obtain ⟨h3, h4⟩ := natMax_spec 0 (xs.map (·.toNat))
  apply Nat.le_antisymm
  · apply h4
    rcases List.mem_cons.1 h1 with h | h
    · rw [h]; simp
    · exact List.mem_cons_of_mem _ (List.mem_map.2 ⟨_, h, rfl⟩)
  · rcases List.mem_cons.1 h3 with h | h
    · rw [h]; exact Nat.zero_le _
    · obtain ⟨x, hx, h⟩ := List.mem_map.1 h
      rw [← h]
      exact UInt64.le_iff_toNat_le.1 (h2 x (by simp [hx]))

theorem toUInt64_nonneg {x : Int64} (h : 0 ≤ x.toInt) : x.toUInt64.toNat = x.toInt.toNat := by
  have h1 : x.toInt = x.toBitVec.toInt := rfl
  have h2 : x.toUInt64.toNat = x.toBitVec.toNat := rfl
  have h3 := BitVec.toInt_eq_toNat_cond x.toBitVec
  have := x.toBitVec.isLt
  rw [h1] at h ⊢
  rw [h2]
  split at h3 <;> omega

theorem umax_ids (ids : List Int64) (h : ∀ i ∈ ids, 0 ≤ i.toInt) : (umax 0 (ids.map (·.toUInt64))).toNat = maxId ids := by
  rw [umax_nat]
  unfold maxId
  rw [List.map_map]
  congr 1
  apply List.map_congr_left
  intro i hi
  exact toUInt64_nonneg (h i hi)

theorem blocksLoop_eq (bs : List Pbf.Block) (n : UInt64) : blocksLoop n bs = n + UInt64.ofNat bs.length := by
  induction bs generalizing n with
  | nil => simp [blocksLoop]
  | cons b bs ih =>
    rw [blocksLoop, ih, UInt64.add_assoc, List.length_cons, Nat.add_comm, ← ofNat_add]
    rfl

theorem sum_ofNat : ∀ xs : List Nat, (xs.map UInt64.ofNat).sum = UInt64.ofNat xs.sum
  | [] => rfl
  | x :: xs => by rw [List.map_cons, List.sum_cons, sum_ofNat xs, ofNat_add, List.sum_cons]

theorem blocks_args : ∀ ts : List (List Pbf.Block),
    addArgs () (ts.map blocksWorker).flatten = ts.map (fun t => UInt64.ofNat t.length) ∧
    maxArgs () (ts.map blocksWorker).flatten = []
  | [] => ⟨rfl, rfl⟩
  | t :: ts => by
    obtain ⟨h1, h2⟩ := blocks_args ts
    rw [List.map_cons, List.flatten_cons, addArgs_append, maxArgs_append, h1, h2]
    simp [blocksWorker, addArgs, maxArgs, blocksLoop_eq]

end Osm.Count
