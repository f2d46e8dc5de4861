import Verif.Model.Pool

/-! # The buffer pool -/

namespace Osm.Pool
open Osm

/-- What a goroutine has. -/
def pcMem : Pc → List Mem
  | .check _ b => [b.mem]
  | .hold _ bb => if bb.isBorrowed then [bb.mem] else []
  | _ => []

/-- All arrays that are in the pool or that somebody has. -/
def own (s : St) : List Mem := s.pool.map (·.mem) ++ s.procs.flatMap pcMem

structure Inv (s : St) : Prop where
  nodup : (own s).Nodup
  heap : ∀ x ∈ own s, ∃ n, x = .heap n ∧ n < s.fresh
  pool : ∀ b ∈ s.pool, b.cap < 2 ^ 63
  procs : ∀ p ∈ s.procs,
    (∀ z b, p = .check z b → b.cap < 2 ^ 63) ∧
    (∀ r bb, p = .hold r bb → bb.isBorrowed = true → bb.len = r.toNat ∧ bb.len ≤ bb.cap ∧ bb.cap < 2 ^ 63) ∧
    (∀ r bb, p = .hold r bb → bb.isBorrowed = false → ∃ k, bb.mem = .input k)

theorem inv_init (n : Nat) : Inv (init n) where
  nodup := by
    have : own (init n) = [] := by
      simp [own, init, pcMem]
    rw [this]; exact List.nodup_nil
  heap := by
    intro x hx
    have : own (init n) = [] := by
      simp [own, init, pcMem]
    rw [this] at hx; cases hx
  pool := by simp [init]
  procs := by
    intro p hp
    simp only [init, List.mem_replicate] at hp
    obtain ⟨_, rfl⟩ := hp
    exact ⟨by simp, by simp, by simp⟩

theorem borrow_ok {buf : Buf} {sz : UInt64} {bb : BorrowedBuffer} (h : borrow buf sz = .ok bb) :
    sz.toNat ≤ buf.cap ∧ bb = ⟨buf.mem, sz.toNat, buf.cap, true⟩ := by
  unfold borrow at h
  split at h
  · next hle => cases h; exact ⟨hle, rfl⟩
  · cases h

theorem toInt64_neg {sz : UInt64} (h : ¬ sz.toNat < 2 ^ 63) : sz.toInt64.toInt < 0 := by
  have h1 : sz.toInt64.toInt = sz.toBitVec.toInt := rfl
  have h2 : sz.toNat = sz.toBitVec.toNat := rfl
  have h3 := BitVec.toInt_eq_toNat_cond sz.toBitVec
  have := sz.toBitVec.isLt
  rw [h1]
  split at h3 <;> omega

theorem toInt64_pos {sz : UInt64} (h : sz.toNat < 2 ^ 63) : sz.toInt64.toInt = sz.toNat := by
  have h1 : sz.toInt64.toInt = sz.toBitVec.toInt := rfl
  have h2 : sz.toNat = sz.toBitVec.toNat := rfl
  have h3 := BitVec.toInt_eq_toNat_cond sz.toBitVec
  rw [h1]
  split at h3 <;> omega

theorem tooSmall_bound {buf : Buf} {sz : UInt64} (h : tooSmall buf sz = true) : sz.toNat < 2 ^ 63 := by
  apply Classical.byContradiction
  intro hn
  have := toInt64_neg hn
  simp only [tooSmall, decide_eq_true_eq] at h
  omega

/-- Own with the goroutine in the middle replaced. -/
theorem own_mid (s : St) (l1 l2 : List Pc) (p : Pc) (h : s.procs = l1 ++ p :: l2) :
    (own s).Perm (pcMem p ++ (s.pool.map (·.mem) ++ (l1 ++ l2).flatMap pcMem)) := by
  unfold own
  rw [h]
  simp only [List.flatMap_append, List.flatMap_cons]
  rw [← List.append_assoc, ← List.append_assoc]
  refine (List.Perm.append_right _ (List.perm_append_comm (l₂ := pcMem p))).trans ?_ |>.trans (.refl _)
  simp

/-- Everything an invariant step needs: the new goroutine, the new pool. -/
theorem inv_change {s s' : St} {l1 l2 : List Pc} {p p' : Pc} (hi : Inv s) (h : s.procs = l1 ++ p :: l2)
    (h' : s'.procs = l1 ++ p' :: l2) (hfresh : s.fresh ≤ s'.fresh)
    (hnodup : (pcMem p' ++ (s'.pool.map (·.mem) ++ (l1 ++ l2).flatMap pcMem)).Nodup)
    (hheap : ∀ x ∈ pcMem p' ++ s'.pool.map (·.mem), ∃ n, x = .heap n ∧ n < s'.fresh)
    (hpool : ∀ b ∈ s'.pool, b.cap < 2 ^ 63)
    (hp : (∀ z b, p' = .check z b → b.cap < 2 ^ 63) ∧
      (∀ r bb, p' = .hold r bb → bb.isBorrowed = true → bb.len = r.toNat ∧ bb.len ≤ bb.cap ∧ bb.cap < 2 ^ 63) ∧
      (∀ r bb, p' = .hold r bb → bb.isBorrowed = false → ∃ k, bb.mem = .input k)) : Inv s' where
  nodup := ((own_mid s' l1 l2 p' h').nodup_iff).2 hnodup
  heap := by
    intro x hx
    have hx := (own_mid s' l1 l2 p' h').mem_iff.1 hx
    simp only [List.mem_append] at hx hheap
    rcases hx with hx | hx | hx
    · exact hheap x (.inl hx)
    · exact hheap x (.inr hx)
    · obtain ⟨n, h1, h2⟩ := hi.heap x ((own_mid s l1 l2 p h).mem_iff.2 (by simp only [List.mem_append]; exact .inr (.inr hx)))
      exact ⟨n, h1, by omega⟩
  pool := hpool
  procs := by
    intro q hq
    rw [h'] at hq
    simp only [List.mem_append, List.mem_cons] at hq
    rcases hq with hq | rfl | hq
    · exact hi.procs q (by rw [h]; simp [hq])
    · exact hp
    · exact hi.procs q (by rw [h]; simp [hq])

theorem inv_step {ok : UInt64 → Prop} {who : Option Nat} {s s' : St} (hi : Inv s) (hs : Step ok who s s') : Inv s' := by
  have hnd : ∀ l1 p l2, s.procs = l1 ++ p :: l2 → (pcMem p ++ (s.pool.map (·.mem) ++ (l1 ++ l2).flatMap pcMem)).Nodup :=
    fun l1 p l2 h => ((own_mid s l1 l2 p h).nodup_iff).1 hi.nodup
  have hhp : ∀ l1 p l2, s.procs = l1 ++ p :: l2 → ∀ x ∈ pcMem p ++ (s.pool.map (·.mem) ++ (l1 ++ l2).flatMap pcMem),
      ∃ n, x = .heap n ∧ n < s.fresh :=
    fun l1 p l2 h x hx => hi.heap x ((own_mid s l1 l2 p h).mem_iff.2 hx)
  have hpl : ∀ x ∈ s.pool.map (·.mem), ∃ n, x = .heap n ∧ n < s.fresh := by
    intro x hx
    exact hi.heap x (by simp only [own, List.mem_append]; exact .inl hx)
  have plain : ∀ {l1 p p' l2}, s.procs = l1 ++ p :: l2 → pcMem p = [] → pcMem p' = [] →
      (∀ z b, p' ≠ .check z b) → (∀ r bb, p' = .hold r bb → bb.isBorrowed = false ∧ ∃ k, bb.mem = .input k) →
      ∀ d, Inv { s with defSize := d, procs := l1 ++ p' :: l2 } := by
    intro l1 p p' l2 h e e' n1 n2 d
    refine inv_change hi h rfl (Nat.le_refl _) ?_ ?_ hi.pool ⟨?_, ?_, ?_⟩
    · have := hnd l1 p l2 h
      rw [e] at this
      rw [e']
      exact this
    · rw [e']; exact hpl
    · intro z b hb; exact absurd hb (n1 z b)
    · intro r bb hb hbo
      rw [(n2 r bb hb).1] at hbo
      cases hbo
    · intro r bb hb _
      exact (n2 r bb hb).2
  cases hs with
  | wrap h =>
    refine plain h rfl (by simp [pcMem, NonBorrowedBuffer]) (by simp) ?_ s.defSize
    intro r bb hb
    cases hb
    exact ⟨rfl, _, rfl⟩
  | call sz _ h => exact plain h rfl rfl (by simp) (by simp) s.defSize
  | load h =>
    refine plain h rfl ?_ ?_ ?_ s.defSize
    · split <;> rfl
    · split <;> simp
    · split <;> simp
  | store h => exact plain h rfl rfl (by simp) (by simp) _
  | @getPooled _ l1 l2 sz p1 p2 buf h hp =>
    have hn := hnd l1 _ l2 h
    have hh := hhp l1 _ l2 h
    rw [hp] at hn
    have hperm : (pcMem (.check sz buf) ++ ((p1 ++ p2).map (·.mem) ++ (l1 ++ l2).flatMap pcMem)).Perm
        (pcMem (.get sz) ++ ((p1 ++ buf :: p2).map (·.mem) ++ (l1 ++ l2).flatMap pcMem)) := by
      simp only [pcMem, List.map_append, List.map_cons, List.nil_append, List.append_assoc, List.cons_append]
      exact (List.perm_middle (a := buf.mem) (l₁ := p1.map (·.mem))).symm
    refine inv_change hi h rfl (Nat.le_refl _) (hperm.nodup_iff.2 hn) ?_ ?_ ⟨?_, ?_, ?_⟩
    · intro x hx
      apply hh
      rw [hp]
      apply hperm.mem_iff.1
      simp only [List.mem_append] at hx ⊢
      rcases hx with hx | hx
      · exact .inl hx
      · exact .inr (.inl hx)
    · intro b hb
      apply hi.pool
      rw [hp]
      simp only [List.mem_append, List.mem_cons] at hb ⊢
      rcases hb with hb | hb
      · exact .inl hb
      · exact .inr (.inr hb)
    · intro z b hb
      cases hb
      exact hi.pool _ (by rw [hp]; simp)
    · intro r bb hb; cases hb
    · intro r bb hb; cases hb
  | @getNew _ l1 l2 sz h hd =>
    have hn := hnd l1 _ l2 h
    have hh := hhp l1 _ l2 h
    refine inv_change hi h rfl (Nat.le_succ _) ?_ ?_ hi.pool ⟨?_, ?_, ?_⟩
    · simp only [pcMem, List.nil_append, List.cons_append] at hn hh ⊢
      refine List.nodup_cons.2 ⟨fun hx => ?_, hn⟩
      obtain ⟨n, h1, h2⟩ := hh _ hx
      cases h1
      omega
    · intro x hx
      simp only [pcMem, List.cons_append, List.nil_append, List.mem_cons] at hx
      rcases hx with rfl | hx
      · exact ⟨_, rfl, Nat.lt_succ_self _⟩
      · obtain ⟨n, h1, h2⟩ := hpl x hx
        exact ⟨n, h1, by dsimp only; omega⟩
    · intro z b hb; cases hb; exact hd
    · intro r bb hb; cases hb
    · intro r bb hb; cases hb
  | getNewPanic h _ => exact ⟨hi.nodup, hi.heap, hi.pool, hi.procs⟩
  | @grow _ l1 l2 sz buf bb h hsm hb =>
    obtain ⟨b1, rfl⟩ := borrow_ok hb
    have hn := hnd l1 _ l2 h
    have hh := hhp l1 _ l2 h
    have hlt := tooSmall_bound hsm
    refine inv_change hi h rfl (Nat.le_succ _) ?_ ?_ hi.pool ⟨?_, ?_, ?_⟩
    · simp only [pcMem, if_true, List.nil_append, List.cons_append] at hn hh ⊢
      refine List.nodup_cons.2 ⟨fun hx => ?_, (List.nodup_cons.1 hn).2⟩
      obtain ⟨n, h1, h2⟩ := hh _ (List.mem_cons_of_mem _ hx)
      cases h1
      omega
    · intro x hx
      simp only [pcMem, if_true, List.cons_append, List.nil_append, List.mem_cons] at hx
      rcases hx with rfl | hx
      · exact ⟨_, rfl, Nat.lt_succ_self _⟩
      · obtain ⟨n, h1, h2⟩ := hpl x hx
        exact ⟨n, h1, by dsimp only; omega⟩
    · intro z b hb; cases hb
    · intro r bb hb hbo
      cases hb
      exact ⟨rfl, Nat.le_refl _, hlt⟩
    · intro r bb hb hbo
      cases hb
      cases hbo
  | @use _ l1 l2 sz buf bb h hsm hb =>
    obtain ⟨b1, rfl⟩ := borrow_ok hb
    have hn := hnd l1 _ l2 h
    have hh := hhp l1 _ l2 h
    have hc := (hi.procs (.check sz buf) (by rw [h]; simp)).1 _ _ rfl
    refine inv_change hi h rfl (Nat.le_refl _) ?_ ?_ hi.pool ⟨?_, ?_, ?_⟩
    · simpa only [pcMem, if_true] using hn
    · intro x hx
      apply hh
      simp only [pcMem, if_true, List.cons_append, List.nil_append, List.mem_cons, List.mem_append] at hx ⊢
      rcases hx with hx | hx
      · exact .inl hx
      · exact .inr (.inl hx)
    · intro z b hb; cases hb
    · intro r bb hb hbo
      cases hb
      exact ⟨rfl, b1, hc⟩
    · intro r bb hb hbo
      cases hb
      cases hbo
  | usePanic h _ _ => exact ⟨hi.nodup, hi.heap, hi.pool, hi.procs⟩
  | write c h _ => exact ⟨hi.nodup, hi.heap, hi.pool, hi.procs⟩
  | @put _ l1 l2 req bb h =>
    have hn := hnd l1 _ l2 h
    have hh := hhp l1 _ l2 h
    have hb := hi.procs (.hold req bb) (by rw [h]; simp)
    refine inv_change hi h rfl (Nat.le_refl _) ?_ ?_ ?_ ⟨?_, ?_, ?_⟩
    · unfold put
      dsimp only
      split
      · next hbo => simpa [pcMem, hbo] using hn
      · next hbo => simpa [pcMem, hbo] using hn
    · intro x hx
      apply hh
      unfold put at hx
      simp only [pcMem, List.nil_append, List.mem_append] at hx ⊢
      split at hx
      · next hbo =>
        rw [if_pos hbo]
        simp only [List.map_cons, List.mem_cons] at hx
        rcases hx with hx | hx
        · exact .inl (by simp [hx])
        · exact .inr (.inl hx)
      · exact .inr (.inl hx)
    · intro b hbm
      unfold put at hbm
      dsimp only at hbm
      split at hbm
      · next hbo =>
        rcases List.mem_cons.1 hbm with rfl | hbm
        · exact (hb.2.1 _ _ rfl hbo).2.2
        · exact hi.pool b hbm
      · exact hi.pool b hbm
    · intro z b hb; cases hb
    · intro r bb hb; cases hb
    · intro r bb hb; cases hb
  | @drop _ l1 l2 req bb h =>
    have hn := hnd l1 _ l2 h
    refine inv_change hi h rfl (Nat.le_refl _) ?_ ?_ hi.pool ⟨?_, ?_, ?_⟩
    · exact hn.sublist (List.sublist_append_right _ _)
    · exact hpl
    · intro z b hb; cases hb
    · intro r bb hb; cases hb
    · intro r bb hb; cases hb
  | @evict _ p1 p2 buf hp =>
    have hsub : List.Sublist (own { s with pool := p1 ++ p2 }) (own s) := by
      unfold own
      rw [hp]
      refine List.Sublist.append_right ?_ _
      apply List.Sublist.map
      exact (List.Sublist.refl p1).append (List.sublist_cons_self _ _)
    refine ⟨hi.nodup.sublist hsub, fun x hx => hi.heap x (hsub.subset hx), ?_, hi.procs⟩
    intro b hb
    apply hi.pool
    rw [hp]
    simp only [List.mem_append, List.mem_cons] at hb ⊢
    rcases hb with hb | hb
    · exact .inl hb
    · exact .inr (.inr hb)

theorem reachable_inv {ok : UInt64 → Prop} {n : Nat} {s : St} (h : Reachable ok n s) : Inv s := by
  induction h with
  | init => exact inv_init n
  | step _ _ hs ih => exact inv_step ih hs

end Osm.Pool
