import Verif.Lemmas.Pool

/-! # Pooled buffers (C62) -/

namespace Osm.Props
open Osm Osm.Pool

/-- The goroutine with the number `i` uses a buffer that it got from `Get` for the size `req`. -/
def Borrows (s : St) (i : Nat) (req : UInt64) (bb : BorrowedBuffer) : Prop :=
  s.procs[i]? = some (.hold req bb) ∧ bb.isBorrowed = true

theorem split_at {α : Type} {l : List α} {i : Nat} {a : α} (h : l[i]? = some a) :
    ∃ l1 l2, l = l1 ++ a :: l2 ∧ l1.length = i := by
  obtain ⟨hi, rfl⟩ := List.getElem?_eq_some_iff.1 h
  refine ⟨l.take i, l.drop (i + 1), ?_, by simp; omega⟩
  rw [← List.drop_eq_getElem_cons hi, List.take_append_drop]

theorem borrows_own {s : St} {i : Nat} {req : UInt64} {bb : BorrowedBuffer} (h : Borrows s i req bb) :
    ∃ l1 l2, s.procs = l1 ++ .hold req bb :: l2 ∧ l1.length = i ∧
      (own s).Perm (bb.mem :: (s.pool.map (·.mem) ++ (l1 ++ l2).flatMap pcMem)) := by
  obtain ⟨l1, l2, h1, h2⟩ := split_at h.1
  refine ⟨l1, l2, h1, h2, ?_⟩
  have := own_mid s l1 l2 _ h1
  simpa [pcMem, h.2] using this

/-- C62: a borrowed buffer has exactly the length asked for. -/
theorem C62_length (ok : UInt64 → Prop) (n : Nat) (s : St) (hr : Reachable ok n s) (i : Nat) (req : UInt64)
    (bb : BorrowedBuffer) (h : Borrows s i req bb) : bb.len = req.toNat ∧ bb.len ≤ bb.cap := by
  obtain ⟨l1, l2, h1, _, _⟩ := borrows_own h
  have := ((reachable_inv hr).procs (.hold req bb) (by rw [h1]; simp)).2.1 _ _ rfl h.2
  exact ⟨this.1, this.2.1⟩

/-- C62: no two goroutines ever use the same buffer, whatever the schedule, the choices of the pool and the garbage
collector. -/
theorem C62_exclusive (ok : UInt64 → Prop) (n : Nat) (s : St) (hr : Reachable ok n s) (i j : Nat) (hij : i ≠ j)
    (req req' : UInt64) (bb bb' : BorrowedBuffer) (h : Borrows s i req bb) (h' : Borrows s j req' bb') :
    bb.mem ≠ bb'.mem := by
  obtain ⟨l1, l2, h1, h2, h3⟩ := borrows_own h
  have hnd := (h3.nodup_iff).1 (reachable_inv hr).nodup
  have hmem : Pc.hold req' bb' ∈ l1 ++ l2 := by
    have := h'.1
    rw [h1] at this
    rcases Nat.lt_or_ge j l1.length with hlt | hge
    · rw [List.getElem?_append_left hlt] at this
      exact List.mem_append_left _ (List.mem_of_getElem? this)
    · rw [List.getElem?_append_right hge] at this
      obtain ⟨k, hk⟩ : ∃ k, j - l1.length = k + 1 := ⟨j - l1.length - 1, by omega⟩
      rw [hk, List.getElem?_cons_succ] at this
      exact List.mem_append_right _ (List.mem_of_getElem? this)
  intro he
  apply (List.nodup_cons.1 hnd).1
  rw [he]
  apply List.mem_append_right
  exact List.mem_flatMap.2 ⟨_, hmem, by simp [pcMem, h'.2]⟩

/-- C62: a buffer in use is not in the pool, and nothing is in the pool twice; so the pool cannot hand it out. -/
theorem C62_not_pooled (ok : UInt64 → Prop) (n : Nat) (s : St) (hr : Reachable ok n s) :
    (s.pool.map (·.mem)).Nodup ∧
    ∀ i req bb, Borrows s i req bb → ∀ b ∈ s.pool, b.mem ≠ bb.mem := by
  have hi := reachable_inv hr
  refine ⟨(List.nodup_append.1 hi.nodup).1, ?_⟩
  intro i req bb h b hb he
  obtain ⟨l1, l2, h1, h2, h3⟩ := borrows_own h
  have hnd := (h3.nodup_iff).1 hi.nodup
  apply (List.nodup_cons.1 hnd).1
  rw [← he]
  exact List.mem_append_left _ (List.mem_map.2 ⟨b, hb, rfl⟩)

/-- C62: input memory is never in the pool, and no borrowed buffer is input memory. -/
theorem C62_input (ok : UInt64 → Prop) (n : Nat) (s : St) (hr : Reachable ok n s) (k : Nat) :
    (∀ b ∈ s.pool, b.mem ≠ .input k) ∧ ∀ i req bb, Borrows s i req bb → bb.mem ≠ .input k := by
  have hi := reachable_inv hr
  refine ⟨?_, ?_⟩
  · intro b hb he
    obtain ⟨n, h, _⟩ := hi.heap b.mem (by simp only [own, List.mem_append]; exact .inl (List.mem_map.2 ⟨b, hb, rfl⟩))
    rw [he] at h
    cases h
  · intro i req bb h he
    obtain ⟨l1, l2, h1, h2, h3⟩ := borrows_own h
    obtain ⟨n, h, _⟩ := hi.heap bb.mem (h3.mem_iff.2 (by simp))
    rw [he] at h
    cases h

theorem get_set_other {α : Type} (l1 l2 : List α) (a b : α) {i : Nat} (h : i ≠ l1.length) :
    (l1 ++ b :: l2)[i]? = (l1 ++ a :: l2)[i]? := by
  rcases Nat.lt_or_ge i l1.length with hlt | hge
  · rw [List.getElem?_append_left hlt, List.getElem?_append_left hlt]
  · rw [List.getElem?_append_right hge, List.getElem?_append_right hge]
    obtain ⟨k, hk⟩ : ∃ k, i - l1.length = k + 1 := ⟨i - l1.length - 1, by omega⟩
    rw [hk, List.getElem?_cons_succ, List.getElem?_cons_succ]

/-- C62: what a goroutine has in a borrowed buffer is not changed by what other goroutines and the garbage collector do,
and nor is its hold on it; the input is changed by nobody. -/
theorem C62_isolated (ok : UInt64 → Prop) (n : Nat) (s : St) (hr : Reachable ok n s) (i : Nat) (req : UInt64)
    (bb : BorrowedBuffer) (h : Borrows s i req bb) (who : Option Nat) (hw : who ≠ some i) (s' : St)
    (hs : Step ok who s s') :
    Borrows s' i req bb ∧ s'.content bb.mem = s.content bb.mem ∧ ∀ k, s'.content (.input k) = s.content (.input k) := by
  have hi := reachable_inv hr
  obtain ⟨l1, l2, h1, h2, h3⟩ := borrows_own h
  have hnf : bb.mem ≠ .heap s.fresh := by
    intro he
    obtain ⟨n, e, hlt⟩ := hi.heap bb.mem (h3.mem_iff.2 (by simp))
    rw [he] at e
    cases e
    omega
  have keep : ∀ {a b : Pc} {k1 k2 : List Pc}, s.procs = k1 ++ a :: k2 → who = some k1.length →
      (k1 ++ b :: k2)[i]? = some (.hold req bb) := by
    intro a b k1 k2 e ew
    rw [get_set_other k1 k2 a b (by rintro rfl; exact hw ew), ← e]
    exact h.1
  have fresh : ∀ m, alloc s m bb.mem = s.content bb.mem ∧ ∀ k, alloc s m (.input k) = s.content (.input k) := by
    intro m
    refine ⟨?_, ?_⟩
    · simp [alloc, hnf]
    · simp [alloc]
  cases hs with
  | wrap e => exact ⟨⟨keep e rfl, h.2⟩, rfl, fun _ => rfl⟩
  | call sz _ e => exact ⟨⟨keep e rfl, h.2⟩, rfl, fun _ => rfl⟩
  | load e => exact ⟨⟨keep e rfl, h.2⟩, rfl, fun _ => rfl⟩
  | store e => exact ⟨⟨keep e rfl, h.2⟩, rfl, fun _ => rfl⟩
  | getPooled e _ => exact ⟨⟨keep e rfl, h.2⟩, rfl, fun _ => rfl⟩
  | getNew e _ => exact ⟨⟨keep e rfl, h.2⟩, fresh s.defSize.toNat⟩
  | getNewPanic e _ => exact ⟨h, rfl, fun _ => rfl⟩
  | @grow _ _ _ sz _ _ e _ _ => exact ⟨⟨keep e rfl, h.2⟩, fresh sz.toNat⟩
  | use e _ _ => exact ⟨⟨keep e rfl, h.2⟩, rfl, fun _ => rfl⟩
  | usePanic e _ _ => exact ⟨h, rfl, fun _ => rfl⟩
  | @write _ k1 k2 req' bb' c e hb =>
    have h' : Borrows s k1.length req' bb' := ⟨by rw [e]; simp, hb⟩
    have hne := C62_exclusive ok n s hr i k1.length (by rintro rfl; exact hw rfl) _ _ _ _ h h'
    refine ⟨h, by simp [hne], fun k => ?_⟩
    have := (C62_input ok n s hr k).2 _ _ _ h'
    simp [Ne.symm this]
  | put e => exact ⟨⟨keep e rfl, h.2⟩, rfl, fun _ => rfl⟩
  | drop e => exact ⟨⟨keep e rfl, h.2⟩, rfl, fun _ => rfl⟩
  | evict _ => exact ⟨h, rfl, fun _ => rfl⟩

/-- C62: if nobody asks for 2^63 bytes or more, nothing panics; and who asks for that never gets a buffer. -/
theorem C62_panics (ok : UInt64 → Prop) (n : Nat) (s : St) (hr : Reachable ok n s) :
    ((∀ sz, ok sz → sz.toNat < 2 ^ 63) → s.crashed = false) ∧
    ∀ i req bb, Borrows s i req bb → req.toNat < 2 ^ 63 := by
  refine ⟨fun hok => ?_, ?_⟩
  · have : s.crashed = false ∧ s.defSize.toNat < 2 ^ 63 ∧ ∀ p ∈ s.procs, ∀ sz : UInt64,
        (p = .load sz ∨ p = .store sz ∨ p = .get sz ∨ ∃ b, p = .check sz b) → sz.toNat < 2 ^ 63 := by
      induction hr with
      | init =>
        refine ⟨rfl, by simp [init], ?_⟩
        intro p hp sz h
        simp only [init, List.mem_replicate] at hp
        obtain ⟨_, rfl⟩ := hp
        simp at h
      | @step s s' who hr hc hs ih =>
        obtain ⟨i1, i2, i3⟩ := ih
        have mid : ∀ {l1 p p' l2}, s.procs = l1 ++ p :: l2 →
            (∀ sz : UInt64, (p' = .load sz ∨ p' = .store sz ∨ p' = .get sz ∨ ∃ b, p' = .check sz b) → sz.toNat < 2 ^ 63) →
            ∀ q ∈ l1 ++ p' :: l2, ∀ sz : UInt64,
              (q = .load sz ∨ q = .store sz ∨ q = .get sz ∨ ∃ b, q = .check sz b) → sz.toNat < 2 ^ 63 := by
          intro l1 p p' l2 e h q hq
          simp only [List.mem_append, List.mem_cons] at hq
          rcases hq with hq | rfl | hq
          · exact i3 q (by rw [e]; simp [hq])
          · exact h
          · exact i3 q (by rw [e]; simp [hq])
        have old : ∀ {l1 l2 : List Pc} {p : Pc}, s.procs = l1 ++ p :: l2 → p ∈ s.procs := by
          intro l1 l2 p e
          rw [e]; simp
        cases hs with
        | wrap e => exact ⟨hc, i2, mid e (by simp)⟩
        | call sz ho e => exact ⟨hc, i2, mid e (by simpa using hok sz ho)⟩
        | @load _ l1 l2 sz e =>
          have := i3 _ (old e) sz (.inl rfl)
          exact ⟨hc, i2, mid e (by split <;> simpa using this)⟩
        | @store _ l1 l2 sz e =>
          have := i3 _ (old e) sz (.inr (.inl rfl))
          exact ⟨hc, this, mid e (by simpa using this)⟩
        | @getPooled _ l1 l2 sz p1 p2 buf e _ =>
          have := i3 _ (old e) sz (.inr (.inr (.inl rfl)))
          exact ⟨hc, i2, mid e (by simpa using this)⟩
        | @getNew _ l1 l2 sz e _ =>
          have := i3 _ (old e) sz (.inr (.inr (.inl rfl)))
          exact ⟨hc, i2, mid e (by simpa using this)⟩
        | getNewPanic e h => exact absurd i2 h
        | grow e _ _ => exact ⟨hc, i2, mid e (by simp)⟩
        | use e _ _ => exact ⟨hc, i2, mid e (by simp)⟩
        | @usePanic _ l1 l2 sz buf e h1 h2 =>
          have := i3 _ (old e) sz (.inr (.inr (.inr ⟨_, rfl⟩)))
          unfold borrow at h2
          simp only [tooSmall, decide_eq_false_iff_not] at h1
          rw [toInt64_pos this] at h1
          rw [if_pos (by omega)] at h2
          cases h2
        | write c e _ => exact ⟨hc, i2, i3⟩
        | put e => exact ⟨hc, i2, mid e (by simp)⟩
        | drop e => exact ⟨hc, i2, mid e (by simp)⟩
        | evict _ => exact ⟨hc, i2, i3⟩
    exact this.1
  · intro i req bb h
    obtain ⟨l1, l2, h1, _, _⟩ := borrows_own h
    have := ((reachable_inv hr).procs (.hold req bb) (by rw [h1]; simp)).2.1 _ _ rfl h.2
    omega

/-- C62: a call of `Get` always comes to an end, alone and with others interleaved: each of its steps can be made
whatever the state, and there are at most four. -/
theorem C62_get_completes (ok : UInt64 → Prop) (s : St) (l1 l2 : List Pc) (sz : UInt64) :
    (s.procs = l1 ++ .load sz :: l2 → ∃ s', Step ok (some l1.length) s s' ∧
      (s'.procs = l1 ++ .store sz :: l2 ∨ s'.procs = l1 ++ .get sz :: l2)) ∧
    (s.procs = l1 ++ .store sz :: l2 → ∃ s', Step ok (some l1.length) s s' ∧ s'.procs = l1 ++ .get sz :: l2) ∧
    (s.procs = l1 ++ .get sz :: l2 → ∃ s', Step ok (some l1.length) s s' ∧
      (s'.crashed = true ∨ ∃ b, s'.procs = l1 ++ .check sz b :: l2)) ∧
    (∀ b, s.procs = l1 ++ .check sz b :: l2 → ∃ s', Step ok (some l1.length) s s' ∧
      (s'.crashed = true ∨ ∃ bb, s'.procs = l1 ++ .hold sz bb :: l2 ∧ bb.isBorrowed = true ∧ bb.len = sz.toNat)) := by
  refine ⟨fun h => ?_, fun h => ⟨_, .store h, rfl⟩, fun h => ?_, fun b h => ?_⟩
  · refine ⟨_, .load h, ?_⟩
    cases larger sz s.defSize
    · exact .inr rfl
    · exact .inl rfl
  · by_cases hd : s.defSize.toNat < 2 ^ 63
    · exact ⟨_, .getNew h hd, .inr ⟨_, rfl⟩⟩
    · exact ⟨_, .getNewPanic h hd, .inl rfl⟩
  · cases hsm : tooSmall b sz with
    | true =>
      have hb : borrow ⟨.heap s.fresh, sz.toNat⟩ sz = .ok ⟨.heap s.fresh, sz.toNat, sz.toNat, true⟩ := by
        unfold borrow; rw [if_pos (Nat.le_refl _)]
      exact ⟨_, .grow h hsm hb, .inr ⟨_, rfl, rfl, rfl⟩⟩
    | false =>
      cases hb : borrow b sz with
      | ok bb =>
        obtain ⟨_, rfl⟩ := borrow_ok hb
        exact ⟨_, .use h hsm hb, .inr ⟨_, rfl, rfl, rfl⟩⟩
      | panic => exact ⟨_, .usePanic h hsm hb, .inl rfl⟩
      | hang =>
        unfold borrow at hb
        split at hb <;> cases hb

/-- Two goroutines: the first borrows 100 bytes, puts them back, and the second gets the same array for 50 bytes. -/
example : ∃ s, Reachable (fun _ => True) 2 s ∧ Borrows s 1 50 ⟨.heap 0, 50, 65536, true⟩ := by
  have r0 : Reachable (fun _ => True) 2 (init 2) := .init
  have r1 := Reachable.step r0 rfl (Step.call (l1 := []) (l2 := [.idle]) 100 trivial rfl)
  have r2 := Reachable.step r1 rfl (Step.load (l1 := []) (l2 := [.idle]) rfl)
  have r3 := Reachable.step r2 rfl (Step.getNew (l1 := []) (l2 := [.idle]) rfl (by decide))
  have r4 := Reachable.step r3 rfl (Step.use (l1 := []) (l2 := [.idle]) (bb := ⟨.heap 0, 100, 65536, true⟩) rfl
    (by decide) (by decide))
  have r5 := Reachable.step r4 rfl (Step.put (l1 := []) (l2 := [.idle]) rfl)
  have r6 := Reachable.step r5 rfl (Step.call (l1 := [.idle]) (l2 := []) 50 trivial rfl)
  have r7 := Reachable.step r6 rfl (Step.load (l1 := [.idle]) (l2 := []) rfl)
  have r8 := Reachable.step r7 rfl (Step.getPooled (l1 := [.idle]) (l2 := []) (p1 := []) (p2 := []) rfl rfl)
  have r9 := Reachable.step r8 rfl (Step.use (l1 := [.idle]) (l2 := []) (bb := ⟨.heap 0, 50, 65536, true⟩) rfl
    (by decide) (by decide))
  exact ⟨_, r9, rfl, rfl⟩

end Osm.Props
