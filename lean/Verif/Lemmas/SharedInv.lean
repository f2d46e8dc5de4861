import Verif.Lemmas.Shared

/-! # Workers that share memory: the invariant -/

namespace Osm.Shared
open Osm Osm.T Osm.Pbf Osm.Pool Osm.Spec

variable {O : Type}

theorem Sound.init (c : Cmd O) (use : Block → Slice → Res O) (p : Cfg O) (W : Nat) : Sound c use (init p W) where
  pool := by
    have : toPool (Shared.init p W) = Pool.init W := by
      simp [toPool, Shared.init, Pool.init, pcOf]
    rw [this]
    exact inv_init W
  caps := by simp [Shared.init]
  tasks := by
    intro t ht
    simp only [Shared.init, List.mem_replicate] at ht
    rw [ht.2]
    trivial
  busy := by
    intro i t b ht hb
    simp only [Shared.init] at ht
    have := List.mem_of_getElem? ht
    rw [(List.mem_replicate.1 this).2] at hb
    cases hb
  big := by
    intro h
    exact absurd (show (65536 : UInt64).toNat < 2 ^ 63 by decide) h

/-- The bytes that a reader will see are those of the slice. -/
theorem read_begins {c : Cmd O} {use : Block → Slice → Res O} (hc : Computes c use) (b : Block) (mem : List UInt8)
    (len cap : Nat) (h1 : mem.length = cap) (h2 : len ≤ cap) :
    (c.read b len cap).run mem = use b ⟨mem.take len, mem.drop len⟩ := by
  have := hc b ⟨mem.take len, mem.drop len⟩
  simp only [List.take_append_drop, List.length_take] at this
  rw [h1, Nat.min_eq_left h2] at this
  exact this

theorem Sound.step {c : Cmd O} {use : Block → Slice → Res O} (hc : Computes c use) {p : Cfg O} {s s' : St O}
    (hi : Sound c use s) (hs : Step c p s s') (hcr : s'.pipe.crashed = false) : Sound c use s' := by
  have hbor : ∀ b bb left r st, .inflate b bb left r st ∈ s.tasks → bb.isBorrowed = true :=
    fun b bb left r st h => (hi.tasks _ h).1
  have hp : Pool.Inv (toPool s') := by
    rcases step_pool hbor hs with h | h | ⟨who, h⟩
    · rw [h] at hcr; cases hcr
    · rw [h]; exact hi.pool
    · exact inv_step hi.pool h
  have same : ∀ {k1 k2 : List (Task O)} {t : Task O}, s.tasks = k1 ++ t :: k2 → t ∈ s.tasks := by
    intro k1 k2 t h
    rw [h]; exact mem_middle
  have crash : s.crash.pipe.crashed = false → False := by intro h; cases h
  -- the size of what is held
  have held : ∀ {k1 k2 : List (Task O)} {t : Task O} {r bb}, s.tasks = k1 ++ t :: k2 → pcOf t = .hold r bb →
      bb.isBorrowed = true → bb.len ≤ bb.cap := by
    intro k1 k2 t r bb h e hb
    exact ((hi.pool.procs (pcOf t) (by simp only [toPool]; exact List.mem_map_of_mem (same h))).2.1 r bb e hb).2.1
  have capped : ∀ {k1 k2 : List (Task O)} {b stream size buf}, s.tasks = k1 ++ .check b stream size buf :: k2 →
      buf.cap < 2 ^ 63 := by
    intro k1 k2 b stream size buf h
    exact (hi.pool.procs (pcOf (.check b stream size buf : Task O))
      (by simp only [toPool]; exact List.mem_map_of_mem (same h))).1 _ _ rfl
  -- memory of others, when the array of this worker changes
  have others : ∀ {k1 k2 : List (Task O)} {t : Task O} {m : Mem} {v : List UInt8}, s.tasks = k1 ++ t :: k2 →
      m ∈ pcMem (pcOf t) → ∀ x, x ∈ s.pool.map (·.mem) ∨ x ∈ (k1 ++ k2).flatMap (fun t => pcMem (pcOf t)) →
      (if x = m then v else s.content x) = s.content x := by
    intro k1 k2 t m v h hm x hx
    have := (List.nodup_append.1 (owned hi h).1).2.2 m hm x (List.mem_append.2 hx)
    rw [if_neg (fun e => this e.symm)]
  have allocated : ∀ {k1 k2 : List (Task O)} {t : Task O} (n : Nat), s.tasks = k1 ++ t :: k2 →
      ∀ x, x ∈ s.pool.map (·.mem) ∨ x ∈ (k1 ++ k2).flatMap (fun t => pcMem (pcOf t)) →
      s.alloc n x = s.content x := by
    intro k1 k2 t n h x hx
    unfold St.alloc
    rw [if_neg ((owned hi h).2 x (List.mem_append.2 (.inr (List.mem_append.2 hx))))]
  have keepBig : ∀ {t t' : Task O}, ¬ Big t →
      (¬ s.defSize.toNat < 2 ^ 63 → Big t' ∨ (¬ s.defSize.toNat < 2 ^ 63 ∧ (Big t → Big t'))) :=
    fun h hd => .inr ⟨hd, fun hb => absurd hb h⟩
  have notBig : ∀ {t : Task O}, (∀ b stream size, t ≠ .store b stream size) → (∀ b stream size, t ≠ .get b stream size) →
      (∀ b stream size buf, t ≠ .check b stream size buf) → ¬ Big t := by
    rintro t h1 h2 h3 ⟨b, stream, size, h | h | ⟨buf, h⟩, _⟩
    · exact h1 _ _ _ h
    · exact h2 _ _ _ h
    · exact h3 _ _ _ _ h
  cases hs with
  | pipe h =>
    refine ⟨hp, hi.caps, hi.tasks, fun i t b ht hb => ?_, hi.big⟩
    obtain ⟨took, hw⟩ := hi.busy i t b ht hb
    exact ⟨took, pipe_busy h hw⟩
  | @answer l1 l2 b t k1 k2 o h1 h2 h3 h4 =>
    refine ⟨hp, hi.caps, hi.tasks, fun i u b' ht hb => ?_, hi.big⟩
    obtain ⟨took, hw⟩ := hi.busy i u b' ht hb
    refine ⟨took, ?_⟩
    rw [h1] at hw
    refine getElem?_keep ?_ hw
    intro he
    have ht : s.tasks[i]? = some u := ht
    rw [h2, he, ← h3] at ht
    simp at ht
    rw [← ht] at hb
    cases hb
  | answerPanic => exact (crash hcr).elim
  | @raw l1 l2 b t k1 k2 sl h1 h2 h3 h4 =>
    refine ⟨hp, hi.caps, ?_, ?_, ?_⟩
    · intro u hu
      rcases mem_replace (a := Task.none) hu with rfl | hu'
      · exact ⟨fun pooled calls hl => start_raw h4 _ hl, hc b sl⟩
      · rw [← h2] at hu'
        exact hi.tasks u hu'
    · intro i u b' hu hb
      rcases getElem?_change (a := Task.none) hu with ⟨rfl, rfl⟩ | ⟨h5, h6⟩
      · cases hb
        refine ⟨t, ?_⟩
        dsimp only
        rw [h1, h3]; simp
      · exact hi.busy i u b' (by rw [h2]; exact h6) hb
    · intro hd
      obtain ⟨u, hu, hb⟩ := hi.big hd
      rw [h2] at hu
      simp only [List.mem_append, List.mem_cons] at hu
      rcases hu with h | rfl | h
      · exact ⟨u, by simp [h], hb⟩
      · exact absurd hb (notBig (by simp) (by simp) (by simp))
      · exact ⟨u, by simp [h], hb⟩
  | @call l1 l2 b t k1 k2 stream size h1 h2 h3 h4 =>
    refine ⟨hp, hi.caps, ?_, ?_, ?_⟩
    · intro u hu
      rcases mem_replace (a := Task.none) hu with rfl | hu'
      · exact h4
      · rw [← h2] at hu'
        exact hi.tasks u hu'
    · intro i u b' hu hb
      rcases getElem?_change (a := Task.none) hu with ⟨rfl, rfl⟩ | ⟨h5, h6⟩
      · cases hb
        refine ⟨t, ?_⟩
        dsimp only
        rw [h1, h3]; simp
      · exact hi.busy i u b' (by rw [h2]; exact h6) hb
    · intro hd
      obtain ⟨u, hu, hb⟩ := hi.big hd
      rw [h2] at hu
      simp only [List.mem_append, List.mem_cons] at hu
      rcases hu with h | rfl | h
      · exact ⟨u, by simp [h], hb⟩
      · exact absurd hb (notBig (by simp) (by simp) (by simp))
      · exact ⟨u, by simp [h], hb⟩
  | @load k1 k2 b stream size h =>
    have ht := hi.tasks _ (same h)
    refine hi.change h hp rfl rfl (fun _ hb => .inl hb) (fun _ _ => rfl) ?_ ?_ (keepBig (notBig (by simp) (by simp) (by simp)))
    · split <;> exact ht
    · split <;> exact .inr rfl
  | @store k1 k2 b stream size h =>
    have ht := hi.tasks _ (same h)
    refine hi.change h hp rfl rfl (fun _ hb => .inl hb) (fun _ _ => rfl) ht (.inr rfl) ?_
    intro hd
    refine .inl ⟨b, stream, size, .inr (.inl rfl), ?_⟩
    apply Classical.byContradiction
    intro hn
    apply hd
    show (sizeOf size).toNat < 2 ^ 63
    rw [sizeOf_pos (by omega)]
    have : size.toInt < 2 ^ 31 := by
      have := size.toInt_lt
      omega
    omega
  | @getPooled k1 k2 b stream size p1 p2 buf h hpl =>
    have ht := hi.tasks _ (same h)
    refine hi.change h hp rfl rfl ?_ (fun _ _ => rfl) ⟨ht, ?_⟩ (.inr rfl) ?_
    · intro bf hb
      refine .inl ?_
      rw [hpl]
      simp only [List.mem_append, List.mem_cons] at hb ⊢
      rcases hb with h | h
      · exact .inl h
      · exact .inr (.inr h)
    · exact hi.caps buf (by rw [hpl]; simp)
    · refine fun hd => .inr ⟨hd, ?_⟩
      rintro ⟨b', st', sz', h5 | h5 | ⟨bf, h5⟩, h6⟩
      · cases h5
      · cases h5; exact ⟨_, _, _, .inr (.inr ⟨_, rfl⟩), h6⟩
      · cases h5
  | @getNew k1 k2 b stream size h hd =>
    have ht := hi.tasks _ (same h)
    refine hi.change h hp rfl rfl (fun _ hb => .inl hb) (allocated _ h) ⟨ht, ?_⟩ (.inr rfl) (fun hn => absurd hd hn)
    simp [St.alloc]
  | getNewPanic => exact (crash hcr).elim
  | @grow k1 k2 b stream size buf bb h h1 h2 =>
    obtain ⟨ht, hcap⟩ := hi.tasks _ (same h)
    obtain ⟨g1, rfl⟩ := borrow_ok h2
    have hlt := tooSmall_bound h1
    have hpos : 0 ≤ size.toInt := by
      apply Classical.byContradiction
      intro hn
      have := sizeOf_neg (size := size) (by omega)
      omega
    have hlen := sizeOf_pos hpos
    have hsmall : buf.cap < size.toInt.toNat := by
      simp only [tooSmall, decide_eq_true_eq] at h1
      rw [toInt64_pos hlt] at h1
      omega
    refine hi.change h hp rfl rfl (fun _ hb => .inl hb) (allocated _ h) ⟨rfl, ?_, ?_⟩ (.inr rfl) ?_
    · simp [St.alloc]
    · have := SoFar.begin (pooled := s.content buf.mem) ht hpos (by rw [hcap]; exact capped h)
      unfold poolBuffer at this
      rw [if_pos (by rw [hcap]; exact hsmall)] at this
      simp only [St.alloc, if_true]
      rw [hlen]
      exact this
    · refine fun hd => .inr ⟨hd, ?_⟩
      rintro ⟨b', st', sz', h5 | h5 | ⟨bf, h5⟩, h6⟩
      · cases h5
      · cases h5
      · cases h5; omega
  | @use k1 k2 b stream size buf bb h h1 h2 =>
    obtain ⟨ht, hcap⟩ := hi.tasks _ (same h)
    obtain ⟨g1, rfl⟩ := borrow_ok h2
    have hcp := capped h
    have hpos : 0 ≤ size.toInt := by
      apply Classical.byContradiction
      intro hn
      have := sizeOf_neg (size := size) (by omega)
      omega
    have hlen := sizeOf_pos hpos
    refine hi.change h hp rfl rfl (fun _ hb => .inl hb) (fun _ _ => rfl) ⟨rfl, hcap, ?_⟩ (.inr rfl) ?_
    · have := SoFar.begin (pooled := s.content buf.mem) ht hpos (by rw [hcap]; exact hcp)
      unfold poolBuffer at this
      rw [if_neg (by rw [hcap]; omega)] at this
      simp only
      rw [hlen]
      exact this
    · refine fun hd => .inr ⟨hd, ?_⟩
      rintro ⟨b', st', sz', h5 | h5 | ⟨bf, h5⟩, h6⟩
      · cases h5
      · cases h5
      · cases h5; omega
  | usePanic => exact (crash hcr).elim
  | @chunkLast k1 k2 b bb left remaining start call n h hr hst hn h0 =>
    subst hn
    obtain ⟨t1, t2, t3⟩ := hi.tasks _ (same h)
    have hcap := held h rfl t1
    have hfl := filled_length call (s.content bb.mem) left start hst
    refine hi.change h hp rfl rfl (fun _ hb => .inl hb) (others h (by simp [pcOf, pcMem, t1])) ⟨t1, ?_, ?_⟩ (.inr rfl)
      (keepBig (notBig (by simp) (by simp) (by simp)))
    · simp only [if_true]
      rw [hfl, t2]
    · obtain ⟨sched, hg⟩ := t3.last call hr hst h0
      refine ⟨sched, _, hg, ?_, ?_⟩
      · simp only [if_true, List.take_append_drop]
      · simp only [if_true]
        exact read_begins hc b _ _ _ (by rw [hfl, t2]) hcap
  | @chunk k1 k2 b bb left remaining start call n h hr hst hn h0 hf =>
    subst hn
    obtain ⟨t1, t2, t3⟩ := hi.tasks _ (same h)
    have hfl := filled_length call (s.content bb.mem) left start hst
    refine hi.change h hp rfl rfl (fun _ hb => .inl hb) (others h (by simp [pcOf, pcMem, t1])) ⟨t1, ?_, ?_⟩ (.inr rfl)
      (keepBig (notBig (by simp) (by simp) (by simp)))
    · simp only [if_true]
      rw [hfl, t2]
    · simp only [if_true]
      exact t3.step call hr hst h0 hf
  | chunkPanic => exact (crash hcr).elim
  | beyondPanic => exact (crash hcr).elim
  | @inflated k1 k2 b bb left remaining start h hr =>
    obtain ⟨t1, t2, t3⟩ := hi.tasks _ (same h)
    have hcap := held h rfl t1
    refine hi.change h hp rfl rfl (fun _ hb => .inl hb) (fun _ _ => rfl) ⟨t1, t2, ?_⟩ (.inr rfl)
      (keepBig (notBig (by simp) (by simp) (by simp)))
    obtain ⟨sched, hg⟩ := t3.done hr
    exact ⟨sched, _, hg, by simp, read_begins hc b _ _ _ t2 hcap⟩
  | @byte k1 k2 b src i k x h hx =>
    have ht := hi.tasks _ (same h)
    refine hi.change h hp rfl rfl (fun _ hb => .inl hb) (fun _ _ => rfl) ?_ (.inr rfl)
      (keepBig (notBig (by simp) (by simp) (by simp)))
    cases src with
    | input sl =>
      obtain ⟨t1, t2⟩ := ht
      refine ⟨t1, ?_⟩
      rw [← t2]
      conv => rhs; unfold Reader.run
      simp only [St.bytes] at hx
      rw [hx]
    | buffer bb =>
      obtain ⟨t1, t2, sched, sl, t3, t4, t5⟩ := ht
      refine ⟨t1, t2, sched, sl, t3, t4, ?_⟩
      rw [← t5]
      conv => rhs; unfold Reader.run
      simp only [St.bytes] at hx
      rw [hx]
  | bytePanic => exact (crash hcr).elim
  | @finish l1 l2 b t k1 k2 src o h1 h2 h3 =>
    have ht := hi.tasks _ (same h2)
    refine ⟨hp, hi.caps, ?_, ?_, ?_⟩
    · intro u hu
      rcases mem_replace (a := Task.read b src (.done (.ok o))) hu with rfl | hu'
      · cases src with
        | input sl => trivial
        | buffer bb => exact ⟨ht.1, ht.2.1⟩
      · rw [← h2] at hu'
        exact hi.tasks u hu'
    · intro i u b' hu hb
      rcases getElem?_change (a := Task.read b src (.done (.ok o))) hu with ⟨rfl, rfl⟩ | ⟨h5, h6⟩
      · cases hb
      · obtain ⟨took, hw⟩ := hi.busy i u b' (by rw [h2]; exact h6) hb
        refine ⟨took, ?_⟩
        rw [h1] at hw
        exact getElem?_keep (by rw [← h3]; exact h5) hw
    · intro hd
      obtain ⟨u, hu, hb⟩ := hi.big hd
      rw [h2] at hu
      simp only [List.mem_append, List.mem_cons] at hu
      rcases hu with h | rfl | h
      · exact ⟨u, by simp [h], hb⟩
      · exact absurd hb (notBig (by simp) (by simp) (by simp))
      · exact ⟨u, by simp [h], hb⟩
  | finishPanic => exact (crash hcr).elim
  | @put k1 k2 bb h =>
    have ht := hi.tasks _ (same h)
    refine hi.change h hp rfl rfl ?_ (fun _ _ => rfl) trivial (.inl rfl) (keepBig (notBig (by simp) (by simp) (by simp)))
    intro bf hb
    unfold Pool.put at hb
    dsimp only at hb
    rw [if_pos ht.1] at hb
    rcases List.mem_cons.1 hb with rfl | hb
    · exact .inr ht.2
    · exact .inl hb
  | @putInput k1 k2 sl h =>
    exact hi.change h hp rfl rfl (fun _ hb => .inl hb) (fun _ _ => rfl) trivial (.inl rfl)
      (keepBig (notBig (by simp) (by simp) (by simp)))
  | @drop k1 k2 bb h =>
    exact hi.change h hp rfl rfl (fun _ hb => .inl hb) (fun _ _ => rfl) trivial (.inl rfl)
      (keepBig (notBig (by simp) (by simp) (by simp)))
  | @evict p1 p2 buf h =>
    refine ⟨hp, ?_, hi.tasks, hi.busy, hi.big⟩
    intro bf hb
    refine hi.caps bf ?_
    rw [h]
    simp only [List.mem_append, List.mem_cons] at hb ⊢
    rcases hb with h | h
    · exact .inl h
    · exact .inr (.inr h)

end Osm.Shared
