import Verif.Lemmas.Pipeline
import Verif.Lemmas.Hl

namespace Osm.Pbf
open Osm Osm.Spec Osm.Pb Osm.T

variable {O : Type}

theorem mapRes_length {α β : Type} {f : α → Res β} {xs : List α} {ys : List β} (h : mapRes f xs = .ok ys) :
    ys.length = xs.length := by
  induction xs generalizing ys with
  | nil => cases h; rfl
  | cons x xs ih =>
    unfold mapRes at h
    obtain ⟨y, _, h⟩ := Res.bind_eq_ok.1 h
    obtain ⟨ys', h2, h⟩ := Res.bind_eq_ok.1 h
    cases h
    simp [ih h2]

theorem mapRes_append_ok {α β : Type} {f : α → Res β} {xs ys : List α} {zs : List β}
    (h : mapRes f (xs ++ ys) = .ok zs) : ∃ a b, mapRes f xs = .ok a ∧ mapRes f ys = .ok b ∧ zs = a ++ b := by
  induction xs generalizing zs with
  | nil => exact ⟨[], zs, rfl, h, rfl⟩
  | cons x xs ih =>
    rw [List.cons_append] at h
    unfold mapRes at h
    obtain ⟨y, h1, h⟩ := Res.bind_eq_ok.1 h
    obtain ⟨zs', h2, h⟩ := Res.bind_eq_ok.1 h
    cases h
    obtain ⟨a, b, e1, e2, rfl⟩ := ih h2
    refine ⟨y :: a, b, ?_, e2, rfl⟩
    unfold mapRes
    rw [h1, Res.ok_bind, e1]
    rfl

/-! ### Who received what -/

/-- What a worker has done so far. -/
def WorkerDone (c : Cfg O) (w : Worker O) : Prop :=
  match w.pc with
  | .busy b => ∃ t, w.took = t ++ [b] ∧ ∀ x ∈ t, ∃ o, c.work x = .ok o
  | _ => ∀ x ∈ w.took, ∃ o, c.work x = .ok o

/-- Every block handed over went to exactly one worker, and the workers worked through them. -/
structure CInv (c : Cfg O) (s : St O) : Prop where
  perm : (s.workers.flatMap (·.took)).Perm s.sent
  done : ∀ w ∈ s.workers, WorkerDone c w

theorem CInv.init (c : Cfg O) (n : Nat) : CInv c (St.init c n) where
  perm := by
    simp only [St.init]
    rw [List.flatMap_eq_nil_iff.2]
    intro w hw
    rw [(List.mem_replicate.1 hw).2]
  done := by
    intro w hw
    simp only [St.init] at hw
    rw [(List.mem_replicate.1 hw).2]
    intro x hx
    simp at hx

theorem CInv.step {c : Cfg O} {s s' : St O} (h : CInv c s) (hs : Step' c s s') : CInv c s' := by
  obtain ⟨h1, h2⟩ := h
  cases hs with
  | @handOver b size l1 t l2 hm hw =>
    rw [hw] at h1 h2
    refine ⟨?_, ?_⟩
    · dsimp only
      simp only [List.flatMap_append, List.flatMap_cons] at h1 ⊢
      have e : l1.flatMap (·.took) ++ ((t ++ [b]) ++ l2.flatMap (·.took))
          = (l1.flatMap (·.took) ++ t) ++ (b :: l2.flatMap (·.took)) := by simp
      rw [e]
      refine List.perm_middle.trans ?_
      refine List.Perm.trans ?_ List.perm_append_comm
      simp only [List.singleton_append, List.perm_cons]
      simpa using h1
    · intro w hw'
      dsimp only at hw'
      rcases mem_replace (a := ⟨.idle, t⟩) hw' with rfl | hm
      · exact ⟨t, rfl, h2 ⟨.idle, t⟩ mem_middle⟩
      · exact h2 w hm
  | @work b t l1 l2 o hw hk =>
    rw [hw] at h1 h2
    refine ⟨?_, ?_⟩
    · dsimp only
      simpa using h1
    · intro w hw'
      dsimp only at hw'
      rcases mem_replace (a := ⟨.busy b, t⟩) hw' with rfl | hm
      · obtain ⟨t', ht, hd⟩ := h2 ⟨.busy b, t⟩ mem_middle
        dsimp only at ht
        have : ∀ x ∈ t, ∃ o, c.work x = .ok o := by
          rw [ht]
          intro x hx
          rcases List.mem_append.1 hx with hx | hx
          · exact hd x hx
          · rw [List.mem_singleton.1 hx]; exact ⟨o, hk⟩
        unfold WorkerDone
        dsimp only
        cases c.hasWriter <;> exact this
      · exact h2 w hm
  | @workerExit t l1 l2 hw hk =>
    rw [hw] at h1 h2
    refine ⟨?_, ?_⟩
    · dsimp only
      simpa using h1
    · intro w hw'
      dsimp only at hw'
      rcases mem_replace (a := ⟨.idle, t⟩) hw' with rfl | hm
      · exact h2 ⟨.idle, t⟩ mem_middle
      · exact h2 w hm
  | @toReorder i o t l1 l2 rob next hw hk =>
    rw [hw] at h1 h2
    refine ⟨?_, ?_⟩
    · dsimp only
      simpa using h1
    · intro w hw'
      dsimp only at hw'
      rcases mem_replace (a := ⟨.sending i o, t⟩) hw' with rfl | hm
      · exact h2 ⟨.sending i o, t⟩ mem_middle
      · exact h2 w hm
  | _ => exact ⟨h1, h2⟩

/-! ### Order -/

/-- The indices of the blocks a worker holds. -/
def WorkerPc.holds : WorkerPc O → List Nat
  | .busy b => [b.Index]
  | .sending i _ => [i]
  | _ => []

/-- The reorderer's part of the invariant. -/
def ROk (seen : List (Nat × O)) (got : List O) : ReorderPc O → Prop
  | .recv rob next => RInv seen rob next got ∧ seen.lookup next = none
  | .check rob next => RInv seen rob next got
  | .send rob next o => RInv seen rob next (got ++ [o])
  | .exited => RInv seen [] seen.length got

/-- Where the results are. -/
structure DInv (c : Cfg O) (s : St O) : Prop where
  perm : (List.range s.sent.length).Perm (s.workers.flatMap (·.pc.holds) ++ s.seen.map (·.1))
  busy : ∀ w ∈ s.workers, ∀ b, w.pc = .busy b → s.sent[b.Index]? = some b
  sending : ∀ w ∈ s.workers, ∀ i o, w.pc = .sending i o → ∃ b, s.sent[i]? = some b ∧ c.work b = .ok o
  seenOk : ∀ i o, (i, o) ∈ s.seen → ∃ b, s.sent[i]? = some b ∧ c.work b = .ok o
  reorder : ROk s.seen s.got s.reorder

theorem DInv.init (c : Cfg O) (hw : c.hasWriter = true) (n : Nat) : DInv c (St.init c n) where
  perm := by
    simp only [St.init, List.length_nil, List.range_zero, List.map_nil, List.append_nil]
    rw [List.flatMap_eq_nil_iff.2]
    intro w hw
    rw [(List.mem_replicate.1 hw).2]
    rfl
  busy := by
    intro w hw b h
    simp only [St.init] at hw
    rw [(List.mem_replicate.1 hw).2] at h
    cases h
  sending := by
    intro w hw i o h
    simp only [St.init] at hw
    rw [(List.mem_replicate.1 hw).2] at h
    cases h
  seenOk := by intro i o h; simp [St.init] at h
  reorder := by
    simp only [St.init, hw, if_true]
    exact ⟨RInv.init, rfl⟩

theorem DInv.nodup {c : Cfg O} {s : St O} (h : DInv c s) :
    (s.workers.flatMap (·.pc.holds) ++ s.seen.map (·.1)).Nodup :=
  (h.perm.nodup_iff).1 List.nodup_range

theorem lookup_none_of_not_mem {l : List (Nat × O)} {i : Nat} (h : i ∉ l.map (·.1)) : l.lookup i = none := by
  rw [List.lookup_eq_none_iff]
  intro p hp
  rw [bne_iff_ne]
  rintro rfl
  exact h (List.mem_map_of_mem hp)

theorem lookup_mem {l : List (Nat × O)} {i : Nat} {o : O} (h : l.lookup i = some o) : (i, o) ∈ l := by
  induction l with
  | nil => simp at h
  | cons p l ih =>
    obtain ⟨a, x⟩ := p
    rw [List.lookup_cons] at h
    split at h
    · next e => cases h; rw [beq_iff_eq] at e; subst e; exact List.mem_cons_self
    · exact List.mem_cons_of_mem _ (ih h)

theorem getElem?_snoc_some {α : Type} {l : List α} {a x : α} {i : Nat} (h : l[i]? = some x) :
    (l ++ [a])[i]? = some x := by
  have hi : i < l.length := by
    rcases Nat.lt_or_ge i l.length with h' | h'
    · exact h'
    · rw [List.getElem?_eq_none h'] at h; cases h
  rw [List.getElem?_append_left hi, h]

theorem DInv.step {c : Cfg O} (hwr : c.hasWriter = true) (hl : c.file.length < 2 ^ 63) {n : Nat} {s s' : St O}
    (h : DInv c s) (hA : AInv c s) (hB : BInv c n s) (hs : Step' c s s') : DInv c s' := by
  have hnd := h.nodup
  obtain ⟨h1, h2, h3, h4, h5⟩ := h
  cases hs with
  | @handOver b size l1 t l2 hm hw =>
    have hb : b.Index = s.sent.length := by
      obtain ⟨_, p, hh, ha⟩ := hA
      rw [hm] at ha
      have := (Handed.snoc hh ha.1 ha.2.1).index hl s.sent.length b (by simp)
      exact this
    rw [hw] at h1 h2 h3
    refine ⟨?_, ?_, ?_, ?_, h5⟩
    · dsimp only
      simp only [List.length_append, List.length_singleton, List.range_succ]
      simp only [List.flatMap_append, List.flatMap_cons, WorkerPc.holds, hb, List.nil_append] at h1 ⊢
      refine List.perm_append_comm.trans ?_
      simp only [List.singleton_append, List.append_assoc, List.cons_append]
      refine List.Perm.trans ?_ List.perm_middle.symm
      simp only [List.perm_cons]
      simpa using h1
    · intro w hw' b' hb'
      dsimp only at hw' ⊢
      rcases mem_replace (a := ⟨.idle, t⟩) hw' with rfl | hmem
      · cases hb'
        rw [hb]
        simp
      · exact getElem?_snoc_some (h2 w hmem b' hb')
    · intro w hw' i o ho
      dsimp only at hw' ⊢
      rcases mem_replace (a := ⟨.idle, t⟩) hw' with rfl | hmem
      · cases ho
      · obtain ⟨b', hb1, hb2⟩ := h3 w hmem i o ho
        exact ⟨b', getElem?_snoc_some hb1, hb2⟩
    · intro i o ho
      obtain ⟨b', hb1, hb2⟩ := h4 i o ho
      exact ⟨b', getElem?_snoc_some hb1, hb2⟩
  | @work b t l1 l2 o hw hk =>
    rw [hwr, if_pos rfl]
    rw [hw] at h1 h2 h3
    refine ⟨?_, ?_, ?_, h4, h5⟩
    · dsimp only
      simpa [WorkerPc.holds] using h1
    · intro w hw' b' hb'
      dsimp only at hw' ⊢
      rcases mem_replace (a := ⟨.busy b, t⟩) hw' with rfl | hmem
      · cases hb'
      · exact h2 w hmem b' hb'
    · intro w hw' i o' ho
      dsimp only at hw' ⊢
      rcases mem_replace (a := ⟨.busy b, t⟩) hw' with rfl | hmem
      · cases ho
        exact ⟨b, h2 ⟨.busy b, t⟩ mem_middle b rfl, hk⟩
      · exact h3 w hmem i o' ho
  | @workerExit t l1 l2 hw hk =>
    rw [hw] at h1 h2 h3
    refine ⟨?_, ?_, ?_, h4, h5⟩
    · dsimp only
      simpa [WorkerPc.holds] using h1
    · intro w hw' b' hb'
      dsimp only at hw' ⊢
      rcases mem_replace (a := ⟨.idle, t⟩) hw' with rfl | hmem
      · cases hb'
      · exact h2 w hmem b' hb'
    · intro w hw' i o' ho
      dsimp only at hw' ⊢
      rcases mem_replace (a := ⟨.idle, t⟩) hw' with rfl | hmem
      · cases ho
      · exact h3 w hmem i o' ho
  | @toReorder i o t l1 l2 rob next hw hk =>
    rw [hw] at h1 h2 h3 hnd
    rw [hk] at h5
    obtain ⟨h5, _⟩ := h5
    have hi : s.seen.lookup i = none := by
      apply lookup_none_of_not_mem
      rw [List.nodup_append] at hnd
      intro hm
      exact hnd.2.2 i (by simp [WorkerPc.holds]) i hm rfl
    refine ⟨?_, ?_, ?_, ?_, h5.insert i o hi⟩
    · dsimp only
      simp only [List.flatMap_append, List.flatMap_cons, WorkerPc.holds, List.nil_append, List.map_append,
        List.map_cons, List.map_nil] at h1 ⊢
      refine h1.trans ?_
      simp only [List.singleton_append, List.append_assoc, List.cons_append]
      refine List.perm_middle.trans ?_
      have := List.perm_append_comm (l₁ := [i])
        (l₂ := l1.flatMap (·.pc.holds) ++ (l2.flatMap (·.pc.holds) ++ s.seen.map (·.1)))
      simpa [WorkerPc.holds] using this
    · intro w hw' b' hb'
      dsimp only at hw' ⊢
      rcases mem_replace (a := ⟨.sending i o, t⟩) hw' with rfl | hmem
      · cases hb'
      · exact h2 w hmem b' hb'
    · intro w hw' i' o' ho
      dsimp only at hw' ⊢
      rcases mem_replace (a := ⟨.sending i o, t⟩) hw' with rfl | hmem
      · cases ho
      · exact h3 w hmem i' o' ho
    · intro i' o' ho
      dsimp only at ho
      rcases List.mem_append.1 ho with ho | ho
      · exact h4 i' o' ho
      · rw [List.mem_singleton] at ho
        cases ho
        exact h3 ⟨.sending i o, t⟩ mem_middle i o rfl
  | popSome hr hp =>
    rw [hr] at h5
    exact ⟨h1, h2, h3, h4, RInv.pop h5 hp⟩
  | popNone hr hp =>
    rw [hr] at h5
    refine ⟨h1, h2, h3, h4, h5, ?_⟩
    have := pop_none hp
    rw [RInv.held h5, if_neg (by omega)] at this
    exact this
  | toWriter hr hw =>
    rw [hr] at h5
    exact ⟨h1, h2, h3, h4, h5⟩
  | reorderExit hr hc hz =>
    rw [hr] at h5
    refine ⟨h1, h2, h3, h4, ?_⟩
    obtain ⟨h5, _⟩ := h5
    have e := List.length_eq_zero_iff.1 hz
    subst e
    have := h5.count
    simp only [List.length_nil, Nat.zero_add] at this
    subst this
    exact h5
  | _ => exact ⟨h1, h2, h3, h4, h5⟩

/-- The invariant of all runs. -/
structure Inv (c : Cfg O) (n : Nat) (s : St O) : Prop where
  a : AInv c s
  b : BInv c n s
  k : CInv c s
  d : c.hasWriter = true → DInv c s

theorem Steps.inv {c : Cfg O} (hl : c.file.length < 2 ^ 63) {W n : Nat} {s : St O}
    (h : Steps c n (St.init c W) s) : Inv c W s := by
  generalize he : St.init c W = s0 at h
  induction h with
  | refl => subst he; exact ⟨.init c W, .init c W, .init c W, fun h => .init c h W⟩
  | step _ h2 ih =>
    have i := ih he
    exact ⟨i.a.step hl h2.2, i.b.step h2.2, i.k.step h2.2, fun h => (i.d h).step h hl i.a i.b h2.2⟩

theorem Reachable.inv {c : Cfg O} (hl : c.file.length < 2 ^ 63) {W : Nat} {s : St O}
    (h : Reachable c W s) : Inv c W s := let ⟨_, h⟩ := h; h.inv hl

/-- All workers are done. -/
theorem Inv.seen_all {c : Cfg O} {W : Nat} {s : St O} (h : Inv c W s) (hw : c.hasWriter = true)
    (hd : ∀ w ∈ s.workers, w.pc = .exited) : (List.range s.sent.length).Perm (s.seen.map (·.1)) := by
  have := (h.d hw).perm
  rw [List.flatMap_eq_nil_iff.2 (by intro w hm; rw [hd w hm]; rfl), List.nil_append] at this
  exact this

/-- The reorderer sends the results of the first blocks, in order. -/
theorem DInv.prefix {c : Cfg O} {s : St O} (h : DInv c s) {rob : Held O} {next : Nat} {out : List O}
    (hr : RInv s.seen rob next out) :
    next ≤ s.sent.length ∧ mapRes c.work (s.sent.take next) = .ok out := by
  have hlen : out.length = next := by simpa using congrArg List.length hr.sent
  have key : ∀ i (hi : i < next), ∃ b, s.sent[i]? = some b ∧ c.work b = .ok (out[i]'(by omega)) := by
    intro i hi
    have := congrArg (fun l => l[i]?) hr.sent
    simp only [List.getElem?_map, List.getElem?_range hi, Option.map_some] at this
    rw [List.getElem?_eq_getElem (by omega)] at this
    simp only [Option.map_some, Option.some.injEq] at this
    exact h.seenOk _ _ (lookup_mem this.symm)
  have hle : next ≤ s.sent.length := by
    rcases Nat.eq_zero_or_pos next with h0 | h0
    · omega
    · obtain ⟨b, hb, _⟩ := key (next - 1) (by omega)
      have := (List.getElem?_eq_some_iff.1 hb).1
      omega
  refine ⟨hle, ?_⟩
  clear hr
  induction next generalizing out with
  | zero =>
    have : out = [] := List.length_eq_zero_iff.1 hlen
    subst this
    rfl
  | succ k ih =>
    have hne : out ≠ [] := by intro e; subst e; simp at hlen
    obtain ⟨b, hb, hk⟩ := key k (by omega)
    have := ih (out := out.dropLast) (by simp [hlen]) (by
      intro i hi
      obtain ⟨b, hb, hk⟩ := key i (by omega)
      refine ⟨b, hb, ?_⟩
      rw [List.getElem_dropLast]
      exact hk) (by omega)
    rw [List.take_add_one, hb]
    simp only [Option.toList_some]
    refine (T.mapRes_append c.work _ _ _ [out[k]'(by omega)] this ?_).trans ?_
    · simp only [mapRes, hk]
      rfl
    have e : out.dropLast ++ [out[k]'(by omega)] = out := by
      have := List.dropLast_concat_getLast hne
      rw [List.getLast_eq_getElem] at this
      simpa [hlen] using this
    simp [e]

end Osm.Pbf
