import Verif.Lemmas.PipelineLive
import Verif.Lemmas.RaceOrder
import Verif.Model.Race

/-!
# Facts about the pipeline that the absence of data races rests on
-/

namespace Osm.Race
open Osm Osm.T Osm.Pbf Osm.Spec.Race

variable {O : Type}

/-- The steps with events are the steps of the pipeline. -/
theorem Moves.step {c : Cfg O} {s s' : St O} {evs : Trace} (h : Moves c s evs s') : Step' c s s' := by
  cases h with
  | cancel h => exact .cancel h
  | load h1 h2 h3 => exact .load h1 h2 h3
  | loadPanic h1 h2 h3 => exact .loadPanic h1 h2 h3
  | loadEnd h1 h2 => exact .loadEnd h1 h2
  | header h1 h2 => exact .header h1 h2
  | headerPanic h1 h2 => exact .headerPanic h1 h2
  | data h1 h2 => exact .data h1 h2
  | dataPanic h1 h2 => exact .dataPanic h1 h2
  | handOver h1 h2 => exact .handOver h1 h2
  | abort h1 h2 => exact .abort h1 h2
  | closeIn h1 => exact .closeIn h1
  | workersDone h1 h2 => exact .workersDone h1 h2
  | closeReorder h1 => exact .closeReorder h1
  | reorderDone h1 h2 => exact .reorderDone h1 h2
  | closeOut h1 => exact .closeOut h1
  | writerDone h1 h2 => exact .writerDone h1 h2
  | unmap h1 => exact .unmap h1
  | work h1 h2 => exact .work h1 h2
  | workPanic h1 h2 => exact .workPanic h1 h2
  | workerExit h1 h2 => exact .workerExit h1 h2
  | toReorder h1 h2 => exact .toReorder h1 h2
  | popSome h1 h2 => exact .popSome h1 h2
  | popNone h1 h2 => exact .popNone h1 h2
  | toWriter h1 h2 => exact .toWriter h1 h2
  | reorderExit h1 h2 h3 => exact .reorderExit h1 h2 h3
  | reorderPanic h1 h2 h3 => exact .reorderPanic h1 h2 h3
  | write h1 h2 => exact .write h1 h2
  | writePanic h1 h2 => exact .writePanic h1 h2
  | writerExit h1 h2 h3 => exact .writerExit h1 h2 h3
  | writerExitPanic h1 h2 h3 => exact .writerExitPanic h1 h2 h3

theorem Moves.of_step {c : Cfg O} {s s' : St O} (h : Step' c s s') : ∃ evs, Moves c s evs s' := by
  cases h with
  | cancel h => exact ⟨_, .cancel h⟩
  | load h1 h2 h3 => exact ⟨_, .load h1 h2 h3⟩
  | loadPanic h1 h2 h3 => exact ⟨_, .loadPanic h1 h2 h3⟩
  | loadEnd h1 h2 => exact ⟨_, .loadEnd h1 h2⟩
  | header h1 h2 => exact ⟨_, .header h1 h2⟩
  | headerPanic h1 h2 => exact ⟨_, .headerPanic h1 h2⟩
  | data h1 h2 => exact ⟨_, .data h1 h2⟩
  | dataPanic h1 h2 => exact ⟨_, .dataPanic h1 h2⟩
  | handOver h1 h2 => exact ⟨_, .handOver h1 h2⟩
  | abort h1 h2 => exact ⟨_, .abort h1 h2⟩
  | closeIn h1 => exact ⟨_, .closeIn h1⟩
  | workersDone h1 h2 => exact ⟨_, .workersDone h1 h2⟩
  | closeReorder h1 => exact ⟨_, .closeReorder h1⟩
  | reorderDone h1 h2 => exact ⟨_, .reorderDone h1 h2⟩
  | closeOut h1 => exact ⟨_, .closeOut h1⟩
  | writerDone h1 h2 => exact ⟨_, .writerDone h1 h2⟩
  | unmap h1 => exact ⟨_, .unmap h1⟩
  | work h1 h2 => exact ⟨_, .work h1 h2⟩
  | workPanic h1 h2 => exact ⟨_, .workPanic h1 h2⟩
  | workerExit h1 h2 => exact ⟨_, .workerExit h1 h2⟩
  | toReorder h1 h2 => exact ⟨_, .toReorder h1 h2⟩
  | popSome h1 h2 => exact ⟨_, .popSome h1 h2⟩
  | popNone h1 h2 => exact ⟨_, .popNone h1 h2⟩
  | toWriter h1 h2 => exact ⟨_, .toWriter h1 h2⟩
  | reorderExit h1 h2 h3 => exact ⟨_, .reorderExit h1 h2 h3⟩
  | reorderPanic h1 h2 h3 => exact ⟨_, .reorderPanic h1 h2 h3⟩
  | write h1 h2 => exact ⟨_, .write h1 h2⟩
  | writePanic h1 h2 => exact ⟨_, .writePanic h1 h2⟩
  | writerExit h1 h2 h3 => exact ⟨_, .writerExit h1 h2 h3⟩
  | writerExitPanic h1 h2 h3 => exact ⟨_, .writerExitPanic h1 h2 h3⟩

/-! ### Who has which result -/

/-- No result is in two places. -/
structure Hands (c : Cfg O) (s : St O) : Prop where
  nodup : (s.workers.flatMap (·.pc.holds) ++ s.seen.map (·.1)).Nodup
  lt : ∀ m ∈ s.workers.flatMap (·.pc.holds) ++ s.seen.map (·.1), m < s.index
  alone : c.hasWriter = false → s.seen = [] ∧ s.got = []

theorem Hands.init (c : Cfg O) (n : Nat) : Hands c (St.init c n) where
  nodup := by
    rw [List.flatMap_eq_nil_iff.2]
    · simp [St.init]
    · intro w hw
      rw [(List.mem_replicate.1 hw).2]
      rfl
  lt := by
    rw [List.flatMap_eq_nil_iff.2]
    · simp [St.init]
    · intro w hw
      rw [(List.mem_replicate.1 hw).2]
      rfl
  alone := fun _ => ⟨rfl, rfl⟩

theorem sent_index {c : Cfg O} (hl : c.file.length < 2 ^ 63) {s : St O} (hA : AInv c s) {b : Block} {size : Nat}
    (hm : s.main = .send b size) : b.Index = s.index := by
  obtain ⟨hi, p, hh, ha⟩ := hA
  rw [hm] at ha
  rw [hi]
  exact (Handed.snoc hh ha.1 ha.2.1).index hl s.sent.length b (by simp)

theorem Hands.step {c : Cfg O} (hl : c.file.length < 2 ^ 63) {n : Nat} {s s' : St O} (h : Hands c s)
    (hA : AInv c s) (hB : BInv c n s) (hs : Step' c s s') : Hands c s' := by
  obtain ⟨h1, h2, h3⟩ := h
  cases hs with
  | @handOver b size l1 t l2 hm hw =>
    have hb := sent_index hl hA hm
    rw [hw] at h1 h2
    refine ⟨?_, ?_, h3⟩
    · dsimp only
      simp only [List.flatMap_append, List.flatMap_cons, WorkerPc.holds, List.nil_append] at h1 h2 ⊢
      simp only [List.append_assoc, List.singleton_append, List.cons_append]
      rw [List.perm_middle.nodup_iff]
      refine List.nodup_cons.2 ⟨fun hm => ?_, by simpa [List.append_assoc] using h1⟩
      have := h2 b.Index (by simpa [List.append_assoc] using hm)
      omega
    · intro m hm
      dsimp only at hm ⊢
      simp only [List.flatMap_append, List.flatMap_cons, WorkerPc.holds, List.mem_append, List.mem_cons, List.not_mem_nil,
        or_false, List.nil_append] at h2 hm ⊢
      rcases hm with (hm | hm | hm) | hm
      · have := h2 m (.inl (.inl hm)); omega
      · omega
      · have := h2 m (.inl (.inr hm)); omega
      · have := h2 m (.inr hm); omega
  | @work b t l1 l2 o hw _ =>
    rw [hw] at h1 h2
    cases hc : c.hasWriter
    · refine ⟨?_, ?_, h3⟩
      · refine List.Nodup.sublist ?_ h1
        simp [WorkerPc.holds]
      · intro m hm
        refine h2 m ?_
        simp [WorkerPc.holds] at hm ⊢
        grind
    · refine ⟨?_, ?_, h3⟩
      · simpa [WorkerPc.holds] using h1
      · simpa [WorkerPc.holds] using h2
  | @workerExit t l1 l2 hw _ =>
    rw [hw] at h1 h2
    refine ⟨?_, ?_, h3⟩
    · simpa [WorkerPc.holds] using h1
    · simpa [WorkerPc.holds] using h2
  | @toReorder i o t l1 l2 rob next hw hr =>
    rw [hw] at h1 h2
    refine ⟨?_, ?_, fun hc => ?_⟩
    · have hp : ((l1 ++ ⟨.sending i o, t⟩ :: l2).flatMap (·.pc.holds) ++ s.seen.map (·.1)).Perm
          ((l1 ++ ⟨.idle, t⟩ :: l2).flatMap (·.pc.holds) ++ (s.seen ++ [(i, o)]).map (·.1)) := by
        simp only [List.flatMap_append, List.flatMap_cons, WorkerPc.holds, List.nil_append, List.map_append, List.map_cons,
          List.map_nil, List.append_assoc, List.singleton_append]
        refine List.Perm.append_left _ ?_
        rw [← List.append_assoc]
        refine List.Perm.trans ?_ (List.perm_append_singleton _ _).symm
        exact List.Perm.refl _
      exact hp.nodup_iff.1 h1
    · intro m hm
      refine h2 m ?_
      simp [WorkerPc.holds] at hm ⊢
      grind
    · have := (hB.noWriter hc).1
      rw [hr] at this
      cases this
  | @toWriter rob next o hr hw =>
    refine ⟨h1, h2, fun hc => ?_⟩
    have := (hB.noWriter hc).1
    rw [hr] at this
    cases this
  | _ => exact ⟨h1, h2, h3⟩

theorem hands_of {c : Cfg O} (hl : c.file.length < 2 ^ 63) {W : Nat} {s : St O} (h : Pbf.Reachable c W s) : Hands c s := by
  obtain ⟨n, h⟩ := h
  generalize hs : St.init c W = s0 at h
  induction h with
  | refl => subst hs; exact Hands.init c W
  | step h1 h2 ih =>
    have hi := Pbf.Reachable.inv hl ⟨_, hs ▸ h1⟩
    exact (ih hs).step hl hi.a hi.b h2.2

/-- Who may use the `m`-th result. -/
def Owns (s : St O) (m : Nat) : Thread → Prop
  | .worker k => ∃ w, s.workers[k]? = some w ∧ m ∈ w.pc.holds
  | .reorder => m ∈ s.seen.map (·.1) ∧ s.got.length ≤ m
  | .writer => m < s.got.length
  | _ => False

theorem flatMap_once {α β : Type} {f : α → List β} {l : List α} (h : (l.flatMap f).Nodup) {i j : Nat} {a b : α} {x : β}
    (hi : l[i]? = some a) (hj : l[j]? = some b) (ha : x ∈ f a) (hb : x ∈ f b) : i = j := by
  induction l generalizing i j with
  | nil => simp at hi
  | cons y l ih =>
    rw [List.flatMap_cons, List.nodup_append] at h
    obtain ⟨_, h2, h3⟩ := h
    match i, j with
    | 0, 0 => rfl
    | i + 1, j + 1 =>
      rw [ih h2 hi hj]
    | 0, j + 1 =>
      simp at hi hj
      subst hi
      exact absurd rfl (h3 x ha x (List.mem_flatMap.2 ⟨b, List.mem_of_getElem? hj, hb⟩))
    | i + 1, 0 =>
      simp at hi hj
      subst hj
      exact absurd rfl (h3 x hb x (List.mem_flatMap.2 ⟨a, List.mem_of_getElem? hi, ha⟩))

theorem lookup_fst {l : List (Nat × O)} {i : Nat} {o : O} (h : l.lookup i = some o) : i ∈ l.map (·.1) :=
  List.mem_map.2 ⟨_, lookup_mem h, rfl⟩

/-- What the writer has, the reorderer has seen. -/
theorem got_seen {c : Cfg O} {W : Nat} {s : St O} (hI : Pbf.Inv c W s) (hH : Hands c s) {m : Nat}
    (hm : m < s.got.length) : m ∈ s.seen.map (·.1) := by
  cases hc : c.hasWriter
  · rw [(hH.alone hc).2] at hm
    simp at hm
  · have hr := (hI.d hc).reorder
    cases hp : s.reorder with
    | recv rob next =>
      rw [hp] at hr
      have hlen : s.got.length = next := by simpa using congrArg List.length hr.1.sent
      obtain ⟨o, ho⟩ := hr.1.seen_some m (by omega)
      exact lookup_fst ho
    | check rob next =>
      rw [hp] at hr
      have hr : RInv _ _ _ _ := hr
      have hlen : s.got.length = next := by simpa using congrArg List.length hr.sent
      obtain ⟨o, ho⟩ := hr.seen_some m (by omega)
      exact lookup_fst ho
    | send rob next o =>
      rw [hp] at hr
      have hr : RInv _ _ _ _ := hr
      have hlen : s.got.length + 1 = next := by simpa using congrArg List.length hr.sent
      obtain ⟨o, ho⟩ := hr.seen_some m (by omega)
      exact lookup_fst ho
    | exited =>
      rw [hp] at hr
      have hr : RInv _ _ _ _ := hr
      have hlen : s.got.length = s.seen.length := by simpa using congrArg List.length hr.sent
      obtain ⟨o, ho⟩ := hr.seen_some m (by omega)
      exact lookup_fst ho

/-- What the reorderer is sending, it has seen. -/
theorem sending_seen {c : Cfg O} {W : Nat} {s : St O} (hI : Pbf.Inv c W s) {rob : Held O} {next : Nat} {o : O}
    (hp : s.reorder = .send rob next o) : s.got.length ∈ s.seen.map (·.1) := by
  cases hc : c.hasWriter
  · have := (hI.b.noWriter hc).1
    rw [hp] at this
    cases this
  · have hr := (hI.d hc).reorder
    rw [hp] at hr
    have hr : RInv _ _ _ _ := hr
    have hlen : s.got.length + 1 = next := by simpa using congrArg List.length hr.sent
    obtain ⟨o, ho⟩ := hr.seen_some s.got.length (by omega)
    exact lookup_fst ho

theorem owns_unique {c : Cfg O} {W : Nat} {s : St O} (hI : Pbf.Inv c W s) (hH : Hands c s) {m : Nat} {t u : Thread}
    (ht : Owns s m t) (hu : Owns s m u) : t = u := by
  have hd := hH.nodup
  rw [List.nodup_append] at hd
  obtain ⟨h1, _, h3⟩ := hd
  have hw : ∀ {k : Nat}, Owns s m (.worker k) → m ∈ s.seen.map (·.1) → False := by
    rintro k ⟨w, hw, hm⟩ hs
    exact h3 m (List.mem_flatMap.2 ⟨w, List.mem_of_getElem? hw, hm⟩) m hs rfl
  cases t <;> cases u <;> try (first | exact ht.elim | exact hu.elim | rfl)
  · obtain ⟨w, a, b⟩ := ht
    obtain ⟨w', a', b'⟩ := hu
    rw [flatMap_once h1 a a' b b']
  · exact (hw ht hu.1).elim
  · exact (hw ht (got_seen hI hH hu)).elim
  · exact (hw hu ht.1).elim
  · have := ht.2; have : m < s.got.length := hu; omega
  · exact (hw hu (got_seen hI hH ht)).elim
  · have := hu.2; have : m < s.got.length := ht; omega

theorem owns_lt {c : Cfg O} {W : Nat} {s : St O} (hI : Pbf.Inv c W s) (hH : Hands c s) {m : Nat} {t : Thread}
    (ht : Owns s m t) : m < s.index := by
  refine hH.lt m ?_
  rw [List.mem_append]
  cases t <;> try exact ht.elim
  · obtain ⟨w, a, b⟩ := ht
    exact .inl (List.mem_flatMap.2 ⟨w, List.mem_of_getElem? a, b⟩)
  · exact .inr ht.1
  · exact .inr (got_seen hI hH ht)

theorem get_replace {α : Type} {l1 l2 : List α} {a b x : α} {k : Nat} (h : (l1 ++ a :: l2)[k]? = some x) :
    (k = l1.length ∧ x = a) ∨ (k ≠ l1.length ∧ (l1 ++ b :: l2)[k]? = some x) := by
  rcases Nat.lt_trichotomy k l1.length with hk | rfl | hk
  · rw [List.getElem?_append_left hk] at h ⊢
    exact .inr ⟨by omega, h⟩
  · simp at h
    exact .inl ⟨rfl, h.symm⟩
  · rw [List.getElem?_append_right (by omega), List.getElem?_cons, if_neg (by omega)] at h ⊢
    exact .inr ⟨by omega, h⟩

theorem get_middle {α : Type} {l1 l2 : List α} {a : α} : (l1 ++ a :: l2)[l1.length]? = some a := by simp

/-- Where a result comes from. -/
theorem owns_from {c : Cfg O} {W : Nat} (hl : c.file.length < 2 ^ 63) {s s' : St O} {evs : Trace} (hI : Pbf.Inv c W s)
    (h : Moves c s evs s') {m : Nat} {t : Thread} (ho : Owns s' m t) :
    Owns s m t ∨ s.index ≤ m ∨
      ∃ u ch, Owns s m u ∧ evs = [⟨u, .send ch⟩, ⟨t, .recv ch⟩] := by
  cases h with
  | @handOver b size l1 t1 l2 hm hw =>
    have hb := sent_index hl hI.a hm
    cases t <;> try exact .inl ho
    obtain ⟨w, hk, hh⟩ := ho
    rcases get_replace (b := ⟨.idle, t1⟩) hk with ⟨_, rfl⟩ | ⟨_, h⟩
    · simp [WorkerPc.holds] at hh
      exact .inr (.inl (by omega))
    · exact .inl ⟨w, by rw [hw]; exact h, hh⟩
  | @work b t1 l1 l2 o hw _ =>
    cases t <;> try exact .inl ho
    obtain ⟨w, hk, hh⟩ := ho
    rcases get_replace (b := ⟨.busy b, t1⟩) hk with ⟨rfl, rfl⟩ | ⟨_, h⟩
    · refine .inl ⟨⟨.busy b, t1⟩, by rw [hw]; exact get_middle, ?_⟩
      cases hc : c.hasWriter <;> simp [hc, WorkerPc.holds] at hh ⊢
      exact hh
    · exact .inl ⟨w, by rw [hw]; exact h, hh⟩
  | @workerExit t1 l1 l2 hw _ =>
    cases t <;> try exact .inl ho
    obtain ⟨w, hk, hh⟩ := ho
    rcases get_replace (b := ⟨.idle, t1⟩) hk with ⟨rfl, rfl⟩ | ⟨_, h⟩
    · simp [WorkerPc.holds] at hh
    · exact .inl ⟨w, by rw [hw]; exact h, hh⟩
  | @toReorder i o t1 l1 l2 rob next hw hr =>
    cases t <;> try exact .inl ho
    · obtain ⟨w, hk, hh⟩ := ho
      rcases get_replace (b := ⟨.sending i o, t1⟩) hk with ⟨rfl, rfl⟩ | ⟨_, h⟩
      · simp [WorkerPc.holds] at hh
      · exact .inl ⟨w, by rw [hw]; exact h, hh⟩
    · obtain ⟨h1, h2⟩ := ho
      dsimp only at h1 h2
      rw [List.map_append, List.mem_append] at h1
      rcases h1 with h1 | h1
      · exact .inl ⟨h1, h2⟩
      · simp at h1
        subst h1
        exact .inr (.inr ⟨.worker l1.length, _, ⟨_, by rw [hw]; exact get_middle, by simp [WorkerPc.holds]⟩, rfl⟩)
  | @toWriter rob next o hr hw =>
    cases t <;> try exact .inl ho
    · exact .inl ⟨ho.1, by have := ho.2; simp at this; omega⟩
    · have ho : m < (s.got ++ [o]).length := ho
      rw [List.length_append, List.length_singleton] at ho
      rcases Nat.lt_or_eq_of_le (Nat.le_of_lt_succ ho) with h | rfl
      · exact .inl h
      · exact .inr (.inr ⟨.reorder, _, ⟨sending_seen hI hr, Nat.le_refl _⟩, rfl⟩)
  | _ => exact .inl ho

/-! ### Who is running -/

/-- The goroutines there are. -/
def Exists (c : Cfg O) (W : Nat) : Thread → Prop
  | .worker k => k < W
  | .reorder | .writer => c.hasWriter = true
  | _ => True

theorem exists_of_alive {c : Cfg O} {W : Nat} {s : St O} (hB : BInv c W s) {t : Thread} (h : Alive s t) : Exists c W t := by
  cases t <;> try trivial
  · obtain ⟨w, hw, _⟩ := h
    have := (List.getElem?_eq_some_iff.1 hw).1
    rw [hB.count] at this
    exact this
  · cases hc : c.hasWriter
    · exact absurd (hB.noWriter hc).1 h
    · exact hc
  · cases hc : c.hasWriter
    · exact absurd (hB.noWriter hc).2.1 h
    · exact hc

/-- The goroutines of the pipeline. -/
def Inner : Thread → Prop
  | .caller | .ui => False
  | _ => True

/-- The wait group of a goroutine. -/
def group : Thread → Obj
  | .worker _ => .workers
  | .reorder => .reorder
  | _ => .writer

/-- The last thing that a goroutine does. -/
def endAct : Thread → Act Thread Loc Obj
  | .main => .close .finished
  | t => .done (group t)

/-- How far the shutdown is when a goroutine has been waited for. -/
def waitRank : Thread → Nat
  | .worker _ => 3
  | .reorder => 5
  | _ => 7

theorem alive_mono {c : Cfg O} {s s' : St O} {evs : Trace} (h : Moves c s evs s') {t : Thread} (hx : Alive s' t) :
    Alive s t := by
  cases h with
  | @handOver b size l1 t1 l2 hm hw =>
    cases t <;> try exact hx
    · exact fun h => by rw [hm] at h; cases h
    · obtain ⟨w, hk, hh⟩ := hx
      rcases get_replace (b := ⟨.idle, t1⟩) hk with ⟨rfl, rfl⟩ | ⟨_, h⟩
      · exact ⟨⟨.idle, t1⟩, by rw [hw]; exact get_middle, by simp⟩
      · exact ⟨w, by rw [hw]; exact h, hh⟩
  | @work b t1 l1 l2 o hw _ =>
    cases t <;> try exact hx
    obtain ⟨w, hk, hh⟩ := hx
    rcases get_replace (b := ⟨.busy b, t1⟩) hk with ⟨rfl, rfl⟩ | ⟨_, h⟩
    · exact ⟨⟨.busy b, t1⟩, by rw [hw]; exact get_middle, by simp⟩
    · exact ⟨w, by rw [hw]; exact h, hh⟩
  | @workerExit t1 l1 l2 hw _ =>
    cases t <;> try exact hx
    obtain ⟨w, hk, hh⟩ := hx
    rcases get_replace (b := ⟨.idle, t1⟩) hk with ⟨rfl, rfl⟩ | ⟨_, h⟩
    · exact absurd rfl hh
    · exact ⟨w, by rw [hw]; exact h, hh⟩
  | @toReorder i o t1 l1 l2 rob next hw hr =>
    cases t <;> try exact hx
    · obtain ⟨w, hk, hh⟩ := hx
      rcases get_replace (b := ⟨.sending i o, t1⟩) hk with ⟨rfl, rfl⟩ | ⟨_, h⟩
      · exact ⟨⟨.sending i o, t1⟩, by rw [hw]; exact get_middle, by simp⟩
      · exact ⟨w, by rw [hw]; exact h, hh⟩
    · exact fun h => by rw [hr] at h; cases h
  | _ => cases t <;> simp_all [Alive]

/-- How a goroutine ends. -/
theorem ended_from {c : Cfg O} {s s' : St O} {evs : Trace} (h : Moves c s evs s') {t : Thread} (hi : Inner t)
    (hx : ¬ Alive s' t) : ¬ Alive s t ∨ ∃ e, evs = [e, ⟨t, endAct t⟩] := by
  cases h with
  | @handOver b size l1 t1 l2 hm hw =>
    cases t <;> try exact hi.elim
    · exact absurd (by simp [Alive]) hx
    · next k =>
      refine .inl fun ⟨w, hk, hh⟩ => hx ?_
      rw [hw] at hk
      rcases get_replace (b := ⟨.busy b, t1 ++ [b]⟩) hk with ⟨rfl, rfl⟩ | ⟨_, h⟩
      · exact ⟨_, get_middle, by simp⟩
      · exact ⟨w, h, hh⟩
    · exact .inl hx
    · exact .inl hx
  | @work b t1 l1 l2 o hw _ =>
    cases t <;> try exact hi.elim
    · exact .inl hx
    · next k =>
      refine .inl fun ⟨w, hk, hh⟩ => hx ?_
      rw [hw] at hk
      rcases get_replace (b := ⟨if c.hasWriter then .sending b.Index o else .idle, t1⟩) hk with ⟨rfl, rfl⟩ | ⟨_, h⟩
      · exact ⟨_, get_middle, by cases c.hasWriter <;> simp⟩
      · exact ⟨w, h, hh⟩
    · exact .inl hx
    · exact .inl hx
  | @workerExit t1 l1 l2 hw _ =>
    cases t <;> try exact hi.elim
    · exact .inl hx
    · next k =>
      by_cases hk : k = l1.length
      · subst hk
        exact .inr ⟨_, rfl⟩
      · refine .inl fun ⟨w, hk', hh⟩ => hx ?_
        rw [hw] at hk'
        rcases get_replace (b := ⟨.exited, t1⟩) hk' with ⟨h, _⟩ | ⟨_, h⟩
        · exact absurd h hk
        · exact ⟨w, h, hh⟩
    · exact .inl hx
    · exact .inl hx
  | @toReorder i o t1 l1 l2 rob next hw hr =>
    cases t <;> try exact hi.elim
    · exact .inl hx
    · next k =>
      refine .inl fun ⟨w, hk, hh⟩ => hx ?_
      rw [hw] at hk
      rcases get_replace (b := ⟨.idle, t1⟩) hk with ⟨rfl, rfl⟩ | ⟨_, h⟩
      · exact ⟨_, get_middle, by simp⟩
      · exact ⟨w, h, hh⟩
    · exact absurd (by simp [Alive]) hx
    · exact .inl hx
  | workersDone hm hw =>
    cases t <;> try exact hi.elim
    · exact absurd (by simp only [Alive]; split <;> simp) hx
    all_goals exact .inl hx
  | _ => cases t <;> simp_all [Alive, endAct, group, Inner]

/-- The steps of the pipeline are made by goroutines that are running. -/
theorem moves_alive {c : Cfg O} {s s' : St O} {evs : Trace} (h : Moves c s evs s') : ∀ e ∈ evs, Alive s e.thread := by
  cases h with
  | @handOver b size l1 t1 l2 hm hw =>
    intro e he
    simp only [List.mem_cons, List.not_mem_nil, or_false] at he
    rcases he with rfl | rfl
    · exact fun h => by rw [hm] at h; cases h
    · exact ⟨⟨.idle, t1⟩, by rw [hw]; exact get_middle, by simp⟩
  | @workerExit t1 l1 l2 hw _ =>
    intro e he
    simp only [List.mem_cons, List.not_mem_nil, or_false] at he
    rcases he with rfl | rfl <;> exact ⟨⟨.idle, t1⟩, by rw [hw]; exact get_middle, by simp⟩
  | @toReorder i o t1 l1 l2 rob next hw hr =>
    intro e he
    simp only [List.mem_cons, List.not_mem_nil, or_false] at he
    rcases he with rfl | rfl
    · exact ⟨⟨.sending i o, t1⟩, by rw [hw]; exact get_middle, by simp⟩
    · exact fun h => by rw [hr] at h; cases h
  | _ => simp_all [Alive]

/-- The only access to memory in the steps of the pipeline. -/
theorem moves_access {c : Cfg O} {s s' : St O} {evs : Trace} (h : Moves c s evs s') :
    (∀ e ∈ evs, e.act.loc = none) ∨
      (s.main = .unmap ∧ s'.main = .done ∧ evs = [⟨.main, .write .input⟩, ⟨.main, .close .finished⟩]) := by
  cases h <;> simp_all [Act.loc]

/-- Every message that is sent is received. -/
theorem moves_channels {c : Cfg O} {s s' : St O} {evs : Trace} (h : Moves c s evs s') (o : Obj) :
    sends o evs = recvs o evs := by
  cases h <;> simp [sends, recvs]
  all_goals (cases o <;> simp)

/-- How a goroutine is waited for. -/
theorem joined_from {c : Cfg O} {W : Nat} {s s' : St O} {evs : Trace} (h : Moves c s evs s') {t : Thread} (hi : Inner t)
    (hm : t ≠ .main) (hx : Exists c W t) (hw : waitRank t ≤ rank s'.main) :
    waitRank t ≤ rank s.main ∨ (evs = [⟨.main, .wait (group t)⟩] ∧ ¬ Alive s t) := by
  cases h with
  | workersDone hm hw' =>
    cases t with
    | worker k =>
      refine .inr ⟨rfl, fun ⟨w, hk, hh⟩ => hh (hw' w (List.mem_of_getElem? hk))⟩
    | main => exact absurd rfl ‹_›
    | caller => exact hi.elim
    | ui => exact hi.elim
    | reorder =>
      have hx : c.hasWriter = true := hx
      simp [hx, rank, waitRank] at hw
    | writer =>
      have hx : c.hasWriter = true := hx
      simp [hx, rank, waitRank] at hw
  | _ => cases t <;> simp_all [rank, waitRank, Alive, group, Inner]

theorem joined_ended {c : Cfg O} {W : Nat} {s : St O} (hB : BInv c W s) {t : Thread} (hi : Inner t) (hm : t ≠ .main)
    (hw : waitRank t ≤ rank s.main) : ¬ Alive s t := by
  cases t with
  | worker k => exact fun ⟨w, hk, hh⟩ => hh (hB.workersExited hw w (List.mem_of_getElem? hk))
  | main => exact absurd rfl hm
  | caller => exact hi.elim
  | ui => exact hi.elim
  | reorder =>
    intro ha
    cases hc : c.hasWriter
    · exact ha (hB.noWriter hc).1
    · exact ha (hB.reorderExited hc hw)
  | writer =>
    intro ha
    cases hc : c.hasWriter
    · exact ha (hB.noWriter hc).2.1
    · exact ha (hB.writerExited hc hw)

/-- When `processFileWork` has ended, so have the others. -/
theorem done_ended {c : Cfg O} {W : Nat} {s : St O} (hB : BInv c W s) (hd : s.main = .done) (t : Thread) : ¬ Alive s t := by
  cases t with
  | caller => exact id
  | ui => exact id
  | main => exact fun h => h hd
  | worker k => exact joined_ended hB (t := .worker k) trivial nofun (by rw [hd]; simp [waitRank, rank])
  | reorder => exact joined_ended hB (t := .reorder) trivial nofun (by rw [hd]; simp [waitRank, rank])
  | writer => exact joined_ended hB (t := .writer) trivial nofun (by rw [hd]; simp [waitRank, rank])

theorem index_mono {c : Cfg O} {s s' : St O} {evs : Trace} (h : Moves c s evs s') : s.index ≤ s'.index := by
  cases h <;> simp

theorem done_stays {c : Cfg O} {s s' : St O} {evs : Trace} (h : Moves c s evs s') (hd : s.main = .done) :
    s'.main = .done := by
  cases h <;> simp_all

end Osm.Race
