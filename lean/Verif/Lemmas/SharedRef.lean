import Verif.Lemmas.SharedInv
import Verif.Lemmas.PipelineLive

/-! # Workers that share memory: every run is one of `Model/Pbf.lean` -/

namespace Osm.Shared
open Osm Osm.T Osm.Pbf Osm.Pool Osm.Spec

variable {O : Type}

theorem waiting_step {c : Cmd O} {use : Block → Slice → Res O} {p : Cfg O} {sched : Block → Sched} {s s' : Pbf.St O}
    (h : Step' (waiting p) s s') : Step' (atomically c use p sched) s s' := by
  cases h with
  | cancel h => exact .cancel h
  | load h1 h2 h3 => exact .load h1 h2 h3
  | loadPanic h1 h2 h3 => exact .loadPanic h1 h2 h3
  | loadEnd h1 h2 => exact .loadEnd h1 h2
  | header h1 h2 => exact .header h1 h2
  | headerPanic h1 h2 => exact .headerPanic h1 h2
  | data h1 h2 => exact .data h1 h2
  | dataPanic h1 h2 => exact .dataPanic h1 h2
  | handOver h1 h2 => exact .handOver h1 h2
  | abort h1 h2 => exact .abort h1 h2
  | closeIn h1 => exact .closeIn h1
  | workersDone h1 h2 => exact .workersDone (c := atomically c use p sched) h1 h2
  | closeReorder h1 => exact .closeReorder h1
  | reorderDone h1 h2 => exact .reorderDone h1 h2
  | closeOut h1 => exact .closeOut h1
  | writerDone h1 h2 => exact .writerDone h1 h2
  | unmap h1 => exact .unmap h1
  | work hw ho => cases ho
  | workPanic hw ho => cases ho
  | workerExit h1 h2 => exact .workerExit h1 h2
  | toReorder h1 h2 => exact .toReorder h1 h2
  | popSome h1 h2 => exact .popSome h1 h2
  | popNone h1 h2 => exact .popNone h1 h2
  | toWriter h1 h2 => exact .toWriter h1 h2
  | reorderExit h1 h2 h3 => exact .reorderExit h1 h2 h3
  | reorderPanic h1 h2 h3 => exact .reorderPanic h1 h2 h3
  | write h1 h2 => exact .write h1 h2
  | writePanic h1 h2 => exact .writePanic h1 h2
  | writerExit h1 h2 h3 => exact .writerExit h1 h2 h3
  | writerExitPanic h1 h2 h3 => exact .writerExitPanic h1 h2 h3

/-- A worker works on a block it took. -/
def Busy (s : Pbf.St O) : Prop := ∀ w ∈ s.workers, ∀ b, w.pc = .busy b → b ∈ w.took

theorem Busy.step {c : Cfg O} {s s' : Pbf.St O} (h : Busy s) (hs : Step' c s s') : Busy s' := by
  have swap : ∀ {l1 l2 : List (Worker O)} {w w' : Worker O}, s.workers = l1 ++ w :: l2 →
      (∀ b, w'.pc = .busy b → b ∈ w'.took) → ∀ v ∈ l1 ++ w' :: l2, ∀ b, v.pc = .busy b → b ∈ v.took := by
    intro l1 l2 w w' e hw v hv b hb
    rcases mem_replace (a := w) hv with rfl | hv
    · exact hw b hb
    · exact h v (by rw [e]; exact hv) b hb
  cases hs with
  | handOver hm hw => exact swap hw (by intro b hb; cases hb; simp)
  | work hw ho =>
    refine swap hw ?_
    intro b hb
    dsimp only at hb
    split at hb <;> cases hb
  | workerExit hw _ => exact swap hw (by intro b hb; cases hb)
  | toReorder hw _ => exact swap hw (by intro b hb; cases hb)
  | _ => exact h

theorem Busy.reachable {c : Cfg O} {W : Nat} {s : Pbf.St O} (h : Pbf.Reachable c W s) : Busy s := by
  obtain ⟨n, h⟩ := h
  generalize hi : St.init c W = s0 at h
  induction h with
  | refl =>
    subst hi
    intro w hw b hb
    simp only [St.init, List.mem_replicate] at hw
    rw [hw.2] at hb
    cases hb
  | step _ h ih => exact (ih hi).step h.2

theorem sent_nodup {c : Cfg O} (hl : c.file.length < 2 ^ 63) {W : Nat} {s : Pbf.St O} (h : Pbf.Reachable c W s) :
    s.sent.Nodup := by
  obtain ⟨_, q, hh, _⟩ := (h.inv hl).a
  have hx := hh.index hl
  rw [List.nodup_iff_pairwise_ne, List.pairwise_iff_getElem]
  intro i j hi hj hij he
  have h1 := hx i _ (List.getElem?_eq_getElem hi)
  have h2 := hx j _ (List.getElem?_eq_getElem hj)
  rw [he, h2] at h1
  omega

/-- No two workers work on the same block. -/
theorem busy_once {c : Cfg O} (hl : c.file.length < 2 ^ 63) {W : Nat} {s : Pbf.St O} (h : Pbf.Reachable c W s)
    {l1 l2 : List (Worker O)} {b : Block} {t : List Block} (hw : s.workers = l1 ++ ⟨.busy b, t⟩ :: l2) :
    b ∈ s.sent ∧ ∀ w ∈ l1 ++ l2, w.pc ≠ .busy b := by
  have hb := Busy.reachable h
  have hp := (h.inv hl).k.perm
  have hn : (s.workers.flatMap (·.took)).Nodup := hp.nodup_iff.2 (sent_nodup hl h)
  have ht : b ∈ t := hb ⟨.busy b, t⟩ (by rw [hw]; exact mem_middle) b rfl
  refine ⟨hp.mem_iff.1 (List.mem_flatMap.2 ⟨⟨.busy b, t⟩, by rw [hw]; exact mem_middle, ht⟩), ?_⟩
  intro w hw' he
  have hbw : b ∈ w.took := hb w (by rw [hw]; simp only [List.mem_append, List.mem_cons] at hw' ⊢; rcases hw' with h | h
                                    · exact .inl h
                                    · exact .inr (.inr h)) b he
  rw [hw] at hn
  simp only [List.flatMap_append, List.flatMap_cons, List.nodup_append, List.mem_append] at hn
  obtain ⟨_, ⟨_, _, h3⟩, h4⟩ := hn
  rcases List.mem_append.1 hw' with h5 | h5
  · exact h4 b (List.mem_flatMap.2 ⟨w, h5, hbw⟩) b (.inl ht) rfl
  · exact h3 b ht b (List.mem_flatMap.2 ⟨w, h5, hbw⟩) rfl

/-- A worker has finished with the block. -/
def Finished (s : Pbf.St O) (b : Block) : Prop := b ∈ s.sent ∧ ∀ w ∈ s.workers, w.pc ≠ .busy b

theorem Finished.pipe {c : Cmd O} {use : Block → Slice → Res O} {p : Cfg O} (hl : p.file.length < 2 ^ 63) {W : Nat}
    {sched : Block → Sched} {s s' : Pbf.St O}
    (hr : Pbf.Reachable (atomically c use p sched) W s) (hcr : s.crashed = false) (hs : Step' (waiting p) s s') {b : Block} (h : Finished s b) :
    Finished s' b := by
  have swap : ∀ {l1 l2 : List (Worker O)} {w w' : Worker O}, s.workers = l1 ++ w :: l2 →
      w'.pc ≠ .busy b → ∀ v ∈ l1 ++ w' :: l2, v.pc ≠ .busy b := by
    intro l1 l2 w w' e hw v hv
    rcases mem_replace (a := w) hv with rfl | hv
    · exact hw
    · exact h.2 v (by rw [e]; exact hv)
  cases hs with
  | @handOver b' size l1 t l2 hm hw =>
    refine ⟨List.mem_append.2 (.inl h.1), swap hw ?_⟩
    intro he
    cases he
    have hr' : Pbf.Reachable (atomically c use p sched) W
        { s with main := .load, pos := s.pos + size, index := s.index + 1,
                 workers := l1 ++ ⟨.busy b, t ++ [b]⟩ :: l2, sent := s.sent ++ [b] } := by
      obtain ⟨n, hn⟩ := hr
      exact ⟨n + 1, .step hn ⟨hcr, .handOver hm hw⟩⟩
    have := sent_nodup (c := atomically c use p sched) hl hr'
    simp only [List.nodup_append] at this
    exact this.2.2 b h.1 b (by simp) rfl
  | work hw ho => cases ho
  | workPanic hw ho => cases ho
  | workerExit hw _ => exact ⟨h.1, swap hw (by simp)⟩
  | toReorder hw _ => exact ⟨h.1, swap hw (by simp)⟩
  | _ => exact h

/-- What is known of a state that has not crashed: the pipeline is where it can be if the workers answer in a single step,
whatever the buffers and chunks for the blocks not finished yet. -/
def Fits (c : Cmd O) (use : Block → Slice → Res O) (p : Cfg O) (W : Nat) (s : Pbf.St O) (ans : List (Block × O)) : Prop :=
  ∃ sched, Possible sched ∧ ∀ sched' : Block → Sched, (∀ b, Finished s b → sched' b = sched b) →
    Pbf.Reachable (atomically c use p sched') W s ∧ ∀ x ∈ ans, c.work use sched' x.1 = .ok x.2

/-- What is known of every state. -/
def Explained (c : Cmd O) (use : Block → Slice → Res O) (p : Cfg O) (W : Nat) (s : Pbf.St O) (ans : List (Block × O)) :
    Prop :=
  ∃ sched, Possible sched ∧ Pbf.Reachable (atomically c use p sched) W s ∧ ∀ x ∈ ans, c.work use sched x.1 = .ok x.2

theorem Fits.explained {c : Cmd O} {use : Block → Slice → Res O} {p : Cfg O} {W : Nat} {s : Pbf.St O}
    {ans : List (Block × O)} (h : Fits c use p W s ans) : Explained c use p W s ans := by
  obtain ⟨sched, h1, h2⟩ := h
  exact ⟨sched, h1, h2 sched (fun _ _ => rfl)⟩

theorem more {c : Cfg O} {W : Nat} {s s' : Pbf.St O} (h : Pbf.Reachable c W s) (hcr : s.crashed = false)
    (hs : Step' c s s') : Pbf.Reachable c W s' := by
  obtain ⟨n, hn⟩ := h
  exact ⟨n + 1, .step hn ⟨hcr, hs⟩⟩

theorem Fits.pipe {c : Cmd O} {use : Block → Slice → Res O} {p : Cfg O} (hl : p.file.length < 2 ^ 63) {W : Nat}
    {s s' : Pbf.St O} {ans : List (Block × O)} (h : Fits c use p W s ans) (hcr : s.crashed = false)
    (hs : Step' (waiting p) s s') : Fits c use p W s' ans := by
  obtain ⟨sched, h1, h2⟩ := h
  refine ⟨sched, h1, fun sched' hg => ?_⟩
  have h0 := (h2 sched (fun _ _ => rfl)).1
  obtain ⟨h3, h4⟩ := h2 sched' (fun b hb => hg b (hb.pipe hl h0 hcr hs))
  exact ⟨more h3 hcr (waiting_step hs), h4⟩

/-- The choice for one block is replaced. -/
noncomputable def setSched (sched : Block → Sched) (b : Block) (x : Sched) : Block → Sched :=
  open Classical in fun b' => if b' = b then x else sched b'

theorem setSched_self (sched : Block → Sched) (b : Block) (x : Sched) : setSched sched b x b = x := by
  unfold setSched
  exact if_pos rfl

theorem setSched_other (sched : Block → Sched) {b b' : Block} (x : Sched) (h : b' ≠ b) :
    setSched sched b x b' = sched b' := by
  unfold setSched
  exact if_neg h

theorem possible_set {sched : Block → Sched} (h : Possible sched) (b : Block) {x : Sched} (hx : x.pooled.length < 2 ^ 63) :
    Possible (setSched sched b x) := by
  intro b'
  by_cases he : b' = b
  · rw [he, setSched_self]; exact hx
  · rw [setSched_other _ _ he]; exact h b'

theorem Fits.answer {c : Cmd O} {use : Block → Slice → Res O} {p : Cfg O} (hl : p.file.length < 2 ^ 63) {W : Nat}
    {s : Pbf.St O} {ans : List (Block × O)} (h : Fits c use p W s ans) (hcr : s.crashed = false) {l1 l2 : List (Worker O)} {b : Block} {t : List Block}
    (hw : s.workers = l1 ++ ⟨.busy b, t⟩ :: l2) {x : Sched} (hx : x.pooled.length < 2 ^ 63) {o : O}
    (ho : ∀ sched : Block → Sched, sched b = x → c.work use sched b = .ok o) :
    Fits c use p W (answered p s l1 l2 b t o) (ans ++ [(b, o)]) := by
  obtain ⟨sched, h1, h2⟩ := h
  have h0 := (h2 sched (fun _ _ => rfl)).1
  obtain ⟨once1, once2⟩ := busy_once (c := atomically c use p sched) hl h0 hw
  refine ⟨setSched sched b x, possible_set h1 b hx, fun sched' hg => ?_⟩
  have hb : sched' b = x := by
    rw [hg b ⟨once1, ?_⟩, setSched_self]
    intro w hw'
    simp only [answered, List.mem_append, List.mem_cons] at hw'
    rcases hw' with h | h | h
    · exact once2 w (List.mem_append.2 (.inl h))
    · rw [h]
      dsimp only
      split <;> exact fun e => by cases e
    · exact once2 w (List.mem_append.2 (.inr h))
  have hold : ∀ b', Finished s b' → sched' b' = sched b' := by
    intro b' hf
    have hne : b' ≠ b := by
      intro e
      exact hf.2 ⟨.busy b, t⟩ (by rw [hw]; exact mem_middle) (by rw [e])
    rw [hg b' ⟨hf.1, ?_⟩, setSched_other _ _ hne]
    intro w hw'
    simp only [answered] at hw'
    rcases mem_replace (a := ⟨.busy b, t⟩) hw' with h | h
    · rw [h]
      dsimp only
      split <;> exact fun e => by cases e
    · exact hf.2 w (by rw [hw]; exact h)
  obtain ⟨h3, h4⟩ := h2 sched' hold
  refine ⟨more h3 hcr (.work (c := atomically c use p sched') hw (ho sched' hb)), ?_⟩
  intro x hx
  rcases List.mem_append.1 hx with hx | hx
  · exact h4 x hx
  · rw [List.mem_singleton.1 hx]
    exact ho sched' hb

theorem Fits.crash {c : Cmd O} {use : Block → Slice → Res O} {p : Cfg O} {W : Nat}
    {s : Pbf.St O} {ans : List (Block × O)} (h : Fits c use p W s ans) (hcr : s.crashed = false) {b : Block} {t : List Block}
    (hw : ⟨.busy b, t⟩ ∈ s.workers) {x : Sched} (hx : x.pooled.length < 2 ^ 63)
    (ho : ∀ sched : Block → Sched, sched b = x → c.work use sched b = .panic) :
    Explained c use p W { s with crashed := true } ans := by
  obtain ⟨sched, h1, h2⟩ := h
  refine ⟨setSched sched b x, possible_set h1 b hx, ?_⟩
  obtain ⟨l1, l2, hw'⟩ := List.append_of_mem hw
  have hold : ∀ b', Finished s b' → setSched sched b x b' = sched b' := by
    intro b' hf
    apply setSched_other
    intro e
    exact hf.2 _ hw (by rw [e])
  obtain ⟨h3, h4⟩ := h2 _ hold
  exact ⟨more h3 hcr (.workPanic (c := atomically c use p _) hw' (ho _ (setSched_self _ _ _))), h4⟩

theorem work_gives {c : Cmd O} (use : Block → Slice → Res O) {b : Block} {x : Sched} {sl : Slice} (h : Gives c b x sl)
    (sched : Block → Sched) (hs : sched b = x) : c.work use sched b = use b sl := by
  unfold Cmd.work
  rw [h.1]
  dsimp only
  rw [hs, h.2.1]
  rfl

theorem work_panics {c : Cmd O} (use : Block → Slice → Res O) {b : Block} {x : Sched} (h1 : c.direct b = none)
    (h2 : rawOf c.inflate x b = .panic) (sched : Block → Sched) (hs : sched b = x) : c.work use sched b = .panic := by
  unfold Cmd.work
  rw [h1]
  dsimp only
  rw [hs, h2]
  rfl

theorem work_negative {c : Cmd O} (use : Block → Slice → Res O) {b : Block} {stream : List UInt8} {size : Int32}
    (h : c.start b = .zlib stream size) (hn : size.toInt < 0) (sched : Block → Sched) : c.work use sched b = .panic := by
  obtain ⟨h1, h2⟩ := start_zlib h
  exact work_panics use h1 (by rw [h2, if_pos hn]) sched rfl

/-- The worker of a task. -/
theorem Sound.worker {c : Cmd O} {use : Block → Slice → Res O} {s : St O} (hi : Sound c use s) {t : Task O} {b : Block}
    (ht : t ∈ s.tasks) (hb : t.block = some b) : ∃ took, ⟨.busy b, took⟩ ∈ s.pipe.workers := by
  obtain ⟨i, hi'⟩ := List.mem_iff_getElem?.1 ht
  obtain ⟨took, h⟩ := hi.busy i t b hi' hb
  exact ⟨took, List.mem_of_getElem? h⟩

/-- What a reader has read, it has read of the raw data. -/
theorem Sound.reading {c : Cmd O} {use : Block → Slice → Res O} {s : St O} (hi : Sound c use s) {b : Block} {src : Src}
    {rd : Reader O} (ht : .read b src rd ∈ s.tasks) :
    ∃ x sl, Gives c b x sl ∧ rd.run (s.bytes src) = use b sl := by
  have h := hi.tasks _ ht
  cases src with
  | input sl => exact ⟨⟨[], fun _ => ⟨0, false⟩⟩, sl, h.1 _ _ (by decide), h.2⟩
  | buffer bb =>
    obtain ⟨_, _, x, sl, h3, _, h5⟩ := h
    exact ⟨x, sl, h3, h5⟩

theorem refines_step {c : Cmd O} {use : Block → Slice → Res O} {p : Cfg O} (hl : p.file.length < 2 ^ 63) {W : Nat}
    {s s' : St O} (hi : Sound c use s) (h : Fits c use p W s.pipe s.answers) (hcr : s.pipe.crashed = false) (hs : Step c p s s') :
    Fits c use p W s'.pipe s'.answers ∨ (s'.pipe.crashed = true ∧ Explained c use p W s'.pipe s'.answers) := by
  have same : ∀ {k1 k2 : List (Task O)} {t : Task O}, s.tasks = k1 ++ t :: k2 → t ∈ s.tasks := by
    intro k1 k2 t h
    rw [h]; exact mem_middle
  have any : (⟨[], fun _ => ⟨0, false⟩⟩ : Sched).pooled.length < 2 ^ 63 := by decide
  have boom : ∀ {t : Task O} {b : Block}, t ∈ s.tasks → t.block = some b → ∀ {x : Sched}, x.pooled.length < 2 ^ 63 →
      (∀ sched : Block → Sched, sched b = x → c.work use sched b = .panic) →
      Fits c use p W s.crash.pipe s.answers ∨ (s.crash.pipe.crashed = true ∧ Explained c use p W s.crash.pipe s.answers) := by
    intro t b h1 h2 x h3 h4
    obtain ⟨took, hw⟩ := hi.worker h1 h2
    exact .inr ⟨rfl, h.crash hcr hw h3 h4⟩
  cases hs with
  | pipe h1 => exact .inl (h.pipe hl hcr h1)
  | @answer l1 l2 b t k1 k2 o h1 h2 h3 h4 =>
    exact .inl (h.answer hl hcr h1 any (fun sched _ => start_result h4 sched))
  | @answerPanic l1 l2 b t k1 k2 h1 h2 h3 h4 =>
    exact .inr ⟨rfl, h.crash hcr (by rw [h1]; exact mem_middle) any (fun sched _ => start_result h4 sched)⟩
  | getNewPanic h1 hd =>
    obtain ⟨t, ht, b, stream, size, hb, hn⟩ := hi.big hd
    have hk := hi.tasks t ht
    rcases hb with rfl | rfl | ⟨buf, rfl⟩
    · exact boom ht rfl any (fun sched _ => work_negative use hk hn sched)
    · exact boom ht rfl any (fun sched _ => work_negative use hk hn sched)
    · exact boom ht rfl any (fun sched _ => work_negative use hk.1 hn sched)
  | @usePanic k1 k2 b stream size buf h1 h2 h3 =>
    refine boom (same h1) rfl any (fun sched _ => work_negative use (hi.tasks _ (same h1)).1 ?_ sched)
    apply Classical.byContradiction
    intro hn
    have hpos := sizeOf_pos (size := size) (by omega)
    have hlt : size.toInt < 2 ^ 31 := by have := size.toInt_lt; omega
    simp only [tooSmall, decide_eq_false_iff_not] at h2
    rw [toInt64_pos (by omega)] at h2
    unfold borrow at h3
    split at h3
    · cases h3
    · omega
  | @chunkPanic k1 k2 b bb left remaining start call n h1 hr hst hn h0 hf =>
    subst hn
    obtain ⟨_, _, t3⟩ := hi.tasks _ (same h1)
    obtain ⟨e1, x, e2, e3⟩ := t3.fails call hr hst h0 hf
    exact boom (same h1) rfl e3 (work_panics use e1 e2)
  | @beyondPanic k1 k2 b bb left remaining start h1 hr hst =>
    obtain ⟨_, _, t3⟩ := hi.tasks _ (same h1)
    obtain ⟨e1, x, e2, e3⟩ := t3.beyond hr hst
    exact boom (same h1) rfl e3 (work_panics use e1 e2)
  | @bytePanic k1 k2 b src i k h1 hx =>
    obtain ⟨x, sl, e1, e2⟩ := hi.reading (same h1)
    unfold Reader.run at e2
    rw [hx] at e2
    exact boom (same h1) rfl e1.2.2 (fun sched hs => by rw [work_gives use e1 sched hs, ← e2])
  | @finishPanic k1 k2 b src h1 =>
    obtain ⟨x, sl, e1, e2⟩ := hi.reading (same h1)
    exact boom (same h1) rfl e1.2.2 (fun sched hs => by rw [work_gives use e1 sched hs, ← e2]; rfl)
  | @finish l1 l2 b t k1 k2 src o h1 h2 h3 =>
    obtain ⟨x, sl, e1, e2⟩ := hi.reading (same h2)
    exact .inl (h.answer hl hcr h1 e1.2.2 (fun sched hs => by rw [work_gives use e1 sched hs, ← e2]; rfl))
  | _ => exact .inl h

theorem fits_init (c : Cmd O) (use : Block → Slice → Res O) (p : Cfg O) (W : Nat) : Fits c use p W (init p W).pipe [] := by
  refine ⟨fun _ => ⟨[], fun _ => ⟨0, false⟩⟩, fun _ => Nat.two_pow_pos 63, fun sched' _ => ⟨⟨0, ?_⟩, by simp⟩⟩
  exact .refl

theorem refines {c : Cmd O} {use : Block → Slice → Res O} (hc : Computes c use) {p : Cfg O}
    (hl : p.file.length < 2 ^ 63) {W : Nat} {s : St O} (h : Reachable c p W s) :
    (s.pipe.crashed = false → Sound c use s ∧ Fits c use p W s.pipe s.answers) ∧ Explained c use p W s.pipe s.answers := by
  induction h with
  | init => exact ⟨fun _ => ⟨Sound.init c use p W, fits_init c use p W⟩, (fits_init c use p W).explained⟩
  | @step s s' _ hcr hs ih =>
    obtain ⟨i1, i2⟩ := ih.1 hcr
    rcases refines_step hl i1 i2 hcr hs with h | ⟨h1, h2⟩
    · exact ⟨fun h' => ⟨i1.step hc hs h', h⟩, h.explained⟩
    · exact ⟨fun h' => by (rw [h'] at h1; cases h1), h2⟩

end Osm.Shared
