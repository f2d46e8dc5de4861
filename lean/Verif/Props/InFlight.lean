import Verif.Spec.InFlight
import Verif.Lemmas.RewritePasses

/-!
# C82: how many blocks are in memory

Every block handed to a worker is with a worker, waiting for an earlier block, or written (`C82_accounts`). Results wait only
for a block which a worker still has (`C82_explained`), so the number of waiting results is at most the number of
blocks handed out since the oldest block that is still with a worker (`C82_window_partial`); while the writer is slow nothing
grows (`C82_backpressure`), with one worker at most one result waits (`C82_one_worker_partial`), and without a writer
none. But with two workers or more there is no bound: one slow block lets the results of the whole rest of the file
pile up (`C82_false_unbounded`, `C82_false_any_bound`).
-/

namespace Osm.Props
open Osm Osm.T Osm.Pbf Osm.Spec

variable {O : Type}

theorem holds_length (l : List (Worker O)) :
    (l.flatMap (·.pc.holds)).length = (l.filter occupied).length := by
  induction l with
  | nil => rfl
  | cons w l ih =>
    rw [List.flatMap_cons, List.length_append, ih]
    obtain ⟨pc, t⟩ := w
    cases pc <;> simp [WorkerPc.holds, List.filter_cons, occupied] <;> omega

theorem holding_le (s : St O) : holding s ≤ s.workers.length := List.length_filter_le _ _

theorem reordered_length {seen : List (Nat × O)} {rob : Held O} {next : Nat} {out : List O} (h : RInv seen rob next out) :
    out.length = next := by simpa using congrArg List.length h.sent

/-- C82: at every moment of every run each block handed out is with a worker, waiting or received by the writer; and a
worker has one block at most. -/
theorem C82_accounts (c : Cfg O) (hl : c.file.length < 2 ^ 63) (hw : c.hasWriter = true) (W : Nat) (s : St O)
    (hr : Reachable c W s) : s.sent.length = holding s + waiting s + s.got.length ∧ holding s ≤ W := by
  have hI := hr.inv hl
  refine ⟨?_, by have := holding_le s; rw [hI.b.count] at this; exact this⟩
  have hp := (hI.d hw).perm.length_eq
  simp only [List.length_range, List.length_append, List.length_map, holds_length] at hp
  have hro := (hI.d hw).reorder
  rw [hp]
  have : s.seen.length = waiting s + s.got.length := by
    unfold waiting
    cases hre : s.reorder with
    | recv rob next =>
      rw [hre] at hro
      have := reordered_length hro.1
      have := hro.1.count
      dsimp only; omega
    | check rob next =>
      rw [hre] at hro
      have h1 := reordered_length hro
      have h2 := RInv.count hro
      dsimp only; omega
    | send rob next o =>
      rw [hre] at hro
      have h1 := reordered_length hro
      have h2 := RInv.count hro
      simp only [List.length_append, List.length_singleton] at h1
      dsimp only; omega
    | exited =>
      rw [hre] at hro
      have h1 := reordered_length hro
      dsimp only; omega
  unfold holding
  omega

/-- C82: results wait only for a block that a worker still has: whenever the reorderer waits for a worker and keeps
results, some worker has the block that is due. -/
theorem C82_explained (c : Cfg O) (hl : c.file.length < 2 ^ 63) (hw : c.hasWriter = true) (W : Nat) (s : St O)
    (hr : Reachable c W s) (rob : Held O) (next : Nat) (hre : s.reorder = .recv rob next) (hne : rob ≠ []) :
    next = s.got.length ∧ ∃ w ∈ s.workers, Holding w next := by
  have hI := hr.inv hl
  have hD := hI.d hw
  have hro := hD.reorder
  rw [hre] at hro
  refine ⟨(reordered_length hro.1).symm, ?_⟩
  have hlt : next < s.sent.length := by
    have h1 := (C82_accounts c hl hw W s hr).1
    have h2 := reordered_length hro.1
    have h3 := List.length_pos_iff.2 hne
    simp only [waiting, hre] at h1
    omega
  have hm := hD.perm.mem_iff.1 (List.mem_range.2 hlt)
  rcases List.mem_append.1 hm with hm | hm
  · obtain ⟨w, hw1, hw2⟩ := List.mem_flatMap.1 hm
    refine ⟨w, hw1, ?_⟩
    obtain ⟨pc, t⟩ := w
    cases pc with
    | busy b =>
      simp only [WorkerPc.holds, List.mem_singleton] at hw2
      exact Or.inl ⟨b, rfl, hw2.symm⟩
    | sending i o =>
      simp only [WorkerPc.holds, List.mem_singleton] at hw2
      subst hw2
      exact Or.inr ⟨o, rfl⟩
    | _ => simp [WorkerPc.holds] at hw2
  · exfalso
    obtain ⟨p, hp1, hp2⟩ := List.mem_map.1 hm
    have := hro.2
    rw [List.lookup_eq_none_iff] at this
    have := this p hp1
    simp [hp2] at this

/-- C82 (partial: a bound on the reordering distance is assumed): if no worker keeps a block while more than `k` blocks
behind it are handed out, at most `k` results wait. -/
theorem C82_window_partial (c : Cfg O) (hl : c.file.length < 2 ^ 63) (hw : c.hasWriter = true) (W : Nat) (s : St O)
    (hr : Reachable c W s) (k : Nat) (hk : ∀ w ∈ s.workers, ∀ i, Holding w i → s.sent.length ≤ i + 1 + k)
    (rob : Held O) (next : Nat) (hre : s.reorder = .recv rob next) : waiting s ≤ k := by
  by_cases hne : rob = []
  · simp [waiting, hre, hne]
  obtain ⟨h1, w, h2, h3⟩ := C82_explained c hl hw W s hr rob next hre hne
  have h4 := hk w h2 _ h3
  have h5 := (C82_accounts c hl hw W s hr).1
  have h6 : 0 < holding s := by
    refine List.length_pos_iff.2 (List.ne_nil_of_mem (List.mem_filter.2 ⟨h2, ?_⟩))
    rcases h3 with ⟨b, e, _⟩ | ⟨o, e⟩ <;> simp [occupied, e]
  omega

/-- C82: while the writer does not take the result that is due, nothing else is added to those that wait. -/
theorem C82_backpressure (c : Cfg O) (n : Nat) (s s' : St O) (h : Steps c n s s') (rob : Held O) (next : Nat) (o : O)
    (hre : s.reorder = .send rob next o) (hg : s'.got = s.got) : s'.reorder = s.reorder ∧ waiting s' = waiting s := by
  have key : s'.reorder = s.reorder := by
    have : s.got <+: s'.got ∧ (s'.got = s.got → s'.reorder = s.reorder) := by
      clear hg
      induction h with
      | refl => exact ⟨List.prefix_rfl, fun _ => rfl⟩
      | @step n s1 s2 s3 h1 h2 ih =>
        obtain ⟨ih1, ih2⟩ := ih hre
        have hpre : ∀ (t : St O), t.got = s2.got → t.reorder = s2.reorder →
            s1.got <+: t.got ∧ (t.got = s1.got → t.reorder = s1.reorder) := by
          intro t e1 e2
          rw [e1, e2]
          exact ⟨ih1, ih2⟩
        obtain ⟨_, h2⟩ := h2
        have hmain : s2.got = s1.got → s2.reorder = .send rob next o := fun e => (ih2 e).trans hre
        cases h2 with
        | toReorder hw' hk =>
          refine ⟨ih1, fun e => ?_⟩
          rw [hmain e] at hk; cases hk
        | popSome hk hp =>
          refine ⟨ih1, fun e => ?_⟩
          rw [hmain e] at hk; cases hk
        | popNone hk hp =>
          refine ⟨ih1, fun e => ?_⟩
          rw [hmain e] at hk; cases hk
        | reorderExit hk _ _ =>
          refine ⟨ih1, fun e => ?_⟩
          rw [hmain e] at hk; cases hk
        | toWriter hk hw' =>
          refine ⟨ih1.trans (List.prefix_append _ _), fun e => ?_⟩
          have h3 := congrArg List.length e
          have h4 := ih1.length_le
          simp only [List.length_append, List.length_singleton] at h3
          omega
        | _ => exact hpre _ rfl rfl
    exact this.2 hg
  exact ⟨key, by unfold waiting; rw [key]⟩

/-- C82: without a writer nothing waits. -/
theorem C82_no_writer (c : Cfg O) (hl : c.file.length < 2 ^ 63) (hw : c.hasWriter = false) (W : Nat) (s : St O)
    (hr : Reachable c W s) : waiting s = 0 ∧ holding s ≤ W := by
  have hI := hr.inv hl
  refine ⟨?_, by have := holding_le s; rw [hI.b.count] at this; exact this⟩
  simp [waiting, (hI.b.noWriter hw).1]

/-! ### One worker -/

/-- With one worker the block it has is the last one handed out. -/
theorem one_last (c : Cfg O) (hl : c.file.length < 2 ^ 63) (s : St O) (hr : Reachable c 1 s) :
    ∀ w ∈ s.workers, ∀ i ∈ w.pc.holds, i + 1 = s.sent.length := by
  obtain ⟨n, h⟩ := hr
  generalize he : St.init c 1 = s0 at h
  induction h with
  | refl =>
    subst he
    intro w hw i hi
    simp only [St.init] at hw
    rw [(List.mem_replicate.1 hw).2] at hi
    cases hi
  | @step n s1 s2 s3 h1 h2 ih =>
    subst he
    have ih := ih rfl
    have hI := h1.inv hl
    obtain ⟨_, h2⟩ := h2
    cases h2 with
    | @handOver b size l1 t l2 hm hw =>
      have hc := hI.b.count
      rw [hw] at hc
      simp only [List.length_append, List.length_cons] at hc
      have e1 : l1 = [] := List.length_eq_zero_iff.1 (by omega)
      have e2 : l2 = [] := List.length_eq_zero_iff.1 (by omega)
      subst e1 e2
      intro w hw' i hi
      simp only [List.nil_append, List.mem_singleton] at hw'
      subst hw'
      simp only [WorkerPc.holds, List.mem_singleton] at hi
      subst hi
      obtain ⟨_, p, hh, ha⟩ := hI.a
      rw [hm] at ha
      have := (Handed.snoc hh ha.1 ha.2.1).index hl s2.sent.length b (by simp)
      simp [this]
    | @work b t l1 l2 o hw hk =>
      intro w hw' i hi
      dsimp only at hw' ⊢
      rcases mem_replace (a := ⟨.busy b, t⟩) hw' with rfl | hmem
      · refine ih ⟨.busy b, t⟩ (by rw [hw]; exact mem_middle) i ?_
        cases hc : c.hasWriter <;> simp only [hc, if_true, Bool.false_eq_true, if_false, WorkerPc.holds] at hi ⊢
        · cases hi
        · exact hi
      · exact ih w (by rw [hw]; exact hmem) i hi
    | @workerExit t l1 l2 hw hk =>
      intro w hw' i hi
      dsimp only at hw' ⊢
      rcases mem_replace (a := ⟨.idle, t⟩) hw' with rfl | hmem
      · cases hi
      · exact ih w (by rw [hw]; exact hmem) i hi
    | @toReorder i' o t l1 l2 rob next hw hk =>
      intro w hw' i hi
      dsimp only at hw' ⊢
      rcases mem_replace (a := ⟨.sending i' o, t⟩) hw' with rfl | hmem
      · cases hi
      · exact ih w (by rw [hw]; exact hmem) i hi
    | _ => exact ih

/-- With one worker nothing is kept while the reorderer waits for it. -/
theorem one_recv (c : Cfg O) (hl : c.file.length < 2 ^ 63) (hw : c.hasWriter = true) (s : St O) (hr : Reachable c 1 s)
    (rob : Held O) (next : Nat) (hre : s.reorder = .recv rob next) : rob = [] := by
  by_cases hne : rob = []
  · exact hne
  exfalso
  obtain ⟨h1, w, h2, h3⟩ := C82_explained c hl hw 1 s hr rob next hre hne
  have h4 : next + 1 = s.sent.length := by
    refine one_last c hl s hr w h2 next ?_
    rcases h3 with ⟨b, e, rfl⟩ | ⟨o, e⟩ <;> simp [WorkerPc.holds, e]
  have h5 := (C82_accounts c hl hw 1 s hr).1
  have h6 : 0 < holding s := by
    refine List.length_pos_iff.2 (List.ne_nil_of_mem (List.mem_filter.2 ⟨h2, ?_⟩))
    rcases h3 with ⟨b, e, _⟩ | ⟨o, e⟩ <;> simp [occupied, e]
  have h7 : waiting s = rob.length := by simp [waiting, hre]
  have h8 := List.length_pos_iff.2 hne
  omega

/-- C82 (partial: one worker): at most one result waits, and at most two blocks are in memory that the writer has not
received. -/
theorem C82_one_worker_partial (c : Cfg O) (hl : c.file.length < 2 ^ 63) (hw : c.hasWriter = true) (s : St O)
    (hr : Reachable c 1 s) : waiting s ≤ 1 ∧ s.sent.length ≤ s.got.length + 2 := by
  have key : match s.reorder with
    | .recv rob _ => rob.length = 0
    | .check rob _ => rob.length ≤ 1
    | .send rob _ _ => rob.length = 0
    | .exited => True := by
    obtain ⟨n, h⟩ := hr
    generalize he : St.init c 1 = s0 at h
    induction h with
    | refl => subst he; simp [St.init, hw]
    | @step n s1 s2 s3 h1 h2 ih =>
      subst he
      have ih := ih rfl
      have hr3 : Reachable c 1 s3 := ⟨_, h1.step h2⟩
      have hI := (h1.inv hl).d hw
      have hone := one_recv c hl hw s3 hr3
      obtain ⟨_, h2⟩ := h2
      cases h2 with
      | @toReorder i o t l1 l2 rob next hw' hk =>
        rw [hk] at ih
        have := List.length_eq_zero_iff.1 ih
        subst this
        simp [Held.insert]
      | @popSome rob next o rob' hk hp =>
        rw [hk] at ih
        have hro := hI.reorder
        rw [hk] at hro
        obtain ⟨e1, e2⟩ := pop_some hp
        have := length_filter rob (RInv.nodup hro) next o e1
        rw [← e2] at this
        dsimp only at ih ⊢
        omega
      | @popNone rob next hk hp =>
        have := hone _ _ rfl
        subst this
        rfl
      | @toWriter rob next o hk hw' =>
        rw [hk] at ih
        dsimp only at ih ⊢
        omega
      | reorderExit => trivial
      | _ => exact ih
  have h1 : waiting s ≤ 1 := by
    unfold waiting
    cases hre : s.reorder <;> rw [hre] at key <;> dsimp only at key ⊢ <;> omega
  obtain ⟨h2, h3⟩ := C82_accounts c hl hw 1 s hr
  omega

/-! ### No bound -/

/-- The first block stays with its worker while the results of the others pile up. -/
theorem pile_up (c : Cfg O) (hl : c.file.length < 2 ^ 63) (hw : c.hasWriter = true) (bs : List Block)
    (hs : split c.file = .ok bs) (hwork : ∀ b ∈ bs, ∃ o, c.work b = .ok o) (W : Nat) :
    ∀ k, k < bs.length → ∃ s t rob b0, Reachable c (W + 2) s ∧ s.main = .load ∧ s.cancelled = false ∧ s.crashed = false ∧
      s.workers = ⟨.busy b0, [b0]⟩ :: ⟨.idle, t⟩ :: List.replicate W ⟨.idle, []⟩ ∧ s.reorder = .recv rob 0 ∧
      s.got = [] ∧ s.sent = bs.take (k + 1) ∧ rob.length = k := by
  obtain ⟨hne, hbf⟩ := (split_iff _ hl _).1 hs
  have hinit : (St.init c (W + 2)).crashed = false := by simp [St.init, hne]
  -- reading the next block
  have read : ∀ (s : St O) (n : Nat), Reachable c (W + 2) s → s.main = .load → s.crashed = false → s.sent = bs.take n →
      n < bs.length → ∃ b size pos, bs[n]? = some b ∧
        Reachable c (W + 2) { s with main := .send b size, pos := pos } := by
    intro s n hr hm hc hse hn
    have hI := hr.inv hl
    obtain ⟨hix, p, hh, ha⟩ := hI.a
    rw [hm] at ha
    have hlen : s.sent.length = n := by rw [hse]; simp; omega
    have hp : p < c.file.length := by
      rcases Nat.lt_or_ge p c.file.length with h | h
      · exact h
      · have h1 := hh.le hl
        have h2 : p = c.file.length := by omega
        subst h2
        have h3 := hh.all hl hne
        rw [hs] at h3
        have h4 := congrArg List.length (Res.ok.inj h3)
        omega
    obtain ⟨b, p', hb, hpre⟩ := hh.next_ok hl hbf hp
    have hget : bs[n]? = some b := by
      have := List.prefix_iff_getElem?.1 hpre n (by simp [hlen])
      rw [List.getElem_append_right (by omega)] at this
      simpa using this
    unfold nextBlock at hb
    obtain ⟨size, e1, hb⟩ := Res.bind_eq_ok.1 hb
    obtain ⟨bh, e2, hb⟩ := Res.bind_eq_ok.1 hb
    obtain ⟨b', e3, hb⟩ := Res.bind_eq_ok.1 hb
    have e4 : b' = b := by cases hb; rfl
    subst e4
    have ha' : s.pos = p := ha
    subst ha'
    have r1 : Reachable c (W + 2) { s with main := .header size, pos := s.pos + 4 } :=
      hr.step ⟨hc, Step'.load hm hp e1⟩
    have r2 := r1.step ⟨hc, Step'.header (c := c) rfl e2⟩
    have r3 := r2.step ⟨hc, Step'.data (c := c) (b := b') rfl (by dsimp only; rw [hix]; exact e3)⟩
    exact ⟨b', _, _, hget, r3⟩
  have take_succ : ∀ (n : Nat) (b : Block), bs[n]? = some b → bs.take n ++ [b] = bs.take (n + 1) := by
    intro n b h
    rw [List.take_add_one, h]
    rfl
  intro k
  induction k with
  | zero =>
    intro hk
    obtain ⟨b, size, pos, hb, r⟩ := read (St.init c (W + 2)) 0 ⟨0, .refl⟩ rfl hinit (by simp [St.init]) hk
    have r2 := r.step ⟨hinit, Step'.handOver (c := c) (l1 := []) (t := []) (l2 := List.replicate (W + 1) ⟨.idle, []⟩)
      rfl (by simp [St.init, List.replicate_succ])⟩
    refine ⟨_, [], [], b, r2, rfl, rfl, hinit, ?_, ?_, rfl, ?_, rfl⟩
    · simp [List.replicate_succ]
    · simp [St.init, hw]
    · have := take_succ 0 b hb
      simpa [St.init] using this
  | succ k ih =>
    intro hk
    obtain ⟨s, t, rob, b0, hr, hm, hca, hc, hwk, hre, hg, hse, hrob⟩ := ih (by omega)
    obtain ⟨b, size, pos, hb, r⟩ := read s (k + 1) hr hm hc hse hk
    obtain ⟨o, ho⟩ := hwork b (List.mem_of_getElem? hb)
    have hix : b.Index = k + 1 := by
      have hI := r.inv hl
      obtain ⟨_, p, hh, ha⟩ := hI.a
      have := (Handed.snoc hh ha.1 ha.2.1).index hl s.sent.length b (by simp)
      rw [this, hse]
      simp; omega
    have r2 := r.step ⟨hc, Step'.handOver (c := c) (l1 := [⟨.busy b0, [b0]⟩]) (t := t)
      (l2 := List.replicate W ⟨.idle, []⟩) rfl (by simp [hwk])⟩
    have r3 := r2.step ⟨hc, Step'.work (c := c) (l1 := [⟨.busy b0, [b0]⟩]) (b := b) (t := t ++ [b])
      (l2 := List.replicate W ⟨.idle, []⟩) (o := o) rfl ho⟩
    have r4 := r3.step ⟨hc, Step'.toReorder (c := c) (l1 := [⟨.busy b0, [b0]⟩]) (i := b.Index) (o := o) (t := t ++ [b])
      (l2 := List.replicate W ⟨.idle, []⟩) (rob := rob) (next := 0) (by simp [hw]) hre⟩
    have hpop : (rob.insert b.Index o).pop 0 = none := by
      have h0 : rob.lookup 0 = none := by
        have hro := ((hr.inv hl).d hw).reorder
        rw [hre] at hro
        rw [hro.1.held, if_neg (by omega)]
        exact hro.2
      have : (rob.insert b.Index o).lookup 0 = none := by
        rw [lookup_insert, if_neg (by omega)]
        exact h0
      unfold Held.pop
      rw [this]
    have r5 := r4.step ⟨hc, Step'.popNone (c := c) (rob := rob.insert b.Index o) (next := 0) rfl hpop⟩
    have hwait := C82_accounts c hl hw _ _ r5
    refine ⟨_, t ++ [b], rob.insert b.Index o, b0, r5, rfl, hca, hc, rfl, rfl, hg, ?_, ?_⟩
    · dsimp only
      rw [hse, take_succ _ _ hb]
    · have h1 := hwait.1
      have hlen : (s.sent ++ [b]).length = k + 2 := by rw [hse, take_succ _ _ hb]; simp; omega
      simp only [holding, waiting, hg, List.length_nil] at h1
      rw [hlen] at h1
      have h2 : (([⟨.busy b0, [b0]⟩] ++ ⟨.idle, t ++ [b]⟩ :: List.replicate W ⟨.idle, []⟩ : List (Worker O)).filter
          occupied).length = 1 := by
        have : (List.replicate W (⟨.idle, []⟩ : Worker O)).filter occupied = [] := by
          rw [List.filter_eq_nil_iff]
          intro w hw'
          rw [(List.mem_replicate.1 hw').2]
          simp [occupied]
        simp [List.filter_cons, occupied, this]
      rw [h2] at h1
      omega

/-- C82 fails with two workers or more: for every well-formed file there is a schedule in which the results of all
blocks but the first are in memory at once and nothing has been written. -/
theorem C82_false_unbounded (c : Cfg O) (hl : c.file.length < 2 ^ 63) (hw : c.hasWriter = true) (bs : List Block)
    (hs : split c.file = .ok bs) (hwork : ∀ b ∈ bs, ∃ o, c.work b = .ok o) (W : Nat) (hW : 2 ≤ W) :
    ∃ s, Reachable c W s ∧ s.crashed = false ∧ s.cancelled = false ∧ s.got = [] ∧ waiting s + 1 = bs.length := by
  obtain ⟨W', rfl⟩ : ∃ W', W = W' + 2 := ⟨W - 2, by omega⟩
  have hpos : 0 < bs.length := by
    obtain ⟨hne, hbf⟩ := (split_iff _ hl _).1 hs
    generalize c.file = f at hne hbf
    cases hbf with
    | nil => exact absurd rfl hne
    | cons => simp
  obtain ⟨s, t, rob, b0, hr, _, hca, hc, _, hre, hg, _, hrob⟩ := pile_up c hl hw bs hs hwork W' (bs.length - 1) (by omega)
  refine ⟨s, hr, hc, hca, hg, ?_⟩
  simp only [waiting, hre, hrob]
  omega

/-- A file of `n + 1` empty blocks. -/
def manyBlocks (n : Nat) : List (GoStr × List UInt8) := List.replicate (n + 1) (osmData, [])

/-- Copy the blocks of a file of `n + 1` empty blocks. -/
def copyMany (n : Nat) : Cfg (List UInt8) where
  file := fileOf (manyBlocks n)
  work b := .ok b.Data.bytes
  hasWriter := true
  write _ := .ok ()
  finish _ := .ok ()

theorem manyBlocks_length (n : Nat) : (fileOf (manyBlocks n)).length = 13 * (n + 1) := by
  unfold fileOf manyBlocks
  generalize n + 1 = m
  induction m with
  | zero => rfl
  | succ m ih =>
    rw [List.replicate_succ, List.flatMap_cons, List.length_append, ih]
    have : (frame osmData []).length = 13 := by decide +kernel
    dsimp only
    omega

/-- C82 fails: no number bounds how many results wait, whatever the number of workers (from two on). Files of less than
2^63 bytes are considered, so the bound is below 2^58. -/
theorem C82_false_any_bound (W : Nat) (hW : 2 ≤ W) (B : Nat) (hB : B < 2 ^ 58) :
    ∃ s, Reachable (copyMany B) W s ∧ s.crashed = false ∧ s.got = [] ∧ waiting s = B := by
  have hlen := manyBlocks_length B
  have hl : (copyMany B).file.length < 2 ^ 63 := by
    show (fileOf (manyBlocks B)).length < 2 ^ 63
    omega
  obtain ⟨bs, h1, h2, _⟩ := C53_round_trip (manyBlocks B) (by simp [manyBlocks, List.replicate_succ]) (by
    intro x hx
    rw [(List.mem_replicate.1 hx).2]
    exact ⟨Or.inr rfl, by decide⟩) hl
  obtain ⟨s, hr, hc, _, hg, hwt⟩ := C82_false_unbounded (copyMany B) hl rfl bs h1 (fun b _ => ⟨_, rfl⟩) W hW
  refine ⟨s, hr, hc, hg, ?_⟩
  have := congrArg List.length h2
  simp only [List.length_map, manyBlocks, List.length_replicate] at this
  omega

/-- The hypotheses are met: three blocks, two workers: two results wait. -/
example : ∃ s, Reachable (copyMany 2) 2 s ∧ s.crashed = false ∧ s.got = [] ∧ waiting s = 2 :=
  C82_false_any_bound 2 (by decide) 2 (by decide)

end Osm.Props
