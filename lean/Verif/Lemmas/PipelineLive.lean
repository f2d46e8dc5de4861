import Verif.Lemmas.PipelineOrder

namespace Osm.Pbf
open Osm Osm.Spec Osm.Pb Osm.T

variable {O : Type}

theorem Steps.empty {c : Cfg O} {W n : Nat} {s : St O} (h : Steps c n (St.init c W) s) (he : c.file = []) :
    s = St.init c W := by
  generalize h0 : St.init c W = s0 at h
  induction h with
  | refl => rfl
  | step _ h2 ih =>
    have := ih h0
    subst this
    have := h2.1
    rw [← h0] at this
    simp [St.init, he] at this

theorem Reachable.file_ne {c : Cfg O} {W : Nat} {s : St O} (h : Reachable c W s)
    (hs : s.crashed = false ∨ s.main ≠ .load) : c.file ≠ [] := by
  intro he
  obtain ⟨n, h⟩ := h
  have := h.empty he
  subst this
  simp [St.init, he] at hs

theorem Reachable.step {c : Cfg O} {W : Nat} {s s' : St O} (h : Reachable c W s) (hs : Step c s s') :
    Reachable c W s' := let ⟨n, h⟩ := h; ⟨n + 1, h.step hs⟩

/-! ### The writer -/

/-- What the writer has done. -/
structure WInv (c : Cfg O) (s : St O) : Prop where
  before : ∀ p q, s.got = p ++ q → p ≠ [] → (q ≠ [] ∨ s.writer ≠ .busy) → c.write p = .ok ()
  finished : s.writer = .exited → c.hasWriter = true → c.finish s.got = .ok ()
  sending : c.hasWriter = false → ∀ w ∈ s.workers, ∀ i o, w.pc ≠ .sending i o
  nothing : c.hasWriter = false → s.got = []

theorem WInv.init (c : Cfg O) (n : Nat) : WInv c (St.init c n) where
  before := by
    intro p q h hp
    simp only [St.init] at h
    have := List.append_eq_nil_iff.1 h.symm
    exact absurd this.1 hp
  finished := by
    intro h hw
    simp [St.init, hw] at h
  sending := by
    intro _ w hw i o h
    simp only [St.init] at hw
    rw [(List.mem_replicate.1 hw).2] at h
    cases h
  nothing := by intro _; rfl

theorem WInv.step {c : Cfg O} {n : Nat} {s s' : St O} (h : WInv c s) (hB : BInv c n s) (hs : Step' c s s') :
    WInv c s' := by
  obtain ⟨h1, h2, h3, h4⟩ := h
  cases hs with
  | @toWriter rob next o hr hw =>
    refine ⟨?_, ?_, h3, ?_⟩
    · intro p q hpq hp hq
      dsimp only at hpq hq
      rcases hq with hq | hq
      · obtain ⟨q', x, rfl⟩ := List.eq_nil_or_concat q |>.resolve_left hq
        rw [List.concat_eq_append, ← List.append_assoc] at hpq
        obtain ⟨e, _⟩ := List.append_inj' hpq rfl
        exact h1 p q' e hp (Or.inr (by rw [hw]; simp))
      · exact absurd rfl hq
    · intro h; cases h
    · intro hf
      have := (hB.noWriter hf).1
      rw [hr] at this
      cases this
  | write hw hk =>
    refine ⟨?_, ?_, h3, h4⟩
    · intro p q hpq hp hq
      dsimp only at hpq
      by_cases hqe : q = []
      · subst hqe
        rw [List.append_nil] at hpq
        rw [← hpq]; exact hk
      · exact h1 p q hpq hp (Or.inl hqe)
    · intro h; cases h
  | writerExit hw ho hk =>
    refine ⟨?_, ?_, h3, h4⟩
    · intro p q hpq hp _
      exact h1 p q hpq hp (Or.inr (by rw [hw]; simp))
    · intro _ _; exact hk
  | @handOver b size l1 t l2 hm hw =>
    refine ⟨h1, h2, ?_, h4⟩
    intro hf w hw' i o
    rw [hw] at h3
    rcases mem_replace (a := ⟨.idle, t⟩) hw' with rfl | hmem
    · intro h; cases h
    · exact h3 hf w hmem i o
  | @work b t l1 l2 o hw hk =>
    refine ⟨h1, h2, ?_, h4⟩
    intro hf w hw' i o
    rw [hw] at h3
    rcases mem_replace (a := ⟨.busy b, t⟩) hw' with rfl | hmem
    · intro h; simp [hf] at h
    · exact h3 hf w hmem i o
  | @workerExit t l1 l2 hw hk =>
    refine ⟨h1, h2, ?_, h4⟩
    intro hf w hw' i o
    rw [hw] at h3
    rcases mem_replace (a := ⟨.idle, t⟩) hw' with rfl | hmem
    · intro h; cases h
    · exact h3 hf w hmem i o
  | @toReorder i' o' t l1 l2 rob next hw hk =>
    refine ⟨h1, h2, ?_, h4⟩
    intro hf w hw' i o
    rw [hw] at h3
    rcases mem_replace (a := ⟨.sending i' o', t⟩) hw' with rfl | hmem
    · intro h; cases h
    · exact h3 hf w hmem i o
  | _ => exact ⟨h1, h2, h3, h4⟩

theorem Reachable.winv {c : Cfg O} (hl : c.file.length < 2 ^ 63) {W : Nat} {s : St O}
    (h : Reachable c W s) : WInv c s := by
  obtain ⟨n, h⟩ := h
  generalize he : St.init c W = s0 at h
  induction h with
  | refl => subst he; exact .init c W
  | step h1 h2 ih =>
    have i := ih he
    subst he
    exact i.step (h1.inv hl).b h2.2

/-! ### Every run ends -/

/-- Work left in the main goroutine. -/
def mainW : Main → Nat
  | .load => 10
  | .header _ => 70
  | .data _ => 69
  | .send _ _ => 68
  | .closeIn => 9
  | .waitWorkers => 8
  | .closeReorder => 7
  | .waitReorder => 6
  | .closeOut => 5
  | .waitWriter => 4
  | .unmap => 3
  | .done => 0

/-- Work left in a worker. -/
def workerW : WorkerPc O → Nat
  | .idle => 1
  | .busy _ => 10
  | .sending _ _ => 9
  | .exited => 0

/-- Work left in the reorderer. -/
def reorderW : ReorderPc O → Nat
  | .recv rob _ => 5 * rob.length + 1
  | .check rob _ => 5 * rob.length + 2
  | .send rob _ _ => 5 * rob.length + 5
  | .exited => 0

/-- Work left in the writer. -/
def writerW : WriterPc → Nat
  | .recv => 1
  | .busy => 2
  | .exited => 0

/-- Work left. -/
def measure (c : Cfg O) (s : St O) : Nat :=
  20 * (c.file.length - s.pos) + mainW s.main + (s.workers.map (fun w => workerW w.pc)).sum +
    reorderW s.reorder + writerW s.writer + (!s.cancelled).toNat + (!s.crashed).toNat

theorem insert_length (rob : Held O) (i : Nat) (o : O) : (rob.insert i o).length ≤ rob.length + 1 := by
  unfold Held.insert
  have := List.length_filter_le (fun p : Nat × O => !(p.1 == i)) rob
  simp only [List.length_cons]
  omega

theorem pop_length {rob rob' : Held O} {k : Nat} {o : O} (h : rob.pop k = some (o, rob')) :
    rob'.length < rob.length := by
  obtain ⟨h1, rfl⟩ := pop_some h
  rw [List.length_filter_lt_length_iff_exists]
  exact ⟨(k, o), lookup_mem h1, by simp⟩

theorem measure_step {c : Cfg O} (hl : c.file.length < 2 ^ 63) {s s' : St O} (h : AInv c s)
    (hs : Step c s s') : measure c s' < measure c s := by
  have hpos := (h.step hl hs.2).pos_le hl
  obtain ⟨hcr, hs⟩ := hs
  have hcn : (!s.crashed).toNat = 1 := by rw [hcr]; rfl
  cases hs with
  | cancel hc => simp [measure, hc]
  | load hm _ _ => dsimp only at hpos; simp only [measure, hm, mainW]; omega
  | loadPanic | headerPanic | dataPanic | workPanic | reorderPanic | writePanic | writerExitPanic =>
    simp [measure, hcr]
  | loadEnd hm _ => simp only [measure, hm, mainW]; omega
  | header hm _ => dsimp only at hpos; simp only [measure, hm, mainW]; omega
  | data hm _ => simp only [measure, hm, mainW]; omega
  | handOver hm hw =>
    dsimp only at hpos
    simp only [measure, hm, hw, mainW, List.map_append, List.map_cons, List.sum_append, List.sum_cons, workerW]
    omega
  | abort hm _ => simp only [measure, hm, mainW]; omega
  | closeIn hm => simp only [measure, hm, mainW]; omega
  | workersDone hm _ => cases hc : c.hasWriter <;> simp [measure, hm, mainW] <;> omega
  | closeReorder hm => simp only [measure, hm, mainW]; omega
  | reorderDone hm _ => simp only [measure, hm, mainW]; omega
  | closeOut hm => simp only [measure, hm, mainW]; omega
  | writerDone hm _ => simp only [measure, hm, mainW]; omega
  | unmap hm => simp only [measure, hm, mainW]; omega
  | work hw _ =>
    simp only [measure, hw, List.map_append, List.map_cons, List.sum_append, List.sum_cons, workerW]
    cases hc : c.hasWriter <;> simp [workerW] <;> omega
  | workerExit hw _ =>
    simp only [measure, hw, List.map_append, List.map_cons, List.sum_append, List.sum_cons, workerW]
    omega
  | @toReorder i o t l1 l2 rob next hw hr =>
    simp only [measure, hw, hr, List.map_append, List.map_cons, List.sum_append, List.sum_cons, workerW, reorderW]
    have := insert_length rob i o
    omega
  | popSome hr hp =>
    simp only [measure, hr, reorderW]
    have := pop_length hp
    omega
  | popNone hr hp => simp only [measure, hr, reorderW]; omega
  | toWriter hr hw => simp only [measure, hr, hw, reorderW, writerW]; omega
  | reorderExit hr _ hz => simp only [measure, hr, reorderW]; omega
  | write hw _ => simp only [measure, hw, writerW]; omega
  | writerExit hw _ _ => simp only [measure, hw, writerW]; omega

theorem measure_init (c : Cfg O) (W : Nat) : measure c (St.init c W) ≤ 20 * c.file.length + W + 14 := by
  simp only [measure, St.init, List.map_replicate, workerW, mainW, List.sum_replicate_nat]
  have : (!decide (c.file = [])).toNat ≤ 1 := Bool.toNat_le _
  cases c.hasWriter <;> simp [reorderW, writerW] <;> omega

theorem Steps.measure {c : Cfg O} (hl : c.file.length < 2 ^ 63) {W n : Nat} {s : St O}
    (h : Steps c n (St.init c W) s) : n + Pbf.measure c s ≤ 20 * c.file.length + W + 14 := by
  generalize he : St.init c W = s0 at h
  induction h with
  | refl => subst he; have := measure_init c W; omega
  | step h1 h2 ih =>
    have := ih he
    subst he
    have := measure_step hl (h1.inv hl).a h2
    omega

/-! ### No run is stuck -/

theorem Handed.fits {file : List UInt8} (hl : file.length < 2 ^ 63) {bs : List Block} {p : Nat}
    (h : Handed file bs p) : ∀ b ∈ bs, b.Data.Fits := by
  induction h with
  | nil => intro b h; simp at h
  | snoc _ hp hn ih =>
    intro b hb
    rcases List.mem_append.1 hb with hb | hb
    · exact ih b hb
    · rw [List.mem_singleton] at hb
      subst hb
      obtain ⟨header, data, tail, kind, size, hd, hh, hrd, hk, hsz, rfl, rfl⟩ := (nextBlock_ok (by omega) hl).1 hn
      have := congrArg List.length hd
      simp only [List.length_drop, List.length_append, be32_length] at this
      show data.length + tail.length < 2 ^ 63
      omega

theorem Inv.taken {c : Cfg O} {W : Nat} {s : St O} (h : Inv c W s) {w : Worker O} (hw : w ∈ s.workers) {b : Block}
    (hb : w.pc = .busy b) : b ∈ s.sent := by
  have hd := h.k.done w hw
  unfold WorkerDone at hd
  rw [hb] at hd
  obtain ⟨t, ht, _⟩ := hd
  refine h.k.perm.mem_iff.1 ?_
  rw [List.mem_flatMap]
  exact ⟨w, hw, by rw [ht]; simp⟩

/-- Something can happen other than a cancellation. -/
def Moves (c : Cfg O) (s : St O) : Prop := ∃ s', Step' c s s' ∧ s'.cancelled = s.cancelled

theorem writer_moves {c : Cfg O} (ht : Total c) {s : St O} (h : s.writer = .busy) : Moves c s := by
  cases hk : c.write s.got with
  | ok u => exact ⟨_, .write h hk, rfl⟩
  | panic => exact ⟨_, .writePanic h hk, rfl⟩
  | hang => exact absurd hk (ht.write _)

theorem reorder_moves {c : Cfg O} (ht : Total c) {s : St O} (hw : s.writer ≠ .exited)
    (h1 : s.reorder ≠ .exited) (h2 : ∀ rob next, s.reorder ≠ .recv rob next) : Moves c s := by
  cases hr : s.reorder with
  | recv rob next => exact absurd hr (h2 rob next)
  | exited => exact absurd hr h1
  | check rob next =>
    cases hp : rob.pop next with
    | none => exact ⟨_, .popNone hr hp, rfl⟩
    | some x => obtain ⟨o, rob'⟩ := x; exact ⟨_, .popSome hr hp, rfl⟩
  | send rob next o =>
    cases hwr : s.writer with
    | recv => exact ⟨_, .toWriter hr hwr, rfl⟩
    | busy => exact writer_moves ht hwr
    | exited => exact absurd hwr hw

theorem worker_moves {c : Cfg O} (hlen : c.file.length < 2 ^ 63) (ht : Total c) {n : Nat} {s : St O} (hI : Inv c n s) (hW : WInv c s)
    {w : Worker O} (hw : w ∈ s.workers) (h1 : w.pc ≠ .idle) (h2 : w.pc ≠ .exited) : Moves c s := by
  have hB := hI.b
  obtain ⟨l1, l2, hl⟩ := List.append_of_mem hw
  obtain ⟨pc, t⟩ := w
  cases pc with
  | idle => exact absurd rfl h1
  | exited => exact absurd rfl h2
  | busy b =>
    cases hk : c.work b with
    | ok o => exact ⟨_, .work hl hk, rfl⟩
    | panic => exact ⟨_, .workPanic hl hk, rfl⟩
    | hang =>
      obtain ⟨_, p, hh, _⟩ := hI.a
      exact absurd hk (ht.work _ (hh.fits hlen b (hI.taken hw rfl))
        fun _ hsp => (hh.prefix hlen hsp).mem (hI.taken hw rfl))
  | sending i o =>
    have hwr : c.hasWriter = true := by
      cases hc : c.hasWriter
      · exact absurd rfl (hW.sending hc _ hw i o)
      · rfl
    have hrank : rank s.main < 3 := by
      apply Nat.lt_of_not_le
      intro h3
      have := hB.workersExited h3 _ hw
      cases this
    by_cases hr : ∃ rob next, s.reorder = .recv rob next
    · obtain ⟨rob, next, hr⟩ := hr
      exact ⟨_, .toReorder hl hr, rfl⟩
    · refine reorder_moves ht ?_ ?_ (fun rob next h => hr ⟨rob, next, h⟩)
      · intro h; have := hB.exitedWriter hwr h; omega
      · intro h; have := hB.exitedReorder hwr h; omega

theorem moves {c : Cfg O} (hl : c.file.length < 2 ^ 63) (ht : Total c) {n : Nat} (hn : 0 < n) {s : St O}
    (hI : Inv c n s) (hW : WInv c s) (hm : s.main ≠ .done) : Moves c s := by
  have hB := hI.b
  cases hm' : s.main with
  | done => exact absurd hm' hm
  | load =>
    by_cases hlt : s.pos < c.file.length
    · cases hz : headerSize c.file s.pos with
      | ok size => exact ⟨_, .load hm' hlt hz, rfl⟩
      | panic => exact ⟨_, .loadPanic hm' hlt hz, rfl⟩
      | hang => exact absurd hz (headerSize_ne_hang _ _)
    · exact ⟨_, .loadEnd hm' hlt, rfl⟩
  | header size =>
    cases hz : readHeader c.file s.pos size with
    | ok size => exact ⟨_, .header hm' hz, rfl⟩
    | panic => exact ⟨_, .headerPanic hm' hz, rfl⟩
    | hang => exact absurd hz (readHeader_ne_hang hl)
  | data bh =>
    cases hz : readData c.file s.pos s.index bh with
    | ok size => exact ⟨_, .data hm' hz, rfl⟩
    | panic => exact ⟨_, .dataPanic hm' hz, rfl⟩
    | hang => exact absurd hz (readData_ne_hang _ _ _ _)
  | send b size =>
    have hr : rank s.main = 0 := by rw [hm']; rfl
    have hlen := hB.count
    have : s.workers ≠ [] := by intro e; rw [e] at hlen; simp at hlen; omega
    obtain ⟨w, hw⟩ := List.exists_mem_of_ne_nil _ this
    have hex : w.pc ≠ .exited := by
      intro h
      have := hB.exitedWorkers w hw h
      omega
    by_cases hi : w.pc = .idle
    · obtain ⟨l1, l2, hl'⟩ := List.append_of_mem hw
      obtain ⟨pc, t⟩ := w
      cases hi
      exact ⟨_, .handOver hm' hl', rfl⟩
    · exact worker_moves hl ht hI hW hw hi hex
  | closeIn => exact ⟨_, .closeIn hm', rfl⟩
  | waitWorkers =>
    by_cases hall : ∀ w ∈ s.workers, w.pc = .exited
    · exact ⟨_, .workersDone hm' hall, rfl⟩
    · simp only [Classical.not_forall, exists_prop] at hall
      obtain ⟨w, hw, hx⟩ := hall
      by_cases hi : w.pc = .idle
      · obtain ⟨l1, l2, hl'⟩ := List.append_of_mem hw
        obtain ⟨pc, t⟩ := w
        cases hi
        exact ⟨_,   .workerExit hl' (hB.inC.2 (by rw [hm']; simp [rank])), rfl⟩
      · exact worker_moves hl ht hI hW hw hi hx
  | closeReorder => exact ⟨_, .closeReorder hm', rfl⟩
  | waitReorder =>
    have hwr : c.hasWriter = true := by
      cases hc : c.hasWriter
      · have := (hB.noWriter hc).2.2; rw [hm'] at this; simp [rank] at this
      · rfl
    by_cases hx : s.reorder = .exited
    · exact ⟨_, .reorderDone hm' hx, rfl⟩
    · by_cases hr : ∃ rob next, s.reorder = .recv rob next
      · obtain ⟨rob, next, hr⟩ := hr
        have hc := hB.reC' hwr (by rw [hm']; simp [rank])
        by_cases hz : rob.length = 0
        · exact ⟨_, .reorderExit hr hc hz, rfl⟩
        · exact ⟨_, .reorderPanic hr hc hz, rfl⟩
      · refine reorder_moves ht ?_ hx (fun rob next h => hr ⟨rob, next, h⟩)
        intro h
        have := hB.exitedWriter hwr h
        rw [hm'] at this
        simp [rank] at this
  | closeOut => exact ⟨_, .closeOut hm', rfl⟩
  | waitWriter =>
    have hwr : c.hasWriter = true := by
      cases hc : c.hasWriter
      · have := (hB.noWriter hc).2.2; rw [hm'] at this; simp [rank] at this
      · rfl
    cases hx : s.writer with
    | exited => exact ⟨_, .writerDone hm' hx, rfl⟩
    | busy => exact writer_moves ht hx
    | recv =>
      have hc := hB.outC' hwr (by rw [hm']; simp [rank])
      cases hk : c.finish s.got with
      | ok u => exact ⟨_, .writerExit hx hc hk, rfl⟩
      | panic => exact ⟨_, .writerExitPanic hx hc hk, rfl⟩
      | hang => exact absurd hk (ht.finish _)
  | unmap => exact ⟨_, .unmap hm', rfl⟩

/-! ### Crashes -/

theorem Inv.rob_empty {c : Cfg O} {W : Nat} {s : St O} (h : Inv c W s) (hwr : c.hasWriter = true)
    {rob : Held O} {next : Nat} (hr : s.reorder = .recv rob next) (hc : s.reorderClosed = true) : rob = [] := by
  have hex := h.b.workersExited (Nat.le_trans (by omega) (h.b.reC hc))
  have hall := h.seen_all hwr hex
  have hd := (h.d hwr).reorder
  rw [hr] at hd
  obtain ⟨hi, hn⟩ := hd
  have hlen : s.seen.length = s.sent.length := by
    have := hall.length_eq
    simp at this
    exact this.symm
  have hle := hi.count
  -- every index below `next` was seen, and `next` was not: so `next` is the number of blocks
  have hge : s.sent.length ≤ next := by
    apply Nat.le_of_not_lt
    intro hlt
    have : next ∈ s.seen.map (·.1) := hall.mem_iff.1 (List.mem_range.2 hlt)
    obtain ⟨p, hp, hpe⟩ := List.mem_map.1 this
    rw [List.lookup_eq_none_iff] at hn
    have := hn p hp
    rw [bne_iff_ne] at this
    exact this hpe.symm
  exact List.length_eq_zero_iff.1 (by omega)

theorem completes {c : Cfg O} (hl : c.file.length < 2 ^ 63) (ht : Total c) {W : Nat} (hn : 0 < W) :
    ∀ (m : Nat) (s : St O), measure c s ≤ m → Reachable c W s →
      ∃ k s', Steps c k s s' ∧ s'.cancelled = s.cancelled ∧ (s'.crashed = true ∨ s'.main = .done) := by
  intro m
  induction m with
  | zero =>
    intro s hm hr
    have : (!s.crashed).toNat = 0 := by unfold measure at hm; omega
    refine ⟨0, s, .refl, rfl, Or.inl ?_⟩
    cases hc : s.crashed
    · rw [hc] at this; cases this
    · rfl
  | succ m ih =>
    intro s hm hr
    by_cases hc : s.crashed = true
    · exact ⟨0, s, .refl, rfl, Or.inl hc⟩
    · by_cases hd : s.main = .done
      · exact ⟨0, s, .refl, rfl, Or.inr hd⟩
      · have hc : s.crashed = false := by simpa using hc
        obtain ⟨s1, h1, h2⟩ := moves hl ht hn (hr.inv hl) (hr.winv hl) hd
        have hs : Step c s s1 := ⟨hc, h1⟩
        have := measure_step hl (hr.inv hl).a hs
        obtain ⟨k, s', h3, h4, h5⟩ := ih s1 (by omega) (hr.step hs)
        refine ⟨k + 1, s', ?_, h4.trans h2, h5⟩
        clear h4 h5 ih
        induction h3 with
        | refl => exact .step .refl hs
        | step _ h7 ih => exact .step (ih h1 h2 hs this) h7

/-- The only way to crash is for some part to panic. -/
theorem no_crash {c : Cfg O} (hl : c.file.length < 2 ^ 63) {W : Nat} {s s' : St O} (hI : Inv c W s)
    (hs : Step' c s s') (hc : s.crashed = false) {bs : List Block} (hsp : split c.file = .ok bs)
    (hw : ∀ b ∈ bs, c.work b ≠ .panic) (hwr : ∀ l, c.write l ≠ .panic) (hf : ∀ l, c.finish l ≠ .panic) :
    s'.crashed = false := by
  have hbf := ((split_iff _ hl _).1 hsp).2
  obtain ⟨hi, p, hh, ha⟩ := hI.a
  cases hs with
  | loadPanic hm hlt hz =>
    rw [hm] at ha
    have ha : s.pos = p := ha
    obtain ⟨b, p', hn, _⟩ := hh.next_ok hl hbf (by omega)
    rw [ha] at hz
    unfold nextBlock at hn
    rw [hz] at hn
    cases hn
  | headerPanic hm hz =>
    rw [hm] at ha
    obtain ⟨h1, h2, h3⟩ := ha
    obtain ⟨b, p', hn, _⟩ := hh.next_ok hl hbf h2
    rw [h1] at hz
    unfold nextBlock at hn
    rw [h3] at hn
    simp only [Res.ok_bind] at hn
    rw [hz] at hn
    cases hn
  | dataPanic hm hz =>
    rw [hm] at ha
    obtain ⟨size, h1, h2, h3, h4⟩ := ha
    obtain ⟨b, p', hn, _⟩ := hh.next_ok hl hbf h1
    rw [h4, hi] at hz
    unfold nextBlock at hn
    rw [h2] at hn
    simp only [Res.ok_bind] at hn
    rw [h3] at hn
    simp only [Res.ok_bind] at hn
    rw [hz] at hn
    cases hn
  | @workPanic b t l1 l2 hw' hk =>
    have hm : (⟨.busy b, t⟩ : Worker O) ∈ s.workers := by rw [hw']; exact mem_middle
    have := hI.taken hm rfl
    exact absurd hk (hw _ ((hh.prefix hl hsp).mem this))
  | reorderPanic hr hcl hz =>
    have hwt : c.hasWriter = true := by
      cases hc : c.hasWriter
      · have := (hI.b.noWriter hc).1; rw [hr] at this; cases this
      · rfl
    have := hI.rob_empty hwt hr hcl
    rw [this] at hz
    exact absurd rfl hz
  | writePanic _ hk => exact absurd hk (hwr _)
  | writerExitPanic _ _ hk => exact absurd hk (hf _)
  | _ => exact hc

end Osm.Pbf
