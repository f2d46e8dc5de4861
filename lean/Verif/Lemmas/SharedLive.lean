import Verif.Lemmas.SharedRef

/-! # Workers that share memory: they do not get stuck, and they end -/

namespace Osm.Shared
open Osm Osm.T Osm.Pbf Osm.Pool Osm.Spec

variable {O : Type}

/-- A step of the pipeline is one without work, or the work of a worker. -/
theorem not_waiting {c : Cfg O} {s s' : Pbf.St O} (h : Step' c s s') :
    Step' (waiting c) s s' ∨ ∃ w ∈ s.workers, ∃ b, w.pc = .busy b := by
  cases h with
  | cancel h => exact .inl (.cancel h)
  | load h1 h2 h3 => exact .inl (.load h1 h2 h3)
  | loadPanic h1 h2 h3 => exact .inl (.loadPanic h1 h2 h3)
  | loadEnd h1 h2 => exact .inl (.loadEnd h1 h2)
  | header h1 h2 => exact .inl (.header h1 h2)
  | headerPanic h1 h2 => exact .inl (.headerPanic h1 h2)
  | data h1 h2 => exact .inl (.data h1 h2)
  | dataPanic h1 h2 => exact .inl (.dataPanic h1 h2)
  | handOver h1 h2 => exact .inl (.handOver h1 h2)
  | abort h1 h2 => exact .inl (.abort h1 h2)
  | closeIn h1 => exact .inl (.closeIn h1)
  | workersDone h1 h2 => exact .inl (.workersDone (c := waiting c) h1 h2)
  | closeReorder h1 => exact .inl (.closeReorder h1)
  | reorderDone h1 h2 => exact .inl (.reorderDone h1 h2)
  | closeOut h1 => exact .inl (.closeOut h1)
  | writerDone h1 h2 => exact .inl (.writerDone h1 h2)
  | unmap h1 => exact .inl (.unmap h1)
  | work hw ho => exact .inr ⟨_, by rw [hw]; exact mem_middle, _, rfl⟩
  | workPanic hw ho => exact .inr ⟨_, by rw [hw]; exact mem_middle, _, rfl⟩
  | workerExit h1 h2 => exact .inl (.workerExit h1 h2)
  | toReorder h1 h2 => exact .inl (.toReorder h1 h2)
  | popSome h1 h2 => exact .inl (.popSome h1 h2)
  | popNone h1 h2 => exact .inl (.popNone h1 h2)
  | toWriter h1 h2 => exact .inl (.toWriter h1 h2)
  | reorderExit h1 h2 h3 => exact .inl (.reorderExit h1 h2 h3)
  | reorderPanic h1 h2 h3 => exact .inl (.reorderPanic h1 h2 h3)
  | write h1 h2 => exact .inl (.write h1 h2)
  | writePanic h1 h2 => exact .inl (.writePanic h1 h2)
  | writerExit h1 h2 h3 => exact .inl (.writerExit h1 h2 h3)
  | writerExitPanic h1 h2 h3 => exact .inl (.writerExitPanic h1 h2 h3)

theorem count_step {c : Cmd O} {p : Cfg O} {s s' : St O} (h : Step c p s s') : s'.tasks.length = s.tasks.length := by
  cases h with
  | raw _ h2 _ _ => simp [h2]
  | call _ h2 _ _ => simp [h2]
  | load h => simp [h]
  | store h => simp [h]
  | getPooled h _ => simp [h]
  | getNew h _ => simp [h]
  | grow h _ _ => simp [h]
  | use h _ _ => simp [h]
  | chunkLast _ _ h => simp [h]
  | chunk _ _ h => simp [h]
  | inflated h => simp [h]
  | byte h _ => simp [h]
  | finish _ h _ => simp [h]
  | put h => simp [h]
  | putInput h => simp [h]
  | drop h => simp [h]
  | _ => rfl

theorem count {c : Cmd O} {p : Cfg O} {W : Nat} {s : St O} (h : Reachable c p W s) : s.tasks.length = W := by
  induction h with
  | init => simp [init]
  | step _ _ hs ih => rw [count_step hs, ih]

/-- Whatever a worker is doing, it can go on. -/
theorem task_moves {c : Cmd O} {use : Block → Slice → Res O} {p : Cfg O} {s : St O} (hi : Sound c use s)
    {l1 l2 : List (Worker O)} {b : Block} {took : List Block} (hw : s.pipe.workers = l1 ++ ⟨.busy b, took⟩ :: l2)
    {k1 k2 : List (Task O)} {t : Task O} (ht : s.tasks = k1 ++ t :: k2) (hk : k1.length = l1.length)
    (hh : ∀ sched, Possible sched → c.work use sched b ≠ .hang) : ∃ s', Step c p s s' ∧ s'.pipe.cancelled = s.pipe.cancelled := by
  have hmem : t ∈ s.tasks := by rw [ht]; exact mem_middle
  have hblk : ∀ b', t.block = some b' → b' = b := by
    intro b' hb'
    obtain ⟨took', h⟩ := hi.busy k1.length t b' (by rw [ht]; simp) hb'
    rw [hw, hk, getElem?_mid] at h
    cases h
    rfl
  have hok := hi.tasks t hmem
  have some0 : Possible (fun _ => ⟨[], fun _ => ⟨0, false⟩⟩) := fun _ => Nat.two_pow_pos 63
  cases t with
  | none =>
    cases hst : c.start b with
    | result r =>
      cases r with
      | ok o => exact ⟨_, .answer hw ht hk hst, rfl⟩
      | panic => exact ⟨_, .answerPanic hw ht hk hst, rfl⟩
      | hang => exact absurd (start_result (use := use) hst _) (hh _ some0)
    | raw sl => exact ⟨_, .raw hw ht hk hst, rfl⟩
    | zlib stream size => exact ⟨_, .call hw ht hk hst, rfl⟩
  | load b' stream size => exact ⟨_, .load ht, rfl⟩
  | store b' stream size => exact ⟨_, .store ht, rfl⟩
  | get b' stream size =>
    by_cases hd : s.defSize.toNat < 2 ^ 63
    · exact ⟨_, .getNew ht hd, rfl⟩
    · exact ⟨_, .getNewPanic ht hd, rfl⟩
  | check b' stream size buf =>
    cases hs : tooSmall buf (sizeOf size) with
    | true =>
      refine ⟨_, .grow ht hs (bb := ⟨.heap s.fresh, (sizeOf size).toNat, (sizeOf size).toNat, true⟩) ?_, rfl⟩
      unfold borrow
      exact if_pos (Nat.le_refl _)
    | false =>
      by_cases hb : (sizeOf size).toNat ≤ buf.cap
      · refine ⟨_, .use ht hs (bb := ⟨buf.mem, (sizeOf size).toNat, buf.cap, true⟩) ?_, rfl⟩
        unfold borrow
        exact if_pos hb
      · refine ⟨_, .usePanic ht hs ?_, rfl⟩
        unfold borrow
        exact if_neg hb
  | inflate b' bb left remaining start =>
    by_cases hr : remaining > 0
    · by_cases hst : start ≤ (s.content bb.mem).length
      · by_cases h0 : remaining - (delivered ⟨0, false⟩ (s.content bb.mem).length start left.length : Nat) = 0
        · exact ⟨_, .chunkLast ⟨0, false⟩ _ ht hr hst rfl h0, rfl⟩
        · cases hf : failed ⟨0, false⟩ (left.drop (delivered ⟨0, false⟩ (s.content bb.mem).length start left.length))
              (delivered ⟨0, false⟩ (s.content bb.mem).length start left.length) with
          | true => exact ⟨_, .chunkPanic ⟨0, false⟩ _ ht hr hst rfl h0 hf, rfl⟩
          | false => exact ⟨_, .chunk ⟨0, false⟩ _ ht hr hst rfl h0 hf, rfl⟩
      · exact ⟨_, .beyondPanic ht hr hst, rfl⟩
    · exact ⟨_, .inflated ht hr, rfl⟩
  | read b' src rd =>
    have he := hblk b' rfl
    subst he
    cases rd with
    | byte i k =>
      cases hx : (s.bytes src)[i]? with
      | some x => exact ⟨_, .byte ht hx, rfl⟩
      | none => exact ⟨_, .bytePanic ht hx, rfl⟩
    | done r =>
      cases r with
      | ok o => exact ⟨_, .finish hw ht hk, rfl⟩
      | panic => exact ⟨_, .finishPanic ht, rfl⟩
      | hang =>
        obtain ⟨x, sl, e1, e2⟩ := hi.reading hmem
        refine absurd ?_ (hh _ (possible_set some0 b' e1.2.2))
        rw [work_gives use e1 _ (setSched_self _ _ _), ← e2]
        rfl
  | release src =>
    cases src with
    | input sl => exact ⟨_, .putInput ht, rfl⟩
    | buffer bb => exact ⟨_, .put ht, rfl⟩

theorem no_deadlock {c : Cmd O} {use : Block → Slice → Res O} (hc : Computes c use) {p : Cfg O}
    (hl : p.file.length < 2 ^ 63) (ht : ∀ sched, Possible sched → Total (atomically c use p sched)) {W : Nat} (hW : 0 < W)
    {s : St O} (h : Reachable c p W s) (hcr : s.pipe.crashed = false) (hd : s.pipe.main ≠ .done) :
    ∃ s', Step c p s s' ∧ s'.pipe.cancelled = s.pipe.cancelled := by
  obtain ⟨i1, i2⟩ := (refines hc hl h).1 hcr
  obtain ⟨sched, hp, hr, _⟩ := i2.explained
  have hI := hr.inv (c := atomically c use p sched) hl
  obtain ⟨s1, m1, m2⟩ := moves (c := atomically c use p sched) hl (ht sched hp) hW hI (hr.winv (c := atomically c use p sched) hl) hd
  rcases not_waiting m1 with m1 | ⟨w, hw, b, hb⟩
  · exact ⟨_, .pipe m1, m2⟩
  · obtain ⟨i, hlt, hget⟩ := List.getElem_of_mem hw
    obtain ⟨pc, took⟩ := w
    cases hb
    have hlen : i < s.tasks.length := by
      rw [count h]
      have := hI.b.count
      omega
    have e1 : s.pipe.workers = s.pipe.workers.take i ++ ⟨.busy b, took⟩ :: s.pipe.workers.drop (i + 1) := by
      rw [← hget, ← List.drop_eq_getElem_cons hlt, List.take_append_drop]
    have e2 : s.tasks = s.tasks.take i ++ s.tasks[i] :: s.tasks.drop (i + 1) := by
      rw [← List.drop_eq_getElem_cons hlen, List.take_append_drop]
    refine task_moves i1 e1 e2 (by simp; omega) ?_
    intro sched' hp'
    obtain ⟨_, q, hh, _⟩ := hI.a
    exact (ht sched' hp').work b (hh.fits hl b (hI.taken hw rfl)) fun _ hsp => (hh.prefix hl hsp).mem (hI.taken hw rfl)

/-! ## Every block is answered once -/

/-- The block a worker of the pipeline works on. -/
def blockOf (w : Worker O) : List Block :=
  match w.pc with
  | .busy b => [b]
  | _ => []

/-- The blocks handed out are those answered and those being worked on. -/
def Covers (s : St O) : Prop := (s.answers.map (·.1) ++ s.pipe.workers.flatMap blockOf).Perm s.pipe.sent

theorem covers_pipe {p : Cfg O} {s s' : Pbf.St O} (h : Step' (waiting p) s s') (l : List Block)
    (hc : (l ++ s.workers.flatMap blockOf).Perm s.sent) : (l ++ s'.workers.flatMap blockOf).Perm s'.sent := by
  have swap : ∀ {l1 l2 : List (Worker O)} {w w' : Worker O}, s.workers = l1 ++ w :: l2 → blockOf w' = blockOf w →
      (l ++ (l1 ++ w' :: l2).flatMap blockOf).Perm s.sent := by
    intro l1 l2 w w' e hw
    rw [e] at hc
    simpa [hw] using hc
  cases h with
  | @handOver b size l1 t l2 hm hw =>
    rw [hw] at hc
    dsimp only
    simp only [List.flatMap_append, List.flatMap_cons] at hc ⊢
    have e1 : blockOf (⟨.idle, t⟩ : Worker O) = [] := rfl
    have e2 : blockOf (⟨.busy b, t ++ [b]⟩ : Worker O) = [b] := rfl
    rw [e1, List.nil_append] at hc
    rw [e2]
    refine List.Perm.trans ?_ (hc.append_right [b])
    simp only [List.append_assoc]
    refine (List.Perm.refl l).append ((List.Perm.refl _).append ?_)
    exact List.perm_append_comm
  | work hw ho => cases ho
  | workPanic hw ho => cases ho
  | workerExit hw _ => exact swap hw rfl
  | toReorder hw _ => exact swap hw rfl
  | _ => exact hc

theorem covers_answer (p : Cfg O) {s : Pbf.St O} {l1 l2 : List (Worker O)} {b : Block} {t : List Block} {o : O}
    {ans : List (Block × O)} (hw : s.workers = l1 ++ ⟨.busy b, t⟩ :: l2)
    (hc : (ans.map (·.1) ++ s.workers.flatMap blockOf).Perm s.sent) :
    ((ans ++ [(b, o)]).map (·.1) ++ (answered p s l1 l2 b t o).workers.flatMap blockOf).Perm s.sent := by
  refine List.Perm.trans ?_ hc
  have e1 : blockOf (⟨.busy b, t⟩ : Worker O) = [b] := rfl
  have e2 : blockOf (⟨if p.hasWriter then .sending b.Index o else .idle, t⟩ : Worker O) = [] := by
    cases p.hasWriter <;> rfl
  unfold answered
  dsimp only
  rw [hw]
  simp only [List.flatMap_append, List.flatMap_cons, e1, e2, List.map_append, List.map_cons, List.map_nil,
    List.nil_append, List.append_assoc]
  refine (List.Perm.refl _).append ?_
  rw [← List.append_assoc, ← List.append_assoc]
  exact List.perm_append_comm.append (List.Perm.refl _)

theorem covers {c : Cmd O} {p : Cfg O} {W : Nat} {s : St O} (h : Reachable c p W s) : Covers s := by
  induction h with
  | init =>
    have : (List.replicate W (⟨.idle, []⟩ : Worker O)).flatMap blockOf = [] := by
      rw [List.flatMap_eq_nil_iff]
      intro w hw
      rw [(List.mem_replicate.1 hw).2]
      rfl
    unfold Covers init Pbf.St.init
    dsimp only
    rw [this]
    exact List.Perm.refl _
  | step _ _ hs ih =>
    cases hs with
    | pipe h => exact covers_pipe h _ ih
    | answer h1 _ _ _ => exact covers_answer p h1 ih
    | finish h1 _ _ => exact covers_answer p h1 ih
    | _ => exact ih

/-! ## Every run ends -/

/-- How far a worker is. -/
def phase : Task O → Nat
  | .release _ => 8
  | .none => 7
  | .load _ _ _ => 6
  | .store _ _ _ => 5
  | .get _ _ _ => 4
  | .check _ _ _ _ => 3
  | .inflate _ _ _ _ _ => 2
  | .read _ _ _ => 1

/-- How much a reader has still to read. -/
def depth (mem : List UInt8) : Reader O → Nat
  | .done _ => 0
  | .byte i k =>
    match mem[i]? with
    | some x => depth mem (k x) + 1
    | none => 1

/-- How much a worker has still to do in its phase. -/
def St.effort (s : St O) : Task O → Nat
  | .inflate _ _ left _ _ => left.length
  | .read _ src rd => depth (s.bytes src) rd
  | _ => 0

/-- The buffer is full, and more is to come: the loop would not end. -/
theorem stuck (calls : Nat → ReadCall) (left : List UInt8) (remaining : Int) (hr : remaining > 0) (hl : left ≠ [])
    (buf : List UInt8) : ∀ fuel k, inflateLoop calls fuel k left remaining buf.length buf = .hang := by
  intro fuel
  induction fuel with
  | zero => intro k; rfl
  | succ fuel ih =>
    intro k
    have h0 : delivered (calls k) buf.length buf.length left.length = 0 := by
      unfold delivered
      omega
    have hf : failed (calls k) (left.drop 0) 0 = false := by
      unfold failed
      cases left with
      | nil => exact absurd rfl hl
      | cons x xs => rfl
    rw [inflate_step _ _ _ _ _ _ _ hr (Nat.le_refl _), h0, if_neg (by omega), hf]
    have e : filled buf left buf.length 0 = buf := by
      unfold filled
      simp
    rw [e]
    simpa using ih (k + 1)

/-- Each call delivers something. -/
theorem SoFar.progress {c : Cmd O} {b : Block} {mem left : List UInt8} {remaining : Int} {start len : Nat}
    (h : SoFar c b mem left remaining start len) (call : ReadCall) (hr : remaining > 0) (hs : start ≤ mem.length)
    (hf : failed call (left.drop (delivered call mem.length start left.length))
      (delivered call mem.length start left.length) = false) :
    0 < delivered call mem.length start left.length ∧ delivered call mem.length start left.length ≤ left.length := by
  refine ⟨?_, by unfold delivered; omega⟩
  apply Nat.pos_of_ne_zero
  intro h0
  rw [h0] at hf
  have hne : left ≠ [] := by
    intro e
    rw [e] at hf
    simp [failed] at hf
  have hst : start = mem.length := by
    have : left.length ≠ 0 := by
      intro e
      exact hne (List.length_eq_zero_iff.1 e)
    unfold delivered at h0
    omega
  obtain ⟨stream, size, pooled, past, m, e1, e2, rfl, e4, e5, e6⟩ := h
  have := e6 past (fun _ _ => rfl)
  rw [hst, stuck _ _ _ hr hne] at this
  exact loop_ne_hang e1 e2 _ _ this

/-- The pipeline's share. -/
def outer (p : Cfg O) (s : St O) : Nat := Pbf.measure p s.pipe

/-- The workers' share. -/
def inner (s : St O) : Nat := (s.tasks.map phase).sum

/-- What is left within the phases. -/
def inmost (s : St O) : Nat := (s.tasks.map s.effort).sum + s.pool.length

/-- Less is left. -/
def Less (p : Cfg O) (s' s : St O) : Prop :=
  outer p s' < outer p s ∨ outer p s' = outer p s ∧ (inner s' < inner s ∨ inner s' = inner s ∧ inmost s' < inmost s)

theorem sum_mid (f : Task O → Nat) (k1 k2 : List (Task O)) (t : Task O) :
    ((k1 ++ t :: k2).map f).sum = (k1.map f).sum + f t + (k2.map f).sum := by
  simp [Nat.add_assoc]

theorem crash_less (p : Cfg O) {s : St O} (h : s.pipe.crashed = false) : Less p s.crash s := by
  refine .inl ?_
  unfold outer Pbf.measure St.crash
  dsimp only
  rw [h]
  simp

theorem answer_less {p : Cfg O} (hl : p.file.length < 2 ^ 63) {s s' : Pbf.St O} (ha : AInv p s) (hcr : s.crashed = false)
    {l1 l2 : List (Worker O)} {b : Block} {t : List Block} {o : O} (hw : s.workers = l1 ++ ⟨.busy b, t⟩ :: l2)
    (he : s' = answered p s l1 l2 b t o) : Pbf.measure p s' < Pbf.measure p s := by
  subst he
  exact measure_step (c := { p with work := fun _ => .ok o }) hl ha ⟨hcr, .work (c := { p with work := fun _ => .ok o }) hw rfl⟩

theorem effort_others {c : Cmd O} {use : Block → Slice → Res O} {s : St O} (hi : Sound c use s) {k1 k2 : List (Task O)}
    {t : Task O} (ht : s.tasks = k1 ++ t :: k2) {m : Mem} (hm : m ∈ pcMem (pcOf t)) {s' : St O}
    (hc : ∀ x, x ≠ m → s'.content x = s.content x) : ∀ u ∈ k1 ++ k2, s'.effort u = s.effort u := by
  intro u hu
  cases u with
  | read b src rd =>
    cases src with
    | input sl => rfl
    | buffer bb =>
      have hok := hi.tasks (.read b (.buffer bb) rd) (by
        rw [ht]; simp only [List.mem_append, List.mem_cons] at hu ⊢; rcases hu with h | h
        · exact .inl h
        · exact .inr (.inr h))
      have hown : bb.mem ∈ pcMem (pcOf (.read b (.buffer bb) rd : Task O)) := by simp [pcOf, srcPc, pcMem, hok.1]
      have hne : bb.mem ≠ m := by
        intro e
        exact (List.nodup_append.1 (owned hi ht).1).2.2 m hm bb.mem
          (List.mem_append.2 (.inr (List.mem_flatMap.2 ⟨_, hu, hown⟩))) e.symm
      simp only [St.effort, St.bytes]
      rw [hc _ hne]
  | _ => rfl

theorem step_less {c : Cmd O} {use : Block → Slice → Res O} {p : Cfg O} (hl : p.file.length < 2 ^ 63)
    {s s' : St O} (hi : Sound c use s) (ha : AInv p s.pipe) (hcr : s.pipe.crashed = false) (hs : Step c p s s') :
    Less p s' s := by
  have same : ∀ {k1 k2 : List (Task O)} {t : Task O}, s.tasks = k1 ++ t :: k2 → t ∈ s.tasks := by
    intro k1 k2 t h
    rw [h]; exact mem_middle
  have on : ∀ {k1 k2 : List (Task O)} {t t' : Task O} {s' : St O}, s.tasks = k1 ++ t :: k2 → s'.tasks = k1 ++ t' :: k2 →
      s'.pipe = s.pipe → phase t' < phase t → Less p s' s := by
    intro k1 k2 t t' s' h1 h2 h3 h4
    refine .inr ⟨by unfold outer; rw [h3], .inl ?_⟩
    unfold inner
    rw [h1, h2, sum_mid, sum_mid]
    omega
  cases hs with
  | pipe h => exact .inl (measure_step (c := waiting p) hl ha ⟨hcr, h⟩)
  | answer h1 h2 h3 h4 => exact .inl (answer_less hl ha hcr h1 rfl)
  | finish h1 h2 h3 => exact .inl (answer_less hl ha hcr h1 rfl)
  | answerPanic => exact crash_less p hcr
  | getNewPanic => exact crash_less p hcr
  | usePanic => exact crash_less p hcr
  | chunkPanic => exact crash_less p hcr
  | beyondPanic => exact crash_less p hcr
  | bytePanic => exact crash_less p hcr
  | finishPanic => exact crash_less p hcr
  | raw h1 h2 h3 h4 => exact on h2 rfl rfl (by simp [phase])
  | call h1 h2 h3 h4 => exact on h2 rfl rfl (by simp [phase])
  | load h =>
    refine on h rfl rfl ?_
    split <;> simp [phase]
  | store h => exact on h rfl rfl (by simp [phase])
  | getPooled h _ => exact on h rfl rfl (by simp [phase])
  | getNew h _ => exact on h rfl rfl (by simp [phase])
  | grow h _ _ => exact on h rfl rfl (by simp [phase])
  | use h _ _ => exact on h rfl rfl (by simp [phase])
  | chunkLast _ _ h => exact on h rfl rfl (by simp [phase])
  | inflated h => exact on h rfl rfl (by simp [phase])
  | put h => exact on h rfl rfl (by simp [phase])
  | putInput h => exact on h rfl rfl (by simp [phase])
  | drop h => exact on h rfl rfl (by simp [phase])
  | @chunk k1 k2 b bb left remaining start call n h hr hst hn h0 hf =>
    subst hn
    obtain ⟨t1, t2, t3⟩ := hi.tasks _ (same h)
    have hpr := t3.progress call hr hst hf
    refine .inr ⟨rfl, .inr ⟨?_, ?_⟩⟩
    · unfold inner
      rw [h]
      dsimp only
      rw [sum_mid, sum_mid]
      rfl
    · unfold inmost
      dsimp only
      rw [h, sum_mid, sum_mid]
      have hoth := effort_others hi h (m := bb.mem) (by simp [pcOf, pcMem, t1])
        (s' := { s with content := fun x => if x = bb.mem then filled (s.content bb.mem) left start (delivered call (s.content bb.mem).length start left.length) else s.content x,
                        tasks := k1 ++ .inflate b bb (left.drop (delivered call (s.content bb.mem).length start left.length)) (remaining - (delivered call (s.content bb.mem).length start left.length : Nat)) (start + delivered call (s.content bb.mem).length start left.length) :: k2 })
        (fun x hx => by dsimp only; exact if_neg hx)
      rw [List.map_congr_left (fun u hu => hoth u (List.mem_append.2 (.inl hu))),
        List.map_congr_left (fun u hu => hoth u (List.mem_append.2 (.inr hu)))]
      simp only [St.effort, List.length_drop]
      omega
  | @byte k1 k2 b src i k x h hx =>
    refine .inr ⟨rfl, .inr ⟨?_, ?_⟩⟩
    · unfold inner
      rw [h]
      dsimp only
      rw [sum_mid, sum_mid]
      rfl
    · unfold inmost
      dsimp only
      rw [h, sum_mid, sum_mid]
      have e : ∀ (t : List (Task O)), ({ s with tasks := t } : St O).effort = s.effort := by
        intro t
        funext u
        cases u with
        | read b src rd => cases src <;> rfl
        | _ => rfl
      simp only [e]
      have : s.effort (.read b src (k x)) + 1 = s.effort (.read b src (.byte i k)) := by
        simp only [St.effort]
        conv => rhs; unfold depth
        rw [hx]
      omega
  | @evict p1 p2 buf h =>
    refine .inr ⟨rfl, .inr ⟨rfl, ?_⟩⟩
    unfold inmost
    dsimp only
    have e : ∀ (q : List Buf), ({ s with pool := q } : St O).effort = s.effort := by
      intro q
      funext u
      cases u with
      | read b src rd => cases src <;> rfl
      | _ => rfl
    simp only [e]
    rw [h]
    simp

theorem less_wf (p : Cfg O) : WellFounded (Less p : St O → St O → Prop) := by
  refine Subrelation.wf (r := InvImage (Prod.Lex (· < ·) (Prod.Lex (· < ·) (· < ·)))
    (fun s : St O => (outer p s, inner s, inmost s))) ?_ (InvImage.wf _ (Prod.instWellFoundedRelation (ha := ⟨_, Nat.lt_wfRel.wf⟩) (hb := Prod.instWellFoundedRelation (ha := ⟨_, Nat.lt_wfRel.wf⟩) (hb := ⟨_, Nat.lt_wfRel.wf⟩))).wf)
  intro s' s h
  show Prod.Lex _ _ (outer p s', inner s', inmost s') (outer p s, inner s, inmost s)
  rcases h with h | ⟨h1, h | ⟨h2, h⟩⟩
  · exact .left _ _ h
  · rw [h1]; exact .right _ (.left _ _ h)
  · rw [h1, h2]; exact .right _ (.right _ h)

theorem Reachable.less {c : Cmd O} {use : Block → Slice → Res O} (hc : Computes c use) {p : Cfg O}
    (hl : p.file.length < 2 ^ 63) {W : Nat} {s s' : St O} (h : Reachable c p W s) (hcr : s.pipe.crashed = false)
    (hs : Step c p s s') : Less p s' s := by
  obtain ⟨i1, i2⟩ := (refines hc hl h).1 hcr
  obtain ⟨sched, hp, hr, _⟩ := i2.explained
  exact step_less hl i1 (hr.inv (c := atomically c use p sched) hl).a hcr hs

theorem ends {c : Cmd O} {use : Block → Slice → Res O} (hc : Computes c use) {p : Cfg O}
    (hl : p.file.length < 2 ^ 63) {W : Nat} (f : Nat → St O) (h0 : f 0 = init p W)
    (hf : ∀ n, (f n).pipe.crashed = false ∧ Step c p (f n) (f (n + 1))) : False := by
  have hr : ∀ n, Reachable c p W (f n) := by
    intro n
    induction n with
    | zero => rw [h0]; exact .init
    | succ n ih => exact .step ih (hf n).1 (hf n).2
  have : ∀ s, ∀ n, f n = s → False := by
    intro s
    refine (less_wf p).induction (C := fun s => ∀ n, f n = s → False) s ?_
    intro s ih n hn
    refine ih (f (n + 1)) ?_ (n + 1) rfl
    rw [← hn]
    exact (hr n).less hc hl (hf n).1 (hf n).2
  exact this _ 0 rfl

theorem completes {c : Cmd O} {use : Block → Slice → Res O} (hc : Computes c use) {p : Cfg O}
    (hl : p.file.length < 2 ^ 63) (ht : ∀ sched, Possible sched → Total (atomically c use p sched)) {W : Nat} (hW : 0 < W)
    (s : St O) : Reachable c p W s →
    ∃ s', Runs c p s s' ∧ s'.pipe.cancelled = s.pipe.cancelled ∧ (s'.pipe.crashed = true ∨ s'.pipe.main = .done) := by
  refine (less_wf p).induction (C := fun s => Reachable c p W s → ∃ s', Runs c p s s' ∧
    s'.pipe.cancelled = s.pipe.cancelled ∧ (s'.pipe.crashed = true ∨ s'.pipe.main = .done)) s ?_
  intro s ih hr
  cases hcr : s.pipe.crashed with
  | true => exact ⟨s, .refl, rfl, .inl hcr⟩
  | false =>
    by_cases hd : s.pipe.main = .done
    · exact ⟨s, .refl, rfl, .inr hd⟩
    · obtain ⟨s1, h1, h2⟩ := no_deadlock hc hl ht hW hr hcr hd
      obtain ⟨s', h3, h4, h5⟩ := ih s1 (hr.less hc hl hcr h1) (.step hr hcr h1)
      exact ⟨s', .step hcr h1 h3, h4.trans h2, h5⟩

end Osm.Shared
