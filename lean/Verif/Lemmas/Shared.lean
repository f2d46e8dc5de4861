import Verif.Spec.Shared
import Verif.Lemmas.Pool
import Verif.Lemmas.Raw

/-! # Workers that share memory -/

namespace Osm.Shared
open Osm Osm.T Osm.Pbf Osm.Pool Osm.Spec

variable {O : Type}

/-! ## The pool -/

/-- What the pool sees of a source. -/
def srcPc : Src → Pc
  | .input s => .hold 0 (NonBorrowedBuffer (.input 0) s.bytes.length (s.bytes ++ s.spare).length)
  | .buffer bb => .hold (UInt64.ofNat bb.len) bb

/-- What the pool sees of a worker. -/
def pcOf : Task O → Pc
  | .none => .idle
  | .load _ _ size => .load (sizeOf size)
  | .store _ _ size => .store (sizeOf size)
  | .get _ _ size => .get (sizeOf size)
  | .check _ _ size buf => .check (sizeOf size) buf
  | .inflate _ bb _ _ _ => .hold (UInt64.ofNat bb.len) bb
  | .read _ src _ => srcPc src
  | .release src => srcPc src

/-- What the pool sees. -/
def toPool (s : St O) : Pool.St where
  defSize := s.defSize
  pool := s.pool
  fresh := s.fresh
  content := s.content
  procs := s.tasks.map pcOf
  crashed := false

theorem hold_borrow {buf : Buf} {sz : UInt64} {bb : BorrowedBuffer} (h : borrow buf sz = .ok bb) :
    Pc.hold (UInt64.ofNat bb.len) bb = .hold sz bb := by
  obtain ⟨_, rfl⟩ := borrow_ok h
  simp

/-- A step that does not panic is a step of the pool, or the pool does not notice. -/
theorem step_pool {c : Cmd O} {p : Cfg O} {s s' : St O} (hb : ∀ b bb left r st, .inflate b bb left r st ∈ s.tasks →
      bb.isBorrowed = true) (hs : Step c p s s') :
    s'.pipe.crashed = true ∨ toPool s' = toPool s ∨ ∃ who, Pool.Step (fun _ => True) who (toPool s) (toPool s') := by
  have mid : ∀ {k1 k2 : List (Task O)} {t}, s.tasks = k1 ++ t :: k2 →
      (toPool s).procs = k1.map pcOf ++ pcOf t :: k2.map pcOf := by
    intro k1 k2 t h
    simp [toPool, h]
  have fin : ∀ {s'' : St O} {who t}, Pool.Step (fun _ => True) who (toPool s) t → t = toPool s'' →
      s''.pipe.crashed = true ∨ toPool s'' = toPool s ∨
        ∃ who, Pool.Step (fun _ => True) who (toPool s) (toPool s'') := by
    rintro s'' who t h rfl
    exact .inr (.inr ⟨_, h⟩)
  cases hs with
  | pipe h => exact .inr (.inl rfl)
  | answer h1 h2 h3 h4 => exact .inr (.inl rfl)
  | answerPanic h1 h2 h3 h4 => exact .inl rfl
  | @raw l1 l2 b t k1 k2 sl h1 h2 h3 h4 =>
    exact fin (.wrap (k := 0) (len := sl.bytes.length) (cap := (sl.bytes ++ sl.spare).length) (mid h2))
      (by simp [toPool, pcOf, srcPc])
  | @call l1 l2 b t k1 k2 stream size h1 h2 h3 h4 =>
    exact fin (.call (sizeOf size) trivial (mid h2)) (by simp [toPool, pcOf])
  | @load k1 k2 b stream size h =>
    refine fin (.load (mid h)) ?_
    have e : pcOf (if larger (sizeOf size) s.defSize then .store b stream size else .get b stream size : Task O)
        = if larger (sizeOf size) (toPool s).defSize then .store (sizeOf size) else .get (sizeOf size) := by
      show pcOf (if larger (sizeOf size) s.defSize then _ else _) = if larger (sizeOf size) s.defSize then _ else _
      split <;> rfl
    rw [← e]
    simp [toPool]
  | store h => exact fin (.store (mid h)) (by simp [toPool, pcOf])
  | getPooled h hp => exact fin (.getPooled (s := toPool s) (mid h) hp) (by simp [toPool, pcOf])
  | getNew h hd => exact fin (.getNew (s := toPool s) (mid h) hd) (by simp [toPool, pcOf, Pool.alloc, St.alloc]; rfl)
  | getNewPanic h hd => exact .inl rfl
  | grow h h1 h2 =>
    refine fin (.grow (s := toPool s) (mid h) h1 h2) ?_
    rw [← hold_borrow h2]
    simp [toPool, pcOf, Pool.alloc, St.alloc]
    rfl
  | use h h1 h2 =>
    refine fin (.use (s := toPool s) (mid h) h1 h2) ?_
    rw [← hold_borrow h2]
    simp [toPool, pcOf]
  | usePanic h h1 h2 => exact .inl rfl
  | @chunkLast k1 k2 b bb left remaining start call n h _ _ _ _ =>
    refine fin (.write (s := toPool s) (filled (s.content bb.mem) left start n) (mid h)
      (hb _ _ _ _ _ (by rw [h]; exact mem_middle))) ?_
    simp [toPool, pcOf, srcPc, h]
  | @chunk k1 k2 b bb left remaining start call n h _ _ _ _ _ =>
    refine fin (.write (s := toPool s) (filled (s.content bb.mem) left start n) (mid h)
      (hb _ _ _ _ _ (by rw [h]; exact mem_middle))) ?_
    simp [toPool, pcOf, srcPc, h]
  | chunkPanic => exact .inl rfl
  | beyondPanic => exact .inl rfl
  | inflated h _ =>
    refine .inr (.inl ?_)
    simp [toPool, h, pcOf, srcPc]
  | byte h _ =>
    refine .inr (.inl ?_)
    simp [toPool, h, pcOf]
  | bytePanic h _ => exact .inl rfl
  | finish h1 h2 h3 =>
    refine .inr (.inl ?_)
    simp [toPool, h2, pcOf]
  | finishPanic h => exact .inl rfl
  | put h => exact fin (.put (s := toPool s) (mid h)) (by simp [toPool, pcOf])
  | putInput h => exact fin (.drop (s := toPool s) (mid h)) (by simp [toPool, pcOf])
  | drop h => exact fin (.drop (s := toPool s) (mid h)) (by simp [toPool, pcOf])
  | evict h => exact fin (.evict (s := toPool s) h) (by simp [toPool])

/-! ## What the workers have done so far -/

/-- The block a worker works on. -/
def Task.block : Task O → Option Block
  | .load b _ _ => some b
  | .store b _ _ => some b
  | .get b _ _ => some b
  | .check b _ _ _ => some b
  | .inflate b _ _ _ _ => some b
  | .read b _ _ => some b
  | _ => .none

/-- The raw data of a block, for some choice of the pooled buffer and of the chunks. -/
def Gives (c : Cmd O) (b : Block) (sched : Sched) (sl : Slice) : Prop :=
  c.direct b = none ∧ rawOf c.inflate sched b = .ok sl ∧ sched.pooled.length < 2 ^ 63

/-- What inflating has done so far: the run of the loop, with the calls of `Read` so far as they were, goes on like this. -/
def SoFar (c : Cmd O) (b : Block) (mem left : List UInt8) (remaining : Int) (start : Nat) (len : Nat) : Prop :=
  ∃ stream size pooled, ∃ past : Nat → ReadCall, ∃ m,
    c.start b = .zlib stream size ∧ 0 ≤ size.toInt ∧ len = size.toInt.toNat ∧ pooled.length < 2 ^ 63 ∧
    m < stream.length + 2 ∧
    ∀ calls : Nat → ReadCall, (∀ k, k < m → calls k = past k) →
      inflateLoop calls (stream.length + 2) 0 stream size.toInt 0 (poolBuffer pooled size.toInt.toNat) =
      inflateLoop calls (stream.length + 2 - m) m left remaining start mem

/-- What is true of a worker. -/
def TaskOk (c : Cmd O) (use : Block → Slice → Res O) (content : Mem → List UInt8) : Task O → Prop
  | .none => True
  | .load b stream size => c.start b = .zlib stream size
  | .store b stream size => c.start b = .zlib stream size
  | .get b stream size => c.start b = .zlib stream size
  | .check b stream size buf => c.start b = .zlib stream size ∧ (content buf.mem).length = buf.cap
  | .inflate b bb left remaining start =>
      bb.isBorrowed = true ∧ (content bb.mem).length = bb.cap ∧
      SoFar c b (content bb.mem) left remaining start bb.len
  | .read b (.buffer bb) rd => bb.isBorrowed = true ∧ (content bb.mem).length = bb.cap ∧
      ∃ sched sl, Gives c b sched sl ∧ sl.bytes ++ sl.spare = content bb.mem ∧ rd.run (content bb.mem) = use b sl
  | .read b (.input sl) rd =>
      (∀ pooled calls, pooled.length < 2 ^ 63 → Gives c b ⟨pooled, calls⟩ sl) ∧ rd.run (sl.bytes ++ sl.spare) = use b sl
  | .release (.buffer bb) => bb.isBorrowed = true ∧ (content bb.mem).length = bb.cap
  | .release (.input _) => True

theorem TaskOk.congr {c : Cmd O} {use : Block → Slice → Res O} {m m' : Mem → List UInt8} {t : Task O}
    (h : TaskOk c use m t) (he : ∀ x ∈ pcMem (pcOf t), m' x = m x) : TaskOk c use m' t := by
  cases t with
  | none => trivial
  | load => exact h
  | store => exact h
  | get => exact h
  | check b stream size buf =>
    refine ⟨h.1, ?_⟩
    rw [he _ (by simp [pcOf, pcMem])]
    exact h.2
  | inflate b bb left remaining start =>
    have := he bb.mem (by simp [pcOf, pcMem, h.1])
    unfold TaskOk at h ⊢
    dsimp only at h ⊢
    rw [this]
    exact h
  | read b src rd =>
    cases src with
    | input sl => exact h
    | buffer bb =>
      have := he bb.mem (by simp [pcOf, srcPc, pcMem, h.1])
      unfold TaskOk at h ⊢
      dsimp only at h ⊢
      rw [this]
      exact h
  | release src =>
    cases src with
    | input sl => exact h
    | buffer bb =>
      have := he bb.mem (by simp [pcOf, srcPc, pcMem, h.1])
      unfold TaskOk at h ⊢
      dsimp only at h ⊢
      rw [this]
      exact h

theorem start_zlib {c : Cmd O} {b : Block} {stream : List UInt8} {size : Int32} (h : c.start b = .zlib stream size) :
    c.direct b = none ∧ ∀ sched, rawOf c.inflate sched b =
      if size.toInt < 0 then .panic
      else inflateLoop sched.calls (stream.length + 2) 0 stream size.toInt 0 (poolBuffer sched.pooled size.toInt.toNat) >>=
        fun buf => Res.ok ⟨buf.take size.toInt.toNat, buf.drop size.toInt.toNat⟩ := by
  unfold Cmd.start at h
  split at h
  · cases h
  · next hd =>
    refine ⟨hd, fun sched => ?_⟩
    split at h
    · cases h
    · cases h
    · next blob hb =>
      split at h
      · cases h
      · next z e1 e2 =>
        split at h
        · next stream' size' e3 e4 =>
          cases h
          unfold rawOf
          rw [hb, Res.ok_bind]
          unfold GetRawData
          rw [e1, e2]
          dsimp only
          unfold decodeZLib
          rw [e3, e4]
        · cases h
      · cases h

theorem start_raw {c : Cmd O} {b : Block} {sl : Slice} (h : c.start b = .raw sl) (sched : Sched)
    (hs : sched.pooled.length < 2 ^ 63) : Gives c b sched sl := by
  unfold Cmd.start at h
  split at h
  · cases h
  · next hd =>
    refine ⟨hd, ?_, hs⟩
    split at h
    · cases h
    · cases h
    · next blob hb =>
      split at h
      · next r e1 =>
        cases h
        unfold rawOf
        rw [hb, Res.ok_bind]
        unfold GetRawData
        rw [e1]
      · split at h <;> cases h
      · cases h

theorem start_result {c : Cmd O} {use : Block → Slice → Res O} {b : Block} {r : Res O} (h : c.start b = .result r)
    (sched : Block → Sched) : c.work use sched b = r := by
  unfold Cmd.start at h
  unfold Cmd.work
  split at h
  · next r' e => cases h; rfl
  · next hd =>
    unfold rawOf
    split at h
    · next hb => cases h; rw [hb]; rfl
    · next hb => cases h; rw [hb]; rfl
    · next blob hb =>
      rw [hb, Res.ok_bind]
      unfold GetRawData
      split at h
      · cases h
      · next z e1 e2 =>
        split at h
        · cases h
        · next hno =>
          cases h
          rw [e1, e2]
          dsimp only
          unfold decodeZLib
          split
          · next stream size e3 e4 => exact absurd e4 (hno _ _ e3)
          · rfl
      · next e1 e2 =>
        cases h
        rw [e1, e2]
        rfl

theorem sizeOf_toInt (size : Int32) : (sizeOf size).toBitVec.toInt = size.toInt := by
  have : (sizeOf size).toBitVec.toInt = size.toInt64.toInt := rfl
  rw [this, Int32.toInt_toInt64]

theorem sizeOf_pos {size : Int32} (h : 0 ≤ size.toInt) : (sizeOf size).toNat = size.toInt.toNat := by
  have h1 := sizeOf_toInt size
  have h2 := BitVec.toInt_eq_toNat_cond (sizeOf size).toBitVec
  have h3 : (sizeOf size).toNat = (sizeOf size).toBitVec.toNat := rfl
  have := (sizeOf size).toBitVec.isLt
  split at h2 <;> omega

theorem sizeOf_neg {size : Int32} (h : size.toInt < 0) : 2 ^ 63 ≤ (sizeOf size).toNat := by
  have h1 := sizeOf_toInt size
  have h2 := BitVec.toInt_eq_toNat_cond (sizeOf size).toBitVec
  have h3 : (sizeOf size).toNat = (sizeOf size).toBitVec.toNat := rfl
  split at h2 <;> omega

/-- A worker that asks for a negative size. -/
def Big (t : Task O) : Prop :=
  ∃ b stream size, (t = .store b stream size ∨ t = .get b stream size ∨ ∃ buf, t = .check b stream size buf) ∧
    size.toInt < 0

structure Sound (c : Cmd O) (use : Block → Slice → Res O) (s : St O) : Prop where
  pool : Pool.Inv (toPool s)
  caps : ∀ buf ∈ s.pool, (s.content buf.mem).length = buf.cap
  tasks : ∀ t ∈ s.tasks, TaskOk c use s.content t
  busy : ∀ (i : Nat) (t : Task O) (b : Block), s.tasks[i]? = some t → t.block = some b → ∃ took, s.pipe.workers[i]? = some ⟨.busy b, took⟩
  big : ¬ s.defSize.toNat < 2 ^ 63 → ∃ t ∈ s.tasks, Big t

theorem pipe_busy {p : Cfg O} {s s' : Pbf.St O} (h : Step' (waiting p) s s') {i : Nat} {b : Block} {took : List Block}
    (hb : s.workers[i]? = some ⟨.busy b, took⟩) : s'.workers[i]? = some ⟨.busy b, took⟩ := by
  have swap : ∀ {l1 l2 : List (Worker O)} {w w' : Worker O}, s.workers = l1 ++ w :: l2 → (∀ b t, w ≠ ⟨.busy b, t⟩) →
      (l1 ++ w' :: l2)[i]? = some ⟨.busy b, took⟩ := by
    intro l1 l2 w w' e hw
    rw [e] at hb
    rw [List.getElem?_append] at hb ⊢
    split at hb
    · next hi => rw [if_pos hi]; exact hb
    · next hi =>
      rw [if_neg hi]
      cases hk : i - l1.length with
      | zero => rw [hk] at hb; simp at hb; exact absurd hb (hw _ _)
      | succ k => rw [hk] at hb; simpa using hb
  cases h with
  | handOver hm hw => exact swap hw (by simp)
  | work hw ho => cases ho
  | workPanic hw ho => cases ho
  | workerExit hw _ => exact swap hw (by simp)
  | toReorder hw _ => exact swap hw (by simp)
  | _ => exact hb

theorem getElem?_change {α : Type} {l1 l2 : List α} {a a' x : α} {i : Nat} (h : (l1 ++ a' :: l2)[i]? = some x) :
    (i = l1.length ∧ x = a') ∨ (i ≠ l1.length ∧ (l1 ++ a :: l2)[i]? = some x) := by
  rw [List.getElem?_append] at h ⊢
  split at h
  · next hi => rw [if_pos hi]; exact .inr ⟨by omega, h⟩
  · next hi =>
    rw [if_neg hi]
    cases hk : i - l1.length with
    | zero => rw [hk] at h; simp at h; exact .inl ⟨by omega, h.symm⟩
    | succ k => rw [hk] at h; exact .inr ⟨by omega, by simpa using h⟩

theorem getElem?_keep {α : Type} {l1 l2 : List α} {a a' x : α} {i : Nat} (hi : i ≠ l1.length)
    (h : (l1 ++ a :: l2)[i]? = some x) : (l1 ++ a' :: l2)[i]? = some x := by
  rcases getElem?_change (a := a') h with ⟨h1, _⟩ | ⟨_, h2⟩
  · exact absurd h1 hi
  · exact h2

theorem getElem?_mid {α : Type} (l1 l2 : List α) (a : α) : (l1 ++ a :: l2)[l1.length]? = some a := by simp

/-- A worker goes on; the pipeline and the memory of others do not change. -/
theorem Sound.change {c : Cmd O} {use : Block → Slice → Res O} {s : St O} (hi : Sound c use s) {k1 k2 : List (Task O)}
    {t t' : Task O} (ht : s.tasks = k1 ++ t :: k2) {s' : St O} (hp : Pool.Inv (toPool s')) (hpipe : s'.pipe = s.pipe)
    (ht' : s'.tasks = k1 ++ t' :: k2)
    (hpool : ∀ buf ∈ s'.pool, buf ∈ s.pool ∨ (s'.content buf.mem).length = buf.cap)
    (hsame : ∀ x, x ∈ s'.pool.map (·.mem) ∨ x ∈ (k1 ++ k2).flatMap (fun t => pcMem (pcOf t)) → s'.content x = s.content x)
    (hok : TaskOk c use s'.content t') (hblock : t'.block = none ∨ t'.block = t.block)
    (hbig : ¬ s'.defSize.toNat < 2 ^ 63 → Big t' ∨ (¬ s.defSize.toNat < 2 ^ 63 ∧ (Big t → Big t'))) : Sound c use s' where
  pool := hp
  caps := by
    intro buf hb
    rcases hpool buf hb with h | h
    · rw [hsame _ (.inl (List.mem_map.2 ⟨_, hb, rfl⟩))]
      exact hi.caps _ h
    · exact h
  tasks := by
    intro u hu
    rw [ht'] at hu
    rcases mem_replace (a := t) hu with rfl | hu'
    · exact hok
    · by_cases he : u = t'
      · rw [he]; exact hok
      · have hmem : u ∈ k1 ++ k2 := by
          simp only [List.mem_append, List.mem_cons] at hu ⊢
          rcases hu with h | h | h
          · exact .inl h
          · exact absurd h he
          · exact .inr h
        refine (hi.tasks u (by rw [ht]; simp only [List.mem_append, List.mem_cons] at hmem ⊢; rcases hmem with h | h
                               · exact .inl h
                               · exact .inr (.inr h))).congr ?_
        intro x hx
        exact hsame x (.inr (List.mem_flatMap.2 ⟨u, hmem, hx⟩))
  busy := by
    intro i u b hu hb
    rw [hpipe]
    rw [ht'] at hu
    rcases getElem?_change (a := t) hu with ⟨rfl, rfl⟩ | ⟨h1, h2⟩
    · rcases hblock with h | h
      · rw [h] at hb; cases hb
      · exact hi.busy k1.length t b (by rw [ht]; simp) (h ▸ hb)
    · exact hi.busy i u b (by rw [ht]; exact h2) hb
  big := by
    intro hd
    rw [ht']
    rcases hbig hd with h | ⟨h1, h2⟩
    · exact ⟨t', mem_middle, h⟩
    · obtain ⟨u, hu, hb⟩ := hi.big h1
      rw [ht] at hu
      simp only [List.mem_append, List.mem_cons] at hu
      rcases hu with h | rfl | h
      · exact ⟨u, by simp [h], hb⟩
      · exact ⟨t', mem_middle, h2 hb⟩
      · exact ⟨u, by simp [h], hb⟩

theorem owned {c : Cmd O} {use : Block → Slice → Res O} {s : St O} (hi : Sound c use s) {k1 k2 : List (Task O)}
    {t : Task O} (ht : s.tasks = k1 ++ t :: k2) :
    (pcMem (pcOf t) ++ (s.pool.map (·.mem) ++ (k1 ++ k2).flatMap (fun t => pcMem (pcOf t)))).Nodup ∧
    ∀ x ∈ pcMem (pcOf t) ++ (s.pool.map (·.mem) ++ (k1 ++ k2).flatMap (fun t => pcMem (pcOf t))), x ≠ .heap s.fresh := by
  have h := own_mid (toPool s) (k1.map pcOf) (k2.map pcOf) (pcOf t) (by simp [toPool, ht])
  have e : (k1.map pcOf ++ k2.map pcOf).flatMap pcMem = (k1 ++ k2).flatMap (fun t => pcMem (pcOf t)) := by
    rw [← List.map_append, List.flatMap_map]
  rw [e] at h
  refine ⟨h.nodup_iff.1 hi.pool.nodup, fun x hx he => ?_⟩
  obtain ⟨n, h1, h2⟩ := hi.pool.heap x (h.mem_iff.2 hx)
  rw [he] at h1
  cases h1
  exact Nat.lt_irrefl _ h2

/-- What a call of `Read` does to the loop. -/
theorem inflate_step (calls : Nat → ReadCall) (fuel k : Nat) (left : List UInt8) (remaining : Int) (start : Nat)
    (buf : List UInt8) (hr : remaining > 0) (hs : start ≤ buf.length) :
    inflateLoop calls (fuel + 1) k left remaining start buf =
      if remaining - (delivered (calls k) buf.length start left.length : Nat) = 0 then
        .ok (filled buf left start (delivered (calls k) buf.length start left.length))
      else if failed (calls k) (left.drop (delivered (calls k) buf.length start left.length))
          (delivered (calls k) buf.length start left.length) then .panic
      else inflateLoop calls fuel (k + 1) (left.drop (delivered (calls k) buf.length start left.length))
        (remaining - (delivered (calls k) buf.length start left.length : Nat))
        (start + delivered (calls k) buf.length start left.length)
        (filled buf left start (delivered (calls k) buf.length start left.length)) := by
  conv => lhs; unfold inflateLoop
  rw [if_pos hr, if_neg (by omega)]
  rfl

theorem filled_length (call : ReadCall) (buf left : List UInt8) (start : Nat) (hs : start ≤ buf.length) :
    (filled buf left start (delivered call buf.length start left.length)).length = buf.length := by
  unfold filled delivered
  simp only [List.length_append, List.length_take, List.length_drop]
  omega

/-- The calls so far, and one more. -/
def andThen (past : Nat → ReadCall) (m : Nat) (call : ReadCall) : Nat → ReadCall := fun k => if k = m then call else past k

theorem andThen_past {past : Nat → ReadCall} {m : Nat} {call : ReadCall} {calls : Nat → ReadCall}
    (h : ∀ k, k < m + 1 → calls k = andThen past m call k) : (∀ k, k < m → calls k = past k) ∧ calls m = call := by
  refine ⟨fun k hk => ?_, ?_⟩
  · rw [h k (by omega)]
    unfold andThen
    rw [if_neg (by omega)]
  · rw [h m (by omega)]
    unfold andThen
    rw [if_pos rfl]

/-- The loop never runs out of fuel. -/
theorem loop_ne_hang {c : Cmd O} {b : Block} {stream : List UInt8} {size : Int32} (h : c.start b = .zlib stream size)
    (hs : 0 ≤ size.toInt) (calls : Nat → ReadCall) (pooled : List UInt8) :
    inflateLoop calls (stream.length + 2) 0 stream size.toInt 0 (poolBuffer pooled size.toInt.toNat) ≠ .hang := by
  intro he
  have hb := poolBuffer_length pooled size.toInt.toNat
  by_cases h0 : size.toInt.toNat = 0
  · unfold inflateLoop at he
    rw [if_neg (by omega)] at he
    cases he
  · have e : ((size.toInt.toNat : Nat) : Int) = size.toInt := by omega
    obtain ⟨_, _, h3⟩ := inflateLoop_spec calls (stream.length + 2) 0 stream size.toInt.toNat 0
      (poolBuffer pooled size.toInt.toNat) (by omega) (by omega) (by omega)
    rw [e] at h3
    rcases h3 with h3 | ⟨buf', e1, _⟩
    · rw [h3] at he; cases he
    · rw [e1] at he; cases he

theorem SoFar.begin {c : Cmd O} {b : Block} {stream pooled : List UInt8} {size : Int32} (h : c.start b = .zlib stream size)
    (hs : 0 ≤ size.toInt) (hp : pooled.length < 2 ^ 63) :
    SoFar c b (poolBuffer pooled size.toInt.toNat) stream size.toInt 0 size.toInt.toNat :=
  ⟨stream, size, pooled, fun _ => ⟨0, false⟩, 0, h, hs, rfl, hp, by omega, fun _ _ => rfl⟩

theorem SoFar.fuel {stream : List UInt8} {m : Nat} (hm : m < stream.length + 2) :
    stream.length + 2 - m = (stream.length + 2 - (m + 1)) + 1 := by omega

theorem SoFar.step {c : Cmd O} {b : Block} {mem left : List UInt8} {remaining : Int} {start len : Nat}
    (h : SoFar c b mem left remaining start len) (call : ReadCall) (hr : remaining > 0) (hs : start ≤ mem.length)
    (h0 : remaining - (delivered call mem.length start left.length : Nat) ≠ 0)
    (hf : failed call (left.drop (delivered call mem.length start left.length))
      (delivered call mem.length start left.length) = false) :
    SoFar c b (filled mem left start (delivered call mem.length start left.length))
      (left.drop (delivered call mem.length start left.length))
      (remaining - (delivered call mem.length start left.length : Nat))
      (start + delivered call mem.length start left.length) len := by
  obtain ⟨stream, size, pooled, past, m, e1, e2, e3, e4, e5, e6⟩ := h
  have key : ∀ calls : Nat → ReadCall, (∀ k, k < m + 1 → calls k = andThen past m call k) →
      inflateLoop calls (stream.length + 2) 0 stream size.toInt 0 (poolBuffer pooled size.toInt.toNat) =
      inflateLoop calls (stream.length + 2 - (m + 1)) (m + 1) (left.drop (delivered call mem.length start left.length))
      (remaining - (delivered call mem.length start left.length : Nat))
      (start + delivered call mem.length start left.length)
      (filled mem left start (delivered call mem.length start left.length)) := by
    intro calls hc
    obtain ⟨c1, c2⟩ := andThen_past hc
    rw [e6 calls c1, SoFar.fuel e5, inflate_step _ _ _ _ _ _ _ hr hs, c2, if_neg h0, hf]
    rfl
  refine ⟨stream, size, pooled, andThen past m call, m + 1, e1, e2, e3, e4, ?_, key⟩
  apply Nat.lt_of_not_le
  intro hle
  have := key (andThen past m call) (fun _ _ => rfl)
  rw [show stream.length + 2 - (m + 1) = 0 by omega] at this
  exact loop_ne_hang e1 e2 _ _ this

/-- The loop has ended with `mem`. -/
theorem SoFar.ended {c : Cmd O} {b : Block} {stream pooled : List UInt8} {size : Int32} (h : c.start b = .zlib stream size)
    (hs : 0 ≤ size.toInt) (hp : pooled.length < 2 ^ 63) (calls : Nat → ReadCall) {mem : List UInt8}
    (hl : inflateLoop calls (stream.length + 2) 0 stream size.toInt 0 (poolBuffer pooled size.toInt.toNat) = .ok mem) :
    Gives c b ⟨pooled, calls⟩ ⟨mem.take size.toInt.toNat, mem.drop size.toInt.toNat⟩ := by
  obtain ⟨h1, h2⟩ := start_zlib h
  refine ⟨h1, ?_, hp⟩
  rw [h2, if_neg (by omega), hl]
  rfl

theorem SoFar.last {c : Cmd O} {b : Block} {mem left : List UInt8} {remaining : Int} {start len : Nat}
    (h : SoFar c b mem left remaining start len) (call : ReadCall) (hr : remaining > 0) (hs : start ≤ mem.length)
    (h0 : remaining - (delivered call mem.length start left.length : Nat) = 0) :
    ∃ sched, Gives c b sched ⟨(filled mem left start (delivered call mem.length start left.length)).take len,
      (filled mem left start (delivered call mem.length start left.length)).drop len⟩ := by
  obtain ⟨stream, size, pooled, past, m, e1, e2, rfl, e4, e5, e6⟩ := h
  refine ⟨⟨pooled, andThen past m call⟩, SoFar.ended e1 e2 e4 _ ?_⟩
  obtain ⟨c1, c2⟩ := andThen_past (past := past) (m := m) (call := call) (calls := andThen past m call) (fun _ _ => rfl)
  rw [e6 _ c1, SoFar.fuel e5, inflate_step _ _ _ _ _ _ _ hr hs, c2, if_pos h0]

theorem SoFar.done {c : Cmd O} {b : Block} {mem left : List UInt8} {remaining : Int} {start len : Nat}
    (h : SoFar c b mem left remaining start len) (hr : ¬ remaining > 0) :
    ∃ sched, Gives c b sched ⟨mem.take len, mem.drop len⟩ := by
  obtain ⟨stream, size, pooled, past, m, e1, e2, rfl, e4, e5, e6⟩ := h
  refine ⟨⟨pooled, past⟩, SoFar.ended e1 e2 e4 _ ?_⟩
  rw [e6 _ (fun _ _ => rfl), SoFar.fuel e5]
  unfold inflateLoop
  rw [if_neg hr]

theorem SoFar.fails {c : Cmd O} {b : Block} {mem left : List UInt8} {remaining : Int} {start len : Nat}
    (h : SoFar c b mem left remaining start len) (call : ReadCall) (hr : remaining > 0) (hs : start ≤ mem.length)
    (h0 : remaining - (delivered call mem.length start left.length : Nat) ≠ 0)
    (hf : failed call (left.drop (delivered call mem.length start left.length))
      (delivered call mem.length start left.length) = true) :
    c.direct b = none ∧ ∃ sched, rawOf c.inflate sched b = .panic ∧ sched.pooled.length < 2 ^ 63 := by
  obtain ⟨stream, size, pooled, past, m, e1, e2, rfl, e4, e5, e6⟩ := h
  obtain ⟨c1, c2⟩ := andThen_past (past := past) (m := m) (call := call) (calls := andThen past m call) (fun _ _ => rfl)
  obtain ⟨h1, h2⟩ := start_zlib e1
  refine ⟨h1, ⟨pooled, andThen past m call⟩, ?_, e4⟩
  rw [h2, if_neg (by omega), e6 _ c1, SoFar.fuel e5, inflate_step _ _ _ _ _ _ _ hr hs, c2, if_neg h0, hf]
  rfl

theorem SoFar.beyond {c : Cmd O} {b : Block} {mem left : List UInt8} {remaining : Int} {start len : Nat}
    (h : SoFar c b mem left remaining start len) (hr : remaining > 0) (hs : ¬ start ≤ mem.length) :
    c.direct b = none ∧ ∃ sched, rawOf c.inflate sched b = .panic ∧ sched.pooled.length < 2 ^ 63 := by
  obtain ⟨stream, size, pooled, past, m, e1, e2, rfl, e4, e5, e6⟩ := h
  obtain ⟨h1, h2⟩ := start_zlib e1
  refine ⟨h1, ⟨pooled, past⟩, ?_, e4⟩
  rw [h2, if_neg (by omega), e6 _ (fun _ _ => rfl), SoFar.fuel e5]
  unfold inflateLoop
  rw [if_pos hr, if_pos (by omega)]
  rfl

end Osm.Shared
