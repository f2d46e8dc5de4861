import Verif.Lemmas.Pbf
import Verif.Lemmas.Reorder

namespace Osm.Pbf
open Osm Osm.Spec Osm.Pb Osm.T

/-! ### Reading -/

/-- The blocks `bs` have been read from the start of the file, and the next one is at `p`. -/
inductive Handed (file : List UInt8) : List Block → Nat → Prop where
  | nil : Handed file [] 0
  | snoc {bs p b p'} : Handed file bs p → p < file.length → nextBlock file p bs.length = .ok (b, p') →
      Handed file (bs ++ [b]) p'

theorem Handed.le {file : List UInt8} (hl : file.length < 2 ^ 63) {bs : List Block} {p : Nat}
    (h : Handed file bs p) : p ≤ file.length := by
  induction h with
  | nil => omega
  | snoc _ hp hn _ => exact (nextBlock_progress (by omega) hl hn).2

theorem drop_behind {file header data rest : List UInt8} {p : Nat}
    (hd : file.drop p = be32 (UInt32.ofNat header.length) ++ header ++ data ++ rest) :
    file.drop (p + 4 + header.length + data.length) = rest := by
  rw [Nat.add_assoc, Nat.add_assoc, ← List.drop_drop, hd]
  rw [show be32 (UInt32.ofNat header.length) ++ header ++ data ++ rest
    = (be32 (UInt32.ofNat header.length) ++ (header ++ data)) ++ rest by simp]
  rw [List.drop_left' (by simp [be32_length])]

theorem Handed.blockFile {file : List UInt8} (hl : file.length < 2 ^ 63) {bs : List Block} {p : Nat}
    (h : Handed file bs p) : ∀ rest, BlockFile bs.length (file.drop p) rest → BlockFile 0 file (bs ++ rest) := by
  induction h with
  | nil => intro rest hr; simpa using hr
  | snoc h1 hp hn ih =>
    intro rest hr
    obtain ⟨header, data, tail, kind, size, hd, hh, hrd, hk, hsz, rfl, rfl⟩ := (nextBlock_ok (by omega) hl).1 hn
    rw [List.append_assoc]
    apply ih
    rw [hd]
    refine .cons _ header data tail kind size rest hh hrd hk hsz ?_
    rw [drop_behind hd, List.length_append, List.length_singleton] at hr
    exact hr

theorem Handed.rest {file : List UInt8} (hl : file.length < 2 ^ 63) {bs : List Block} {p : Nat}
    (h : Handed file bs p) : ∀ all, BlockFile 0 file all →
      ∃ rest, all = bs ++ rest ∧ BlockFile bs.length (file.drop p) rest := by
  induction h with
  | nil => intro all ha; exact ⟨all, rfl, by simpa using ha⟩
  | @snoc bs p b p' h1 hp hn ih =>
    intro all ha
    obtain ⟨rest, rfl, hr⟩ := ih all ha
    generalize hf : file.drop p = f at hr
    cases hr with
    | nil =>
      have := congrArg List.length hf
      simp only [List.length_drop, List.length_nil] at this
      omega
    | cons _ header data tail kind size rest hh hrd hk hsz htail =>
      have := (nextBlock_ok (i := bs.length) (by omega) hl).2
        ⟨header, data, tail, kind, size, hf, hh, hrd, hk, hsz, rfl, rfl⟩
      rw [hn] at this
      cases this
      refine ⟨rest, by simp, ?_⟩
      rw [drop_behind hf, List.length_append, List.length_singleton]
      exact htail

theorem Handed.next_ok {file : List UInt8} (hl : file.length < 2 ^ 63) {bs : List Block} {p : Nat}
    (h : Handed file bs p) {all : List Block} (ha : BlockFile 0 file all) (hp : p < file.length) :
    ∃ b p', nextBlock file p bs.length = .ok (b, p') ∧ bs ++ [b] <+: all := by
  obtain ⟨rest, rfl, hr⟩ := h.rest hl all ha
  generalize hf : file.drop p = f at hr
  cases hr with
  | nil =>
    have := congrArg List.length hf
    simp only [List.length_drop, List.length_nil] at this
    omega
  | cons _ header data tail kind size rest hh hrd hk hsz htail =>
    refine ⟨_, _, (nextBlock_ok (i := bs.length) (by omega) hl).2
        ⟨header, data, tail, kind, size, hf, hh, hrd, hk, hsz, rfl, rfl⟩, ?_⟩
    rw [List.prefix_append_right_inj]
    simp

theorem Handed.all {file : List UInt8} (hl : file.length < 2 ^ 63) (hne : file ≠ []) {bs : List Block}
    (h : Handed file bs file.length) : split file = .ok bs := by
  rw [split_iff file hl]
  refine ⟨hne, ?_⟩
  have := h.blockFile hl [] (by rw [List.drop_length]; exact .nil _)
  simpa using this

theorem Handed.prefix {file : List UInt8} (hl : file.length < 2 ^ 63) {bs : List Block} {p : Nat}
    (h : Handed file bs p) {all : List Block} (ha : split file = .ok all) : bs <+: all := by
  rw [split_iff file hl] at ha
  obtain ⟨rest, rfl, _⟩ := h.rest hl all ha.2
  exact List.prefix_append _ _

theorem Handed.index {file : List UInt8} (hl : file.length < 2 ^ 63) {bs : List Block} {p : Nat}
    (h : Handed file bs p) : ∀ (i : Nat) (b : Block), bs[i]? = some b → b.Index = i := by
  induction h with
  | nil => intro i b h; simp at h
  | @snoc bs p b p' h1 hp hn ih =>
    intro i b' hi
    rw [List.getElem?_append] at hi
    split at hi
    · exact ih i b' hi
    · next hlt =>
      obtain ⟨header, data, tail, kind, size, hd, hh, hrd, hk, hsz, rfl, rfl⟩ := (nextBlock_ok (by omega) hl).1 hn
      have : i - bs.length = 0 := by
        rcases Nat.eq_zero_or_pos (i - bs.length) with h0 | h0
        · exact h0
        · rw [List.getElem?_eq_none (by simp; omega)] at hi; cases hi
      rw [this] at hi
      simp at hi
      subst hi
      dsimp only
      omega

variable {O : Type}

/-- Where the reader is. -/
def AtMain (c : Cfg O) (s : St O) (p : Nat) : Main → Prop
  | .load => s.pos = p
  | .header size => s.pos = p + 4 ∧ p < c.file.length ∧ headerSize c.file p = .ok size
  | .data bh => ∃ size, p < c.file.length ∧ headerSize c.file p = .ok size ∧
      readHeader c.file (p + 4) size = .ok bh ∧ s.pos = p + 4 + size
  | .send b size => p < c.file.length ∧ nextBlock c.file p s.sent.length = .ok (b, s.pos + size) ∧
      p ≤ s.pos
  | _ => (p = c.file.length ∧ s.pos = p) ∨ (s.cancelled = true ∧ s.pos ≤ c.file.length)

/-- The reader's invariant. -/
def AInv (c : Cfg O) (s : St O) : Prop :=
  s.index = s.sent.length ∧ ∃ p, Handed c.file s.sent p ∧ AtMain c s p s.main

theorem AInv.init (c : Cfg O) (n : Nat) : AInv c (St.init c n) := ⟨rfl, 0, .nil, rfl⟩

theorem AInv.pos_le {c : Cfg O} {s : St O} (hl : c.file.length < 2 ^ 63) (h : AInv c s) :
    s.pos ≤ c.file.length := by
  obtain ⟨hi, p, hh, ha⟩ := h
  have hp := hh.le hl
  cases hm : s.main with
  | load => rw [hm] at ha; unfold AtMain at ha; omega
  | header size =>
    rw [hm] at ha; unfold AtMain at ha
    obtain ⟨rest, hd, _⟩ := headerSize_ok.1 ha.2.2
    have := congrArg List.length hd
    simp only [List.length_drop, List.length_append, be32_length] at this
    omega
  | data bh =>
    rw [hm] at ha; unfold AtMain at ha
    obtain ⟨size, h1, h2, h3, h4⟩ := ha
    obtain ⟨rest, hd, hs⟩ := headerSize_ok.1 h2
    have := congrArg List.length hd
    simp only [List.length_drop, List.length_append, be32_length] at this
    obtain ⟨header, rest', hd', rfl, _⟩ := (readHeader_ok (by omega) hl hs).1 h3
    have := congrArg List.length hd'
    simp only [List.length_drop, List.length_append] at this
    omega
  | send b size =>
    rw [hm] at ha; unfold AtMain at ha
    have := (nextBlock_progress hp hl ha.2.1).2
    dsimp only at this
    omega
  | closeIn | waitWorkers | closeReorder | waitReorder | closeOut | waitWriter | unmap | done =>
    rw [hm] at ha; unfold AtMain at ha; omega

theorem AInv.step {c : Cfg O} {s s' : St O} (hl : c.file.length < 2 ^ 63) (h : AInv c s)
    (hs : Step' c s s') : AInv c s' := by
  have hpos := h.pos_le hl
  obtain ⟨hi, p, hh, ha⟩ := h
  have hp := hh.le hl
  cases hs with
  | cancel _ =>
    refine ⟨hi, p, hh, ?_⟩
    dsimp only
    cases hm : s.main <;> rw [hm] at ha <;> unfold AtMain at ha ⊢ <;> try exact ha
    all_goals exact Or.inr ⟨rfl, hpos⟩
  | load hm hlt hz =>
    rw [hm] at ha
    have ha : s.pos = p := ha
    subst ha
    exact ⟨hi, s.pos, hh, rfl, hlt, hz⟩
  | loadEnd hm hlt =>
    rw [hm] at ha
    have ha : s.pos = p := ha
    refine ⟨hi, p, hh, Or.inl ⟨by omega, ha⟩⟩
  | header hm hz =>
    rw [hm] at ha
    obtain ⟨h1, h2, h3⟩ := ha
    rw [h1] at hz
    exact ⟨hi, p, hh, _, h2, h3, hz, by dsimp only; omega⟩
  | data hm hz =>
    rw [hm] at ha
    obtain ⟨size, h1, h2, h3, h4⟩ := ha
    refine ⟨hi, p, hh, h1, ?_, by dsimp only; omega⟩
    unfold nextBlock
    rw [h2]
    simp only [Res.ok_bind]
    rw [h3]
    simp only [Res.ok_bind]
    rw [← h4, ← hi, hz]
    rfl
  | handOver hm hw =>
    rw [hm] at ha
    obtain ⟨h1, h2, h3⟩ := ha
    exact ⟨by simp [hi], _, .snoc hh h1 h2, rfl⟩
  | abort hm hc => exact ⟨hi, p, hh, Or.inr ⟨hc, hpos⟩⟩
  | closeIn hm => rw [hm] at ha; exact ⟨hi, p, hh, ha⟩
  | workersDone hm _ =>
    rw [hm] at ha
    refine ⟨hi, p, hh, ?_⟩
    dsimp only
    split <;> exact ha
  | closeReorder hm => rw [hm] at ha; exact ⟨hi, p, hh, ha⟩
  | reorderDone hm _ => rw [hm] at ha; exact ⟨hi, p, hh, ha⟩
  | closeOut hm => rw [hm] at ha; exact ⟨hi, p, hh, ha⟩
  | writerDone hm _ => rw [hm] at ha; exact ⟨hi, p, hh, ha⟩
  | unmap hm => rw [hm] at ha; exact ⟨hi, p, hh, ha⟩
  | loadPanic | headerPanic | dataPanic | work | workPanic | workerExit | toReorder | popSome | popNone
  | toWriter | reorderExit | reorderPanic | write | writePanic | writerExit | writerExitPanic =>
    refine ⟨hi, p, hh, ?_⟩
    dsimp only
    cases hm : s.main <;> rw [hm] at ha <;> exact ha

/-! ### Shutdown -/

/-- How far the shutdown has got. -/
def rank : Main → Nat
  | .load | .header _ | .data _ | .send _ _ => 0
  | .closeIn => 1
  | .waitWorkers => 2
  | .closeReorder => 3
  | .waitReorder => 4
  | .closeOut => 5
  | .waitWriter => 6
  | .unmap => 7
  | .done => 8

/-- The shutdown's invariant. -/
structure BInv (c : Cfg O) (n : Nat) (s : St O) : Prop where
  count : s.workers.length = n
  inC : s.inClosed = true ↔ 2 ≤ rank s.main
  reC : s.reorderClosed = true → 4 ≤ rank s.main
  reC' : c.hasWriter = true → 4 ≤ rank s.main → s.reorderClosed = true
  outC : s.outClosed = true → 6 ≤ rank s.main
  outC' : c.hasWriter = true → 6 ≤ rank s.main → s.outClosed = true
  mapped : s.mapped = false ↔ rank s.main = 8
  workersExited : 3 ≤ rank s.main → ∀ w ∈ s.workers, w.pc = .exited
  exitedWorkers : ∀ w ∈ s.workers, w.pc = .exited → 2 ≤ rank s.main
  reorderExited : c.hasWriter = true → 5 ≤ rank s.main → s.reorder = .exited
  exitedReorder : c.hasWriter = true → s.reorder = .exited → 4 ≤ rank s.main
  writerExited : c.hasWriter = true → 7 ≤ rank s.main → s.writer = .exited
  exitedWriter : c.hasWriter = true → s.writer = .exited → 6 ≤ rank s.main
  noWriter : c.hasWriter = false → s.reorder = .exited ∧ s.writer = .exited ∧
    (rank s.main ≤ 2 ∨ 7 ≤ rank s.main)

theorem BInv.init (c : Cfg O) (n : Nat) : BInv c n (St.init c n) where
  count := by simp [St.init]
  inC := by simp [St.init, rank]
  reC := by simp [St.init]
  reC' := by simp [St.init, rank]
  outC := by simp [St.init]
  outC' := by simp [St.init, rank]
  mapped := by simp [St.init, rank]
  workersExited := by simp [St.init, rank]
  exitedWorkers := by
    intro w hw h
    simp only [St.init, List.mem_replicate] at hw
    rw [hw.2] at h
    cases h
  reorderExited := by simp [St.init, rank]
  exitedReorder := by intro h1 h2; simp [St.init, h1] at h2
  writerExited := by simp [St.init, rank]
  exitedWriter := by intro h1 h2; simp [St.init, h1] at h2
  noWriter := by intro h; simp [St.init, h, rank]

theorem mem_replace {α : Type} {l1 l2 : List α} {a b w : α} (h : w ∈ l1 ++ b :: l2) :
    w = b ∨ w ∈ l1 ++ a :: l2 := by
  simp only [List.mem_append, List.mem_cons] at h ⊢
  rcases h with h | h | h
  · exact Or.inr (Or.inl h)
  · exact Or.inl h
  · exact Or.inr (Or.inr (Or.inr h))

theorem mem_middle {α : Type} {l1 l2 : List α} {a : α} : a ∈ l1 ++ a :: l2 := by simp

theorem BInv.step {c : Cfg O} {n : Nat} {s s' : St O} (h : BInv c n s) (hs : Step' c s s') : BInv c n s' := by
  obtain ⟨h1, h2, h3, h4, h5, h6, h7, h8, h9, h10, h11, h12, h13, h14⟩ := h
  cases hs with
  | load hm _ _ | loadEnd hm _ | header hm _ | data hm _ | abort hm _ | closeIn hm | closeReorder hm
  | reorderDone hm _ | closeOut hm | writerDone hm _ | unmap hm =>
    rw [hm] at h2 h3 h4 h5 h6 h7 h8 h9 h10 h11 h12 h13 h14
    simp only [rank] at h2 h3 h4 h5 h6 h7 h8 h9 h10 h11 h12 h13 h14
    constructor <;> dsimp only [rank] <;> grind
  | workersDone hm hw =>
    rw [hm] at h2 h3 h4 h5 h6 h7 h8 h9 h10 h11 h12 h13 h14
    simp only [rank] at h2 h3 h4 h5 h6 h7 h8 h9 h10 h11 h12 h13 h14
    cases hc : c.hasWriter
    · rw [if_neg (by simp)]
      constructor <;> dsimp only [rank] <;> grind
    · rw [if_pos rfl]
      constructor <;> dsimp only [rank] <;> grind
  | handOver hm hw =>
    rw [hm] at h2 h3 h4 h5 h6 h7 h8 h9 h10 h11 h12 h13 h14
    rw [hw] at h1 h8 h9
    simp only [rank] at h2 h3 h4 h5 h6 h7 h8 h9 h10 h11 h12 h13 h14
    constructor <;> dsimp only [rank] <;> grind
  | cancel | loadPanic | headerPanic | dataPanic | workPanic | popSome | popNone
  | toWriter | reorderExit | reorderPanic | write | writePanic | writerExit | writerExitPanic =>
    constructor <;> dsimp only <;> grind
  | work hw _ | workerExit hw _ | toReorder hw _ =>
    rw [hw] at h1 h8 h9
    have hlt : ¬ 3 ≤ rank s.main := fun h => by
      have := h8 h _ mem_middle
      simp at this
    constructor <;> dsimp only <;> grind

end Osm.Pbf
