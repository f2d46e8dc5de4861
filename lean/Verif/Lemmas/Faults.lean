import Verif.Model.Faults
import Verif.Lemmas.Alongside
import Verif.Lemmas.Interrupt
import Verif.Lemmas.Iio
import Verif.Lemmas.Repeat

/-! # Runs in which the operating system reports errors -/

namespace Osm

/-! ## Crash states -/

theorem crash_start (ops : List FsOp) (fs : FS) : CrashState ops fs fs := ⟨[], ops, rfl, Or.inl rfl⟩

theorem crash_cons {op : FsOp} {ops : List FsOp} {fs fs' : FS} (h : CrashState ops (op.run fs) fs') :
    CrashState (op :: ops) fs fs' := by
  obtain ⟨done, rest, rfl, h⟩ := h
  refine ⟨op :: done, rest, rfl, ?_⟩
  rw [runOps_cons]
  exact h

theorem crash_failing (op : FsOp) (ops : List FsOp) (k : Nat) (fs : FS) : CrashState (op :: ops) fs (op.failing k fs) := by
  cases op with
  | write f bs => exact ⟨[], _, rfl, Or.inr ⟨f, bs, ops, k, rfl, rfl⟩⟩
  | create f => exact crash_start _ _
  | rewind f => exact crash_start _ _
  | advance f n => exact crash_start _ _
  | remove f => exact crash_start _ _

namespace Code

/-! ## Answers -/

theorem denote_emit {α : Type} (op : FsOp) (next : Code α) (fs : FS) :
    (emit op next).denote fs = (op :: (next.denote (op.run fs)).1, (next.denote (op.run fs)).2) := rfl

theorem under_ok {α : Type} (answers : Nat → Answer) (c : Code α) : ∀ (i : Nat) (fs : FS),
    (∀ j, i ≤ j → j < i + c.accesses fs → answers j = .done) →
    c.under answers i fs = ((c.denote fs).2, runOps (c.denote fs).1 fs) := by
  induction c with
  | done r => intro i fs _; rfl
  | emit op next ih =>
    intro i fs h
    unfold accesses at h
    have h0 := h i (Nat.le_refl _) (by omega)
    unfold under
    rw [h0]
    dsimp only
    rw [ih (i + 1) (op.run fs) fun j h1 h2 => h j (by omega) (by omega), denote_emit, runOps_cons]
  | ask f next ih =>
    intro i fs h
    unfold accesses at h
    have h0 := h i (Nat.le_refl _) (by omega)
    unfold under
    rw [h0]
    dsimp only
    rw [ih (fs f) (i + 1) fs fun j h1 h2 => h j (by omega) (by omega)]
    rfl

theorem under_error {α : Type} (answers : Nat → Answer) (c : Code α) : ∀ (i : Nat) (fs : FS),
    (∃ j, i ≤ j ∧ j < i + c.accesses fs ∧ answers j ≠ .done) →
    (c.under answers i fs).1 = .panic ∧ CrashState (c.denote fs).1 fs (c.under answers i fs).2 := by
  induction c with
  | done r =>
    rintro i fs ⟨j, h1, h2, _⟩
    unfold accesses at h2
    omega
  | emit op next ih =>
    rintro i fs ⟨j, h1, h2, h3⟩
    unfold accesses at h2
    unfold under
    cases ha : answers i with
    | done =>
      have hne : j ≠ i := by rintro rfl; exact h3 ha
      obtain ⟨e1, e2⟩ := ih (i + 1) (op.run fs) ⟨j, by omega, by omega, h3⟩
      exact ⟨e1, crash_cons e2⟩
    | error k => exact ⟨rfl, crash_failing _ _ _ _⟩
  | ask f next ih =>
    rintro i fs ⟨j, h1, h2, h3⟩
    unfold accesses at h2
    unfold under
    cases ha : answers i with
    | done =>
      have hne : j ≠ i := by rintro rfl; exact h3 ha
      obtain ⟨e1, e2⟩ := ih (fs f) (i + 1) fs ⟨j, by omega, by omega, h3⟩
      exact ⟨e1, e2⟩
    | error k => exact ⟨rfl, crash_start _ _⟩

/-! ## Full disks -/

/-- How many bytes are written by one operation. -/
def _root_.Osm.FsOp.bytes : FsOp → Nat
  | .write _ bs => bs.length
  | _ => 0

/-- How many bytes are written. -/
def _root_.Osm.bytesWritten (ops : List FsOp) : Nat := (ops.map FsOp.bytes).sum

theorem _root_.Osm.bytesWritten_cons (op : FsOp) (ops : List FsOp) : bytesWritten (op :: ops) = op.bytes + bytesWritten ops := rfl

theorem onDisk_emit {α : Type} (op : FsOp) (next : Code α) (room : Nat) (fs : FS) :
    (emit op next).onDisk room fs =
      if op.bytes ≤ room then next.onDisk (room - op.bytes) (op.run fs) else (.panic, op.failing room fs) := by
  cases op with
  | write f bs => rfl
  | create f => exact (if_pos (Nat.zero_le _)).symm
  | rewind f => exact (if_pos (Nat.zero_le _)).symm
  | advance f n => exact (if_pos (Nat.zero_le _)).symm
  | remove f => exact (if_pos (Nat.zero_le _)).symm

theorem onDisk_spec {α : Type} (c : Code α) : ∀ (room : Nat) (fs : FS),
    (bytesWritten (c.denote fs).1 ≤ room → c.onDisk room fs = ((c.denote fs).2, runOps (c.denote fs).1 fs)) ∧
    (room < bytesWritten (c.denote fs).1 → (c.onDisk room fs).1 = .panic ∧
      CrashState (c.denote fs).1 fs (c.onDisk room fs).2) := by
  induction c with
  | done r =>
    intro room fs
    exact ⟨fun _ => rfl, fun h => absurd h (Nat.not_lt_zero _)⟩
  | emit op next ih =>
    intro room fs
    rw [onDisk_emit, denote_emit]
    dsimp only
    rw [bytesWritten_cons, runOps_cons]
    obtain ⟨h1, h2⟩ := ih (room - op.bytes) (op.run fs)
    by_cases hr : op.bytes ≤ room
    · rw [if_pos hr]
      refine ⟨fun h => h1 (by omega), fun h => ?_⟩
      obtain ⟨e1, e2⟩ := h2 (by omega)
      exact ⟨e1, crash_cons e2⟩
    · rw [if_neg hr]
      exact ⟨fun h => by omega, fun _ => ⟨rfl, crash_failing _ _ _ _⟩⟩
  | ask f next ih =>
    intro room fs
    exact ih (fs f) room fs

/-- A program which only writes to the end of a file. -/
theorem onDisk_writes {α : Type} (f : String) (c : Code α) : ∀ (room : Nat) (fs : FS) (d : List UInt8) (ps : List (List UInt8)),
    fs f = some ⟨d, d.length⟩ → (c.denote fs).1 = ps.map (.write f) → room < ps.flatten.length →
    ∃ pos, (c.onDisk room fs).2 f = some ⟨d ++ ps.flatten.take room, pos⟩ := by
  induction c with
  | done r =>
    intro room fs d ps _ h hl
    cases ps with
    | nil => exact absurd hl (Nat.not_lt_zero _)
    | cons p ps => cases h
  | emit op next ih =>
    intro room fs d ps hf h hl
    rw [denote_emit] at h
    dsimp only at h
    cases ps with
    | nil => cases h
    | cons p ps =>
      rw [List.map_cons, List.cons.injEq] at h
      obtain ⟨rfl, h⟩ := h
      rw [onDisk_emit]
      have hrun : (FsOp.write f p).run fs f = some ⟨d ++ p, (d ++ p).length⟩ := by
        simp only [FsOp.run, set_same, hf, Option.map_some]
        rw [write_end]
      rw [List.flatten_cons] at hl ⊢
      rw [List.length_append] at hl
      by_cases hr : p.length ≤ room
      · rw [FsOp.bytes, if_pos hr]
        obtain ⟨pos, e⟩ := ih (room - p.length) _ (d ++ p) ps hrun h (by omega)
        refine ⟨pos, ?_⟩
        rw [e, List.append_assoc]
        have : (p ++ ps.flatten).take room = p ++ ps.flatten.take (room - p.length) := by
          rw [List.take_append, List.take_of_length_le hr]
        rw [this]
      · rw [FsOp.bytes, if_neg hr]
        refine ⟨(d ++ p.take room).length, ?_⟩
        simp only [FsOp.failing, FsOp.run, set_same, hf, Option.map_some]
        rw [write_end, List.take_append_of_le_length (by omega)]
  | ask g next ih =>
    intro room fs d ps hf h hl
    exact ih (fs g) room fs d ps hf h hl

/-- A program which creates a file and then only writes to it. -/
theorem onDisk_created {α : Type} (f : String) (c : Code α) : ∀ (room : Nat) (fs : FS) (ps : List (List UInt8)),
    (c.denote fs).1 = .create f :: ps.map (.write f) → room < ps.flatten.length →
    ∃ pos, (c.onDisk room fs).2 f = some ⟨ps.flatten.take room, pos⟩ := by
  induction c with
  | done r => intro room fs ps h; cases h
  | emit op next ih =>
    intro room fs ps h hl
    rw [denote_emit] at h
    dsimp only at h
    rw [List.cons.injEq] at h
    obtain ⟨rfl, h⟩ := h
    rw [onDisk_emit, if_pos (show (FsOp.create f).bytes ≤ room from Nat.zero_le _)]
    have := onDisk_writes f next (room - 0) _ [] ps (set_same _ _ _) h (by omega)
    exact this
  | ask g next ih =>
    intro room fs ps h hl
    exact ih (fs g) room fs ps h hl

end Code

/-! ## Programs that see only some files -/

/-- A program sees only the files it uses. -/
theorem coded_local {α : Type} {R W : String → Prop} {p : Prog α} (h : Coded R W p) (fs fs' : FS)
    (ha : ∀ f, R f ∨ W f → fs f = fs' f) : p fs = p fs' := by
  obtain ⟨c, rfl, hu⟩ := h
  exact c.local hu fs fs' ha

/-- Two runs end the same way, with files that are the same outside `S`. -/
def AlikeBut {α : Type} (S : String → Prop) : Res (α × FS) → Res (α × FS) → Prop :=
  Spec.Alike fun r s => r.1 = s.1 ∧ ∀ f, ¬ S f → r.2 f = s.2 f

theorem coded_alike {α : Type} {R W : String → Prop} {p : Prog α} (h : Coded R W p) {S : String → Prop} (fs fs' : FS)
    (ha : ∀ f, ¬ S f → fs f = fs' f) (hs : ∀ f, R f ∨ W f → ¬ S f) : AlikeBut S (p.exec fs) (p.exec fs') := by
  have he := coded_local h fs fs' fun f hf => ha f (hs f hf)
  unfold Prog.exec
  rw [he]
  rcases hp : p fs' with ⟨ops, r⟩
  cases r with
  | ok a => exact .ok _ _ ⟨rfl, fun f hf => runOps_same ops fs fs' (S := fun f => ¬ S f) ha f hf⟩
  | panic => exact .panic
  | hang => exact .hang

theorem alikeBut_bind {α β : Type} {S T : String → Prop} {x y : Res (α × FS)} (h : AlikeBut S x y)
    {f g : α × FS → Res (β × FS)}
    (hf : ∀ a fs fs', (∀ n, ¬ S n → fs n = fs' n) → AlikeBut T (f (a, fs)) (g (a, fs'))) : AlikeBut T (x >>= f) (y >>= g) := by
  cases h with
  | ok p q h =>
    obtain ⟨a, fs⟩ := p
    obtain ⟨b, fs'⟩ := q
    obtain ⟨h1, h2⟩ := h
    dsimp only at h1 h2
    subst h1
    exact hf a fs fs' h2
  | panic => exact .panic
  | hang => exact .hang

end Osm
