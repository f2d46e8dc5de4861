import Verif.Lemmas.Fs
import Verif.Lemmas.TwoFile

/-! # Which files a program changes -/

namespace Osm

/-- The file an operation is about. -/
def FsOp.file : FsOp → String
  | .create f => f
  | .write f _ => f
  | .rewind f => f
  | .advance f _ => f
  | .remove f => f

theorem FsOp.run_other (op : FsOp) (fs : FS) (g : String) (h : g ≠ op.file) : op.run fs g = fs g := by
  cases op <;> exact set_other _ _ h

theorem runOps_other (ops : List FsOp) (g : String) : ∀ (fs : FS), (∀ op ∈ ops, g ≠ op.file) → runOps ops fs g = fs g := by
  induction ops with
  | nil => intro fs _; rfl
  | cons op ops ih =>
    intro fs h
    rw [runOps_cons, ih _ (fun o ho => h o (List.mem_cons_of_mem _ ho)), FsOp.run_other _ _ _ (h op List.mem_cons_self)]

/-- All operations are on files in `S`. -/
def Touches {α : Type} (S : String → Prop) (p : Prog α) : Prop := ∀ fs, ∀ op ∈ (p fs).1, S op.file

theorem Touches.crash {α : Type} {S : String → Prop} {p : Prog α} (h : Touches S p) (fs fs' : FS)
    (hc : CrashState (p fs).1 fs fs') (g : String) (hg : ¬ S g) : fs' g = fs g := by
  obtain ⟨done, rest, hs, hc⟩ := hc
  have key : ∀ op ∈ (p fs).1, g ≠ op.file := fun op ho e => hg (e ▸ h fs op ho)
  have hdone : runOps done fs g = fs g := runOps_other _ _ _ fun op ho => key op (by rw [hs]; exact List.mem_append_left _ ho)
  rcases hc with hc | ⟨f, bs, more, k, h1, hc⟩
  · rw [hc, hdone]
  · have hf : g ≠ f := key (.write f bs) (by rw [hs, h1]; simp)
    rw [hc, FsOp.run_other _ _ _ hf, hdone]

theorem Touches.exec {α : Type} {S : String → Prop} {p : Prog α} (h : Touches S p) {fs fs' : FS} {a : α}
    (he : p.exec fs = .ok (a, fs')) (g : String) (hg : ¬ S g) : fs' g = fs g := by
  refine h.crash fs fs' ?_ g hg
  unfold Prog.exec at he
  rcases hp : p fs with ⟨ops, r⟩
  rw [hp] at he
  cases r with
  | ok b => cases he; exact ⟨ops, [], by simp, Or.inl rfl⟩
  | panic => cases he
  | hang => cases he

theorem touches_mono {α : Type} {S T : String → Prop} {p : Prog α} (h : Touches S p) (hst : ∀ f, S f → T f) :
    Touches T p := fun fs op ho => hst _ (h fs op ho)

theorem touches_pure {α : Type} (S : String → Prop) (a : α) : Touches S (Prog.pure a) := fun _ _ h => by cases h
theorem touches_pure' {α : Type} (S : String → Prop) (a : α) : Touches S (Pure.pure a : Prog α) := fun _ _ h => by cases h
theorem touches_lift {α : Type} (S : String → Prop) (r : Res α) : Touches S (Prog.lift r) := fun _ _ h => by cases h
theorem touches_rest (S : String → Prop) (f : String) : Touches S (Prog.rest f) := fun _ _ h => by cases h
theorem touches_OsOpen (S : String → Prop) (f : String) : Touches S (OsOpen f) := fun _ _ h => by cases h
theorem touches_MMapMap (S : String → Prop) (f : String) : Touches S (MMapMap f) := fun _ _ h => by cases h

theorem touches_emit {S : String → Prop} {op : FsOp} (h : S op.file) : Touches S (Prog.emit op) := by
  intro _ o ho
  have : o = op := by simpa [Prog.emit] using ho
  rw [this]; exact h

theorem touches_bind {α β : Type} {S : String → Prop} {p : Prog α} {f : α → Prog β} (hp : Touches S p)
    (hf : ∀ a, Touches S (f a)) : Touches S (p >>= f) := by
  intro fs op ho
  rw [Prog.bind_eq] at ho
  unfold Prog.bind at ho
  have h0 := hp fs
  rcases hpf : p fs with ⟨ops, r⟩
  rw [hpf] at ho h0
  cases r with
  | ok a =>
    rcases List.mem_append.1 ho with ho | ho
    · exact h0 _ ho
    · exact hf a _ _ ho
  | panic => exact h0 _ ho
  | hang => exact h0 _ ho

theorem touches_OsRemove {S : String → Prop} {f : String} (h : S f) : Touches S (OsRemove f) :=
  touches_bind (touches_OsOpen _ _) fun _ => touches_emit h

theorem touches_copyLoop {S : String → Prop} {dst src : String} (hd : S dst) (hs : S src) (sched : Nat → Nat)
    (cancelled : Nat → Bool) : ∀ fuel k, Touches S (copyLoop dst src sched cancelled fuel k) := by
  intro fuel
  induction fuel with
  | zero => intro k; exact touches_lift _ _
  | succ fuel ih =>
    intro k
    unfold copyLoop
    split
    · exact touches_pure _ _
    · refine touches_bind (touches_rest _ _) fun r => touches_bind (touches_emit hs) fun _ =>
        touches_bind (touches_emit hd) fun _ => ?_
      split
      · exact touches_pure _ _
      · exact ih _

theorem touches_copyAll {S : String → Prop} {dst src : String} (hd : S dst) (hs : S src) (sched : Nat → Nat)
    (cancelled : Nat → Bool) : Touches S (copyAll dst src sched cancelled) :=
  touches_bind (touches_rest _ _) fun _ => touches_copyLoop hd hs _ _ _ _

theorem touches_twoFile {α : Type} {S : String → Prop} {out : String} (h1 : S out) (h2 : S (out ++ ".loc.tmp"))
    (sched : Nat → Nat) (cancelled : Nat → Bool) {L : Prog α} (hL : Touches S L) :
    Touches S (twoFile out sched cancelled L) :=
  touches_bind (touches_emit h1) fun _ => touches_bind (touches_emit h2) fun _ => touches_bind (touches_emit h1) fun _ =>
    touches_bind hL fun _ => touches_bind (touches_emit h2) fun _ => touches_bind (touches_copyAll h1 h2 _ _) fun _ =>
    touches_bind (touches_OsRemove h2) fun _ => touches_bind (touches_emit h1) fun _ => touches_pure _ _

theorem touches_withHeader {α : Type} {S : String → Prop} {out : String} (h1 : S out) {p : Prog α} (hp : Touches S p)
    (h : α → List UInt8) : Touches S (withHeader out p h) :=
  touches_bind hp fun _ => touches_emit h1

end Osm
