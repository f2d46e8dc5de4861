import Verif.Model.Alongside
import Verif.Lemmas.Interrupt

/-! # Commands as trees of single operations -/

namespace Osm
open Osm.Code

theorem Code.denote_bind {α β : Type} (c : Code α) (g : α → Code β) :
    (c.bind g).denote = c.denote >>= fun a => (g a).denote := by
  induction c with
  | done r =>
    funext fs
    show _ = Prog.bind (Prog.lift r) _ fs
    unfold Prog.bind Prog.lift
    cases r with
    | ok a => simp [Code.bind, runOps]
    | panic => rfl
    | hang => rfl
  | emit op next ih =>
    funext fs
    show (op :: ((next.bind g).denote (op.run fs)).1, ((next.bind g).denote (op.run fs)).2) = Prog.bind _ _ fs
    have e : (Code.emit op next).denote fs = (op :: (next.denote (op.run fs)).1, (next.denote (op.run fs)).2) := rfl
    rw [ih]
    have e2 : (next.denote >>= fun a => (g a).denote) (op.run fs) = Prog.bind next.denote (fun a => (g a).denote) (op.run fs) := rfl
    rw [e2]
    unfold Prog.bind
    rw [e]
    rcases next.denote (op.run fs) with ⟨ops, r⟩
    cases r <;> rfl
  | ask f next ih =>
    funext fs
    show ((next (fs f)).bind g).denote fs = _
    rw [ih]
    rfl

/-- The program is a tree which looks at files in `R` only and changes files in `W` only. -/
def Coded {α : Type} (R W : String → Prop) (p : Prog α) : Prop := ∃ c : Code α, c.denote = p ∧ c.Uses R W

theorem Code.uses_bind {α β : Type} {R W : String → Prop} {g : α → Code β} (hg : ∀ a, (g a).Uses R W) (c : Code α)
    (h : c.Uses R W) : (c.bind g).Uses R W := by
  induction c with
  | done r => cases r with
    | ok a => exact hg a
    | panic => trivial
    | hang => trivial
  | emit op next ih => exact ⟨h.1, ih h.2⟩
  | ask f next ih => exact ⟨h.1, fun x => ih x (h.2 x)⟩

theorem Code.uses_mono {α : Type} {R W R' W' : String → Prop} (h1 : ∀ f, R f → R' f) (h2 : ∀ f, W f → W' f) (c : Code α)
    (h : c.Uses R W) : c.Uses R' W' := by
  induction c with
  | done r => trivial
  | emit op next ih => exact ⟨h2 _ h.1, ih h.2⟩
  | ask f next ih => exact ⟨h1 _ h.1, fun x => ih x (h.2 x)⟩

theorem coded_bind {α β : Type} {R W : String → Prop} {p : Prog α} {f : α → Prog β} (hp : Coded R W p)
    (hf : ∀ a, Coded R W (f a)) : Coded R W (p >>= f) := by
  obtain ⟨c, rfl, hc⟩ := hp
  refine ⟨c.bind fun a => Classical.choose (hf a), ?_, Code.uses_bind (fun a => (Classical.choose_spec (hf a)).2) c hc⟩
  rw [Code.denote_bind]
  congr 1
  funext a
  exact (Classical.choose_spec (hf a)).1

theorem coded_pure {α : Type} (R W : String → Prop) (a : α) : Coded R W (Prog.pure a) := ⟨.done (.ok a), rfl, trivial⟩
theorem coded_lift {α : Type} (R W : String → Prop) (r : Res α) : Coded R W (Prog.lift r) := ⟨.done r, rfl, trivial⟩

theorem coded_emit {R W : String → Prop} {op : FsOp} (h : W op.file) : Coded R W (Prog.emit op) :=
  ⟨.emit op (.done (.ok ())), rfl, by cases op <;> exact h, trivial⟩

theorem coded_rest {R W : String → Prop} {f : String} (h : R f) : Coded R W (Prog.rest f) :=
  ⟨.ask f fun x => .done (Res.ofOption (x.map fun x => x.data.drop x.pos)), rfl, h, fun _ => trivial⟩

theorem coded_OsOpen {R W : String → Prop} {f : String} (h : R f) : Coded R W (OsOpen f) :=
  ⟨.ask f fun x => .done (if x.isSome then .ok () else .panic), rfl, h, fun _ => trivial⟩

theorem coded_MMapMap {R W : String → Prop} {f : String} (h : R f) : Coded R W (MMapMap f) :=
  ⟨.ask f fun x => .done (match x with
    | none => .panic
    | some x => if x.data = [] then .panic else .ok x.data), rfl, h, fun _ => trivial⟩

theorem coded_OsRemove {R W : String → Prop} {f : String} (h1 : R f) (h2 : W f) : Coded R W (OsRemove f) :=
  coded_bind (coded_OsOpen h1) fun _ => coded_emit h2

theorem coded_copyLoop {R W : String → Prop} {dst src : String} (hr : R src) (hd : W dst) (hs : W src) (sched : Nat → Nat)
    (cancelled : Nat → Bool) : ∀ fuel k, Coded R W (copyLoop dst src sched cancelled fuel k) := by
  intro fuel
  induction fuel with
  | zero => intro k; exact coded_lift _ _ _
  | succ fuel ih =>
    intro k
    unfold copyLoop
    split
    · exact coded_pure _ _ _
    · refine coded_bind (coded_rest hr) fun r => coded_bind (coded_emit hs) fun _ =>
        coded_bind (coded_emit hd) fun _ => ?_
      split
      · exact coded_pure _ _ _
      · exact ih _

theorem coded_copyAll {R W : String → Prop} {dst src : String} (hr : R src) (hd : W dst) (hs : W src) (sched : Nat → Nat)
    (cancelled : Nat → Bool) : Coded R W (copyAll dst src sched cancelled) :=
  coded_bind (coded_rest hr) fun _ => coded_copyLoop hr hd hs _ _ _ _

theorem coded_twoFile {α : Type} {R W : String → Prop} {out : String} (hr : R (out ++ ".loc.tmp")) (h1 : W out)
    (h2 : W (out ++ ".loc.tmp")) (sched : Nat → Nat) (cancelled : Nat → Bool) {L : Prog α} (hL : Coded R W L) :
    Coded R W (twoFile out sched cancelled L) :=
  coded_bind (coded_emit h1) fun _ => coded_bind (coded_emit h2) fun _ => coded_bind (coded_emit h1) fun _ =>
    coded_bind hL fun _ => coded_bind (coded_emit h2) fun _ => coded_bind (coded_copyAll hr h1 h2 _ _) fun _ =>
    coded_bind (coded_OsRemove hr h2) fun _ => coded_bind (coded_emit h1) fun _ => coded_pure _ _ _

theorem coded_withHeader {α : Type} {R W : String → Prop} {out : String} (h1 : W out) {p : Prog α} (hp : Coded R W p)
    (h : α → List UInt8) : Coded R W (withHeader out p h) :=
  coded_bind hp fun _ => coded_emit h1

open Osm.T Osm.Pbf Osm.Interrupt

theorem coded_writeBlocks {R W : String → Prop} {f : String} (h : W f) : ∀ xs, Coded R W (Rewrite.writeBlocks f xs)
  | [] => coded_pure _ _ _
  | (_, _) :: xs => coded_bind (coded_emit h) fun _ => coded_bind (coded_emit h) fun _ => coded_writeBlocks h xs

theorem coded_output {R W : String → Prop} {f : String} (h : W f) (xs : List Rewrite.Out) :
    Coded R W (Rewrite.output f xs) := coded_bind (coded_emit h) fun _ => coded_writeBlocks h xs

theorem coded_writeLoop {R W : String → Prop} {f : String} (h : W f) : ∀ xs n, Coded R W (TagFilter.writeLoop f n xs)
  | [], _ => coded_pure _ _ _
  | (_, _) :: xs, n => by
    unfold TagFilter.writeLoop
    split
    · exact coded_writeLoop h xs _
    · exact coded_bind (coded_emit h) fun _ => coded_bind (coded_emit h) fun _ => coded_writeLoop h xs _

theorem coded_filterOutput {R W : String → Prop} {f : String} (h : W f) (xs : List Rewrite.Out) :
    Coded R W (TagFilter.output f xs) := coded_bind (coded_emit h) fun _ => coded_writeLoop h xs _

theorem coded_writeAll {R W : String → Prop} {f : String} (h : W f) : ∀ xs, Coded R W (writeAll f xs)
  | [] => coded_pure _ _ _
  | _ :: xs => coded_bind (coded_emit h) fun _ => coded_writeAll h xs

theorem coded_decompressOutput {R W : String → Prop} {f : String} (h : W f) (xs : List (List UInt8)) :
    Coded R W (decompressOutput f xs) := coded_bind (coded_emit h) fun _ => coded_writeAll h xs

theorem coded_nodeBatches {R W : String → Prop} {idx loc : String} (h1 : W idx) (h2 : W loc) :
    ∀ bs count last, Coded R W (NodeIndexer.writeBatches idx loc count last bs)
  | [], _, _ => coded_pure _ _ _
  | none :: bs, _, _ => coded_nodeBatches h1 h2 bs _ _
  | some _ :: bs, _, _ => coded_bind (coded_lift _ _ _) fun _ => coded_bind (coded_emit h1) fun _ =>
      coded_bind (coded_emit h2) fun _ => coded_nodeBatches h1 h2 bs _ _

theorem coded_nodeOutput {R W : String → Prop} {out : String} (hr : R (out ++ ".loc.tmp")) (h1 : W out)
    (h2 : W (out ++ ".loc.tmp")) (sched : Nat → Nat) (cancelled : Nat → Bool)
    (bs : List (Option NodeIndexer.ElementBatch)) : Coded R W (NodeIndexer.Output out sched cancelled bs) := by
  rw [NodeIndexer.output_shape]
  exact coded_withHeader h1 (coded_twoFile hr h1 h2 _ _ (coded_nodeBatches h1 h2 _ _ _)) _

theorem coded_wayBatches {R W : String → Prop} {idx loc : String} (h1 : W idx) (h2 : W loc) (shift : Int64) :
    ∀ bs count len, Coded R W (WayIndexer.writeBatches idx loc shift count len bs)
  | [], _, _ => coded_pure _ _ _
  | none :: bs, _, _ => coded_wayBatches h1 h2 shift bs _ _
  | some _ :: bs, _, _ => coded_bind (coded_lift _ _ _) fun _ => coded_bind (coded_emit h1) fun _ =>
      coded_bind (coded_emit h2) fun _ => coded_bind (coded_lift _ _ _) fun _ => coded_wayBatches h1 h2 shift bs _ _

theorem coded_wayOutput {R W : String → Prop} {out : String} (hr : R (out ++ ".loc.tmp")) (h1 : W out)
    (h2 : W (out ++ ".loc.tmp")) (shift : Int64) (sched : Nat → Nat) (cancelled : Nat → Bool)
    (bs : List (Option WayIndexer.IndexElement)) : Coded R W (WayIndexer.Output out shift sched cancelled bs) := by
  rw [WayIndexer.output_shape]
  exact coded_withHeader h1 (coded_twoFile hr h1 h2 _ _ (coded_wayBatches h1 h2 _ _ _ _)) _

theorem coded_relBlocks {R W : String → Prop} {f : String} (h : W f) : ∀ bs, Coded R W (RelIndex.writeBlocks f bs)
  | [] => coded_pure _ _ _
  | none :: bs => coded_relBlocks h bs
  | some _ :: bs => coded_bind (coded_emit h) fun _ => coded_relBlocks h bs

theorem coded_relLoop {R W : String → Prop} {f : String} (h : W f) (swi : WayIndex.SubIdx) (last : Bool) :
    ∀ fuel o u, Coded R W (RelIndex.rewriteLoop swi last f fuel o u)
  | 0, _, _ => coded_lift _ _ _
  | _ + 1, o, [] => by
    unfold RelIndex.rewriteLoop
    split
    · exact coded_emit h
    · exact coded_pure _ _ _
  | fuel + 1, o, w :: u => by
    unfold RelIndex.rewriteLoop
    refine coded_bind (coded_lift _ _ _) fun r => ?_
    dsimp only
    split
    · exact coded_bind (coded_emit h) fun _ => coded_relLoop h swi last fuel _ _
    · exact coded_relLoop h swi last fuel _ _

theorem coded_relRewrite {R W : String → Prop} {f inp : String} (hr : R inp) (h : W f) (ix : WayIndex.WayIdx)
    (pass count : Int64) : Coded R W (RelIndex.rewrite f inp ix pass count) :=
  coded_bind (coded_lift _ _ _) fun _ => coded_bind (coded_OsOpen hr) fun _ => coded_bind (coded_emit h) fun _ =>
    coded_bind (coded_MMapMap hr) fun _ => coded_relLoop h _ _ _ _ _

theorem coded_relPasses {R W : String → Prop} {out : String} {n : Nat} (hr : ∀ p, R (RelIndex.makePassFilename out p n))
    (h1 : W out) (h2 : ∀ p, W (RelIndex.makePassFilename out p n)) (ix : WayIndex.WayIdx) :
    ∀ left i, Coded R W (RelIndex.runPasses out ix n left i)
  | 0, _ => coded_pure _ _ _
  | left + 1, i => by
    unfold RelIndex.runPasses
    refine coded_bind (coded_relRewrite (hr _) ?_ _ _ _) fun _ => coded_bind (coded_emit (h2 _)) fun _ =>
      coded_relPasses hr h1 h2 ix left _
    split
    · exact h2 _
    · exact h1

theorem coded_relindex {R W : String → Prop} {out : String} {n : Nat} {wayIndex : String} (hw : R wayIndex)
    (hr : ∀ p, R (RelIndex.makePassFilename out p n)) (h1 : W out)
    (h2 : ∀ p, W (RelIndex.makePassFilename out p n)) (bs : List (Option (List Int64))) :
    Coded R W (RelIndex.relindex out wayIndex n bs) :=
  coded_bind (coded_bind (coded_emit (h2 _)) fun _ => coded_relBlocks (h2 _) _) fun _ =>
    coded_bind (coded_OsOpen hw) fun _ => coded_bind (coded_MMapMap hw) fun _ =>
    coded_bind (coded_lift _ _ _) fun _ => coded_relPasses hr h1 h2 _ _ _

theorem coded_process {α O : Type} {R W : String → Prop} (cut : Option Nat) (work : Block → Res O) {inp : String} (hr : R inp)
    {output : List O → Prog α} (h : ∀ xs, Coded R W (output xs)) : Coded R W (process cut work inp output) :=
  coded_bind (coded_OsOpen hr) fun _ => coded_bind (coded_MMapMap hr) fun _ =>
    coded_bind (coded_lift _ _ _) fun _ => coded_bind (coded_lift _ _ _) fun _ => h _

theorem coded_rewritePasses {R W : String → Prop} {inp out : String} {n : Nat} (hi : R inp)
    (hr : ∀ p, R (RelIndex.makePassFilename out p n)) (h1 : W out)
    (h2 : ∀ p, W (RelIndex.makePassFilename out p n)) (inflate : Inflate) (scheds : Nat → Block → Sched)
    (cuts : Nat → Option Nat) (ix : NodeIndex.NodeIdx) :
    ∀ left i, Coded R W (rewritePasses inflate scheds cuts ix inp out n left i)
  | 0, _ => coded_pure _ _ _
  | left + 1, i => by
    unfold rewritePasses
    refine coded_bind ?_ fun _ => coded_bind (coded_lift _ _ _) fun _ => coded_bind (coded_process _ _ ?_ fun xs =>
      coded_output ?_ xs) fun _ => coded_rewritePasses hi hr h1 h2 inflate scheds cuts ix left _
    · unfold Rewrite.removeOld
      split
      · exact coded_emit (h2 _)
      · exact coded_pure _ _ _
    · unfold Rewrite.passInput
      split
      · exact hr _
      · exact hi
    · unfold Rewrite.passOutput
      split
      · exact h2 _
      · exact h1

theorem coded_rewritenodes {R W : String → Prop} {inp index out : String} (hi : R inp) (hx : R index)
    (hr : ∀ p n, R (RelIndex.makePassFilename out p n)) (h1 : W out)
    (h2 : ∀ p n, W (RelIndex.makePassFilename out p n)) (inflate : Inflate) (scheds : Nat → Block → Sched)
    (cuts : Nat → Option Nat) (memory : Option UInt64) :
    Coded R W (rewritenodes inflate scheds cuts memory inp index out) := by
  refine coded_bind (coded_OsOpen hx) fun _ => coded_bind (coded_MMapMap hx) fun _ =>
    coded_bind (coded_lift _ _ _) fun _ => coded_bind (coded_lift _ _ _) fun _ =>
    coded_bind (coded_rewritePasses hi (fun p => hr p _) h1 (fun p => h2 p _) _ _ _ _ _ _) fun _ => ?_
  unfold Rewrite.removeLast
  split
  · exact coded_OsRemove (hr _ _) (h2 _ _)
  · exact coded_pure _ _ _

/-! ## Runs -/

/-- The file of an operation, as `Code.Uses` writes it. -/
theorem Code.uses_emit {α : Type} {R W : String → Prop} {op : FsOp} {next : Code α} (h : (Code.emit op next).Uses R W) :
    W op.file ∧ next.Uses R W := ⟨by have := h.1; cases op <;> exact this, h.2⟩

theorem run_same (op : FsOp) {fs fs' : FS} {S : String → Prop} (h : ∀ f, S f → fs f = fs' f) (f : String) (hf : S f) :
    op.run fs f = op.run fs' f := by
  by_cases e : f = op.file
  · subst e
    exact run_congr op (h _ hf)
  · rw [FsOp.run_other _ _ _ e, FsOp.run_other _ _ _ e]
    exact h f hf

/-- A program sees only the files it uses. -/
theorem Code.local {α : Type} {R W : String → Prop} (c : Code α) (h : c.Uses R W) : ∀ fs fs' : FS,
    (∀ f, R f ∨ W f → fs f = fs' f) → c.denote fs = c.denote fs' := by
  induction c with
  | done r => intro fs fs' _; rfl
  | emit op next ih =>
    intro fs fs' he
    show (op :: (next.denote (op.run fs)).1, (next.denote (op.run fs)).2) = _
    rw [ih h.2 (op.run fs) (op.run fs') (run_same op he)]
    rfl
  | ask f next ih =>
    intro fs fs' he
    show (next (fs f)).denote fs = (next (fs' f)).denote fs'
    rw [he f (Or.inl h.1)]
    exact ih _ (h.2 _) fs fs' he

theorem runOps_same {S : String → Prop} : ∀ (ops : List FsOp) (fs fs' : FS), (∀ f, S f → fs f = fs' f) →
    ∀ f, S f → runOps ops fs f = runOps ops fs' f
  | [], _, _, h => h
  | op :: ops, fs, fs', h => by
    intro f hf
    rw [runOps_cons, runOps_cons]
    exact runOps_same ops _ _ (run_same op h) f hf

/-- What a program has still to do, from anywhere in a run, gives what it gives alone. -/
theorem Code.Runs.same {α : Type} {R W : String → Prop} {c c' : Code α} {fs fs' : FS}
    (hr : Runs (fun f => R f ∨ W f) c fs c' fs') (h : c.Uses R W) : c'.Uses R W ∧
      (c'.denote fs').2 = (c.denote fs).2 ∧
      ∀ f, R f ∨ W f → runOps (c'.denote fs').1 fs' f = runOps (c.denote fs).1 fs f := by
  induction hr with
  | refl => exact ⟨h, rfl, fun _ _ => rfl⟩
  | move hm _ ih =>
    cases hm with
    | emit op next fs =>
      obtain ⟨h1, h2, h3⟩ := ih h.2
      exact ⟨h1, h2, h3⟩
    | ask f next fs => exact ih (h.2 _)
  | @others c c2 fs fs1 fs2 ho _ ih =>
    obtain ⟨h1, h2, h3⟩ := ih h
    have e : c.denote fs1 = c.denote fs := c.local h fs1 fs ho
    refine ⟨h1, by rw [h2, e], fun f hf => ?_⟩
    rw [h3 f hf, e]
    exact runOps_same _ _ _ ho f hf

/-- It can always be carried on to its end, by itself. -/
theorem Code.ends {α : Type} (files : String → Prop) (c : Code α) : ∀ fs, ∃ r fs', Runs files c fs (.done r) fs' := by
  induction c with
  | done r => exact fun fs => ⟨r, fs, .refl _ _⟩
  | emit op next ih =>
    intro fs
    obtain ⟨r, fs', h⟩ := ih (op.run fs)
    exact ⟨r, fs', .move (.emit _ _ _) h⟩
  | ask f next ih =>
    intro fs
    obtain ⟨r, fs', h⟩ := ih (fs f) fs
    exact ⟨r, fs', .move (.ask _ _ _) h⟩

/-- It performs only finitely many operations, whatever others do. -/
theorem Code.finite {α : Type} (c : Code α) : Acc (fun d c : Code α => ∃ fs fs', Move c fs d fs') c := by
  induction c with
  | done r => exact ⟨_, fun d ⟨fs, fs', h⟩ => by cases h⟩
  | emit op next ih => exact ⟨_, fun d ⟨fs, fs', h⟩ => by cases h; exact ih⟩
  | ask f next ih => exact ⟨_, fun d ⟨fs, fs', h⟩ => by cases h; exact ih _⟩

theorem Code.Move.files {α : Type} {R W : String → Prop} {c c' : Code α} {fs fs' : FS} (hm : Move c fs c' fs')
    (h : c.Uses R W) : c'.Uses R W ∧ ∀ f, ¬ W f → fs' f = fs f := by
  cases hm with
  | emit op next fs =>
    obtain ⟨h1, h2⟩ := Code.uses_emit h
    exact ⟨h2, fun f hf => FsOp.run_other _ _ _ fun e => hf (e ▸ h1)⟩
  | ask f next fs => exact ⟨h.2 _, fun _ _ => rfl⟩

/-- To each of two programs the other is one of the others. -/
theorem Code.Both.left_runs {α β : Type} {R1 W1 R2 W2 : String → Prop} {c c' : Code α} {d d' : Code β} {fs fs' : FS}
    (hb : Both c d fs c' d' fs') (hd : d.Uses R2 W2) (h : ∀ f, W2 f → ¬ (R1 f ∨ W1 f)) :
    Runs (fun f => R1 f ∨ W1 f) c fs c' fs' := by
  induction hb with
  | refl => exact .refl _ _
  | left hm _ ih => exact .move hm (ih hd)
  | right hm _ ih =>
    obtain ⟨h1, h2⟩ := hm.files hd
    exact .others (fun f hf => h2 f fun hw => h f hw hf) (ih h1)

theorem Code.Both.swap {α β : Type} {c c' : Code α} {d d' : Code β} {fs fs' : FS} (hb : Both c d fs c' d' fs') :
    Both d c fs d' c' fs' := by
  induction hb with
  | refl => exact .refl _ _ _
  | left hm _ ih => exact .right hm ih
  | right hm _ ih => exact .left hm ih

theorem Code.Both.others {α β : Type} {R1 W1 R2 W2 : String → Prop} {c c' : Code α} {d d' : Code β} {fs fs' : FS}
    (hb : Both c d fs c' d' fs') (hc : c.Uses R1 W1) (hd : d.Uses R2 W2) (f : String) (h1 : ¬ W1 f) (h2 : ¬ W2 f) :
    fs' f = fs f := by
  induction hb with
  | refl => rfl
  | left hm _ ih =>
    obtain ⟨h3, h4⟩ := hm.files hc
    rw [ih h3 hd, h4 f h1]
  | right hm _ ih =>
    obtain ⟨h3, h4⟩ := hm.files hd
    rw [ih hc h3, h4 f h2]

end Osm
