import Verif.Spec.Interrupt
import Verif.Lemmas.Touch
import Verif.Lemmas.Iio
import Verif.Lemmas.TagFilter
import Verif.Lemmas.RewritePasses
import Verif.Lemmas.NodeOutput
import Verif.Lemmas.WayOutput

/-! # Interrupted and cancelled runs -/

namespace Osm

theorem bind_emit_ops {α : Type} (op : FsOp) (f : Unit → Prog α) (fs : FS) :
    ((Prog.emit op >>= f) fs).1 = op :: (f () (op.run fs)).1 := rfl

/-- A crash of a writer which creates a file and writes pieces to it. -/
theorem crash_created (f : String) (ps : List (List UInt8)) (fs fs' : FS)
    (h : CrashState (.create f :: ps.map (.write f)) fs fs') :
    fs' = fs ∨ ∃ k, Spec.Holds fs' f (ps.flatten.take k) := by
  have h : CrashState ([.create f] ++ ps.map (.write f)) fs fs' := h
  rcases crashState_append h with h | h
  · obtain ⟨done, rest, hs, h⟩ := h
    cases done with
    | nil =>
      rcases h with h | ⟨_, _, _, _, h, _⟩
      · exact Or.inl h
      · rw [List.nil_append] at hs
        rw [← hs] at h
        cases h
    | cons d ds =>
      simp only [List.cons_append, List.cons.injEq] at hs
      obtain ⟨rfl, hs⟩ := hs
      obtain ⟨rfl, rfl⟩ := List.append_eq_nil_iff.1 hs.symm
      rcases h with h | ⟨_, _, _, _, h, _⟩
      · refine Or.inr ⟨0, 0, ?_⟩
        rw [h, runOps_cons, runOps_nil, List.take_zero]
        exact set_same _ _ _
      · cases h
  · rw [runOps_cons, runOps_nil] at h
    obtain ⟨k, hk⟩ := crash_pieces f ps _ ⟨[], 0⟩ (set_same _ _ _) (Nat.le_refl _) fs' h
    refine Or.inr ⟨k, (ps.flatten.take k).length, ?_⟩
    rw [hk]
    simp only [FsOp.run, set_same, Option.map_some]
    congr 1
    unfold File.write
    simp

namespace Interrupt
open Osm Osm.T Osm.Pbf Osm.Spec

/-! ## The operations of the writers -/

/-- The pieces which the writers of blocks write. -/
def blockPieces (xs : List Rewrite.Out) : List (List UInt8) := xs.flatMap fun x => [Rewrite.frameHeader x.1 x.2, x.2]

theorem blockPieces_flatten (xs : List Rewrite.Out) : (blockPieces xs).flatten = fileOf xs := by
  induction xs with
  | nil => rfl
  | cons x xs ih =>
    have h1 : blockPieces (x :: xs) = [Rewrite.frameHeader x.1 x.2, x.2] ++ blockPieces xs := by simp [blockPieces]
    have h2 : fileOf (x :: xs) = frame x.1 x.2 ++ fileOf xs := by simp [fileOf]
    rw [h1, h2, List.flatten_append, ih, Rewrite.frame_eq]
    simp

theorem rewrite_writeBlocks_ops (f : String) : ∀ (xs : List Rewrite.Out) (fs : FS),
    (Rewrite.writeBlocks f xs fs).1 = (blockPieces xs).map (.write f)
  | [], _ => rfl
  | (k, x) :: xs, fs => by
    unfold Rewrite.writeBlocks FWrite
    rw [bind_emit_ops, bind_emit_ops, rewrite_writeBlocks_ops f xs]
    rfl

theorem rewrite_output_ops (f : String) (xs : List Rewrite.Out) (fs : FS) :
    (Rewrite.output f xs fs).1 = .create f :: (blockPieces xs).map (.write f) := by
  unfold Rewrite.output OsCreate
  rw [bind_emit_ops, rewrite_writeBlocks_ops]

theorem tagfilter_writeLoop_ops (f : String) : ∀ (xs : List Rewrite.Out) (n : Nat) (fs : FS),
    (TagFilter.writeLoop f n xs fs).1 = (blockPieces (TagFilter.written xs)).map (.write f)
  | [], _, _ => rfl
  | (k, x) :: xs, n, fs => by
    unfold TagFilter.writeLoop
    by_cases hk : k = TagFilter.filler
    · rw [if_pos hk, tagfilter_writeLoop_ops f xs]
      unfold TagFilter.written
      rw [List.filter_cons_of_neg (by simpa using hk)]
    · rw [if_neg hk]
      unfold FWrite
      rw [bind_emit_ops, bind_emit_ops, tagfilter_writeLoop_ops f xs]
      unfold TagFilter.written
      rw [List.filter_cons_of_pos (by simpa using hk)]
      rfl

theorem tagfilter_output_ops (f : String) (xs : List Rewrite.Out) (fs : FS) :
    (TagFilter.output f xs fs).1 = .create f :: (blockPieces (TagFilter.written xs)).map (.write f) := by
  unfold TagFilter.output OsCreate
  rw [bind_emit_ops, tagfilter_writeLoop_ops]

theorem writeAll_ops (f : String) : ∀ (xs : List (List UInt8)) (fs : FS), (writeAll f xs fs).1 = xs.map (.write f)
  | [], _ => rfl
  | x :: xs, fs => by
    unfold writeAll FWrite
    rw [bind_emit_ops, writeAll_ops f xs]
    rfl

theorem decompress_output_ops (f : String) (xs : List (List UInt8)) (fs : FS) :
    (decompressOutput f xs fs).1 = .create f :: xs.map (.write f) := by
  unfold decompressOutput OsCreate
  rw [bind_emit_ops, writeAll_ops]

theorem relinit_writeBlocks_ops (f : String) : ∀ (xs : List (Option (List Int64))) (fs : FS),
    (RelIndex.writeBlocks f xs fs).1 = (xs.filterMap fun x => x.map Int64SliceAsByteSlice).map (.write f)
  | [], _ => rfl
  | none :: xs, fs => by
    unfold RelIndex.writeBlocks
    rw [relinit_writeBlocks_ops f xs]
    rfl
  | some ws :: xs, fs => by
    unfold RelIndex.writeBlocks FWriteSliceI64
    rw [bind_emit_ops, relinit_writeBlocks_ops f xs]
    rfl

/-! ## Which files the commands change -/

theorem touches_writeBlocks {S : String → Prop} {f : String} (h : S f) : ∀ xs, Touches S (Rewrite.writeBlocks f xs)
  | [] => touches_pure _ _
  | (_, _) :: xs => touches_bind (touches_emit h) fun _ => touches_bind (touches_emit h) fun _ => touches_writeBlocks h xs

theorem touches_output {S : String → Prop} {f : String} (h : S f) (xs : List Rewrite.Out) :
    Touches S (Rewrite.output f xs) := touches_bind (touches_emit h) fun _ => touches_writeBlocks h xs

theorem touches_writeLoop {S : String → Prop} {f : String} (h : S f) : ∀ xs n, Touches S (TagFilter.writeLoop f n xs)
  | [], _ => touches_pure _ _
  | (_, _) :: xs, n => by
    unfold TagFilter.writeLoop
    split
    · exact touches_writeLoop h xs _
    · exact touches_bind (touches_emit h) fun _ => touches_bind (touches_emit h) fun _ => touches_writeLoop h xs _

theorem touches_filterOutput {S : String → Prop} {f : String} (h : S f) (xs : List Rewrite.Out) :
    Touches S (TagFilter.output f xs) := touches_bind (touches_emit h) fun _ => touches_writeLoop h xs _

theorem touches_writeAll {S : String → Prop} {f : String} (h : S f) : ∀ xs, Touches S (writeAll f xs)
  | [] => touches_pure _ _
  | _ :: xs => touches_bind (touches_emit h) fun _ => touches_writeAll h xs

theorem touches_decompressOutput {S : String → Prop} {f : String} (h : S f) (xs : List (List UInt8)) :
    Touches S (decompressOutput f xs) := touches_bind (touches_emit h) fun _ => touches_writeAll h xs

theorem touches_nodeBatches {S : String → Prop} {idx loc : String} (h1 : S idx) (h2 : S loc) :
    ∀ bs count last, Touches S (NodeIndexer.writeBatches idx loc count last bs)
  | [], _, _ => touches_pure _ _
  | none :: bs, _, _ => touches_nodeBatches h1 h2 bs _ _
  | some _ :: bs, _, _ => touches_bind (touches_lift _ _) fun _ => touches_bind (touches_emit h1) fun _ =>
      touches_bind (touches_emit h2) fun _ => touches_nodeBatches h1 h2 bs _ _

theorem touches_nodeOutput {S : String → Prop} {out : String} (h1 : S out) (h2 : S (out ++ ".loc.tmp"))
    (sched : Nat → Nat) (cancelled : Nat → Bool) (bs : List (Option NodeIndexer.ElementBatch)) :
    Touches S (NodeIndexer.Output out sched cancelled bs) := by
  rw [NodeIndexer.output_shape]
  exact touches_withHeader h1 (touches_twoFile h1 h2 _ _ (touches_nodeBatches h1 h2 _ _ _)) _

theorem touches_wayBatches {S : String → Prop} {idx loc : String} (h1 : S idx) (h2 : S loc) (shift : Int64) :
    ∀ bs count len, Touches S (WayIndexer.writeBatches idx loc shift count len bs)
  | [], _, _ => touches_pure _ _
  | none :: bs, _, _ => touches_wayBatches h1 h2 shift bs _ _
  | some _ :: bs, _, _ => touches_bind (touches_lift _ _) fun _ => touches_bind (touches_emit h1) fun _ =>
      touches_bind (touches_emit h2) fun _ => touches_bind (touches_lift _ _) fun _ => touches_wayBatches h1 h2 shift bs _ _

theorem touches_wayOutput {S : String → Prop} {out : String} (h1 : S out) (h2 : S (out ++ ".loc.tmp")) (shift : Int64)
    (sched : Nat → Nat) (cancelled : Nat → Bool) (bs : List (Option WayIndexer.IndexElement)) :
    Touches S (WayIndexer.Output out shift sched cancelled bs) := by
  rw [WayIndexer.output_shape]
  exact touches_withHeader h1 (touches_twoFile h1 h2 _ _ (touches_wayBatches h1 h2 _ _ _ _)) _

theorem touches_relBlocks {S : String → Prop} {f : String} (h : S f) : ∀ bs, Touches S (RelIndex.writeBlocks f bs)
  | [] => touches_pure _ _
  | none :: bs => touches_relBlocks h bs
  | some _ :: bs => touches_bind (touches_emit h) fun _ => touches_relBlocks h bs

theorem touches_relLoop {S : String → Prop} {f : String} (h : S f) (swi : WayIndex.SubIdx) (last : Bool) :
    ∀ fuel o u, Touches S (RelIndex.rewriteLoop swi last f fuel o u)
  | 0, _, _ => touches_lift _ _
  | _ + 1, o, [] => by
    unfold RelIndex.rewriteLoop
    split
    · exact touches_emit h
    · exact touches_pure _ _
  | fuel + 1, o, w :: u => by
    unfold RelIndex.rewriteLoop
    refine touches_bind (touches_lift _ _) fun r => ?_
    dsimp only
    split
    · exact touches_bind (touches_emit h) fun _ => touches_relLoop h swi last fuel _ _
    · exact touches_relLoop h swi last fuel _ _

theorem touches_relRewrite {S : String → Prop} {f : String} (h : S f) (inp : String) (ix : WayIndex.WayIdx)
    (pass count : Int64) : Touches S (RelIndex.rewrite f inp ix pass count) :=
  touches_bind (touches_lift _ _) fun _ => touches_bind (touches_OsOpen _ _) fun _ => touches_bind (touches_emit h) fun _ =>
    touches_bind (touches_MMapMap _ _) fun _ => touches_relLoop h _ _ _ _ _

theorem touches_relPasses {S : String → Prop} {out : String} {n : Nat} (h1 : S out)
    (h2 : ∀ p, S (RelIndex.makePassFilename out p n)) (ix : WayIndex.WayIdx) :
    ∀ left i, Touches S (RelIndex.runPasses out ix n left i)
  | 0, _ => touches_pure _ _
  | left + 1, i => by
    unfold RelIndex.runPasses
    refine touches_bind (touches_relRewrite ?_ _ _ _ _) fun _ => touches_bind (touches_emit (h2 _)) fun _ =>
      touches_relPasses h1 h2 ix left _
    split
    · exact h2 _
    · exact h1

theorem touches_relindex {S : String → Prop} {out : String} {n : Nat} (h1 : S out)
    (h2 : ∀ p, S (RelIndex.makePassFilename out p n)) (wayIndex : String) (bs : List (Option (List Int64))) :
    Touches S (RelIndex.relindex out wayIndex n bs) :=
  touches_bind (touches_bind (touches_emit (h2 _)) fun _ => touches_relBlocks (h2 _) _) fun _ =>
    touches_bind (touches_OsOpen _ _) fun _ => touches_bind (touches_MMapMap _ _) fun _ =>
    touches_bind (touches_lift _ _) fun _ => touches_relPasses h1 h2 _ _ _

theorem touches_process {α O : Type} {S : String → Prop} (cut : Option Nat) (work : Block → Res O) (inp : String)
    {output : List O → Prog α} (h : ∀ xs, Touches S (output xs)) : Touches S (process cut work inp output) :=
  touches_bind (touches_OsOpen _ _) fun _ => touches_bind (touches_MMapMap _ _) fun _ =>
    touches_bind (touches_lift _ _) fun _ => touches_bind (touches_lift _ _) fun _ => h _

/-- Everything before the writer leaves the files alone. -/
theorem process_run {α O : Type} (cut : Option Nat) (work : Block → Res O) (inp : String) (output : List O → Prog α)
    {file : List UInt8} {bs : List Block} {xs : List O} (hs : split file = .ok bs)
    (hx : mapRes work (handed cut bs) = .ok xs) (fs : FS) (hin : Holds fs inp file) :
    process cut work inp output fs = output xs fs := by
  obtain ⟨pos, hin⟩ := hin
  have hne : file ≠ [] := by
    rintro rfl
    cases hs
  have bind_nil : ∀ {β γ : Type} (p : Prog β) (f : β → Prog γ) (a : β) (fs : FS), p fs = ([], .ok a) →
      (p >>= f) fs = f a fs := by
    intro β γ p f a fs h
    show Prog.bind p f fs = _
    unfold Prog.bind
    rw [h]
    rfl
  unfold process
  rw [bind_nil _ _ () fs (by unfold OsOpen; rw [hin]; rfl), bind_nil _ _ file fs (by unfold MMapMap; rw [hin]; dsimp only; rw [if_neg hne]),
    bind_nil _ _ bs fs (by unfold Prog.lift; rw [hs]), bind_nil _ _ xs fs (by unfold Prog.lift; rw [hx])]

theorem touches_rewritePasses {S : String → Prop} {out : String} {n : Nat} (h1 : S out)
    (h2 : ∀ p, S (RelIndex.makePassFilename out p n)) (inflate : Inflate) (scheds : Nat → Block → Sched)
    (cuts : Nat → Option Nat) (ix : NodeIndex.NodeIdx) (inp : String) :
    ∀ left i, Touches S (rewritePasses inflate scheds cuts ix inp out n left i)
  | 0, _ => touches_pure _ _
  | left + 1, i => by
    unfold rewritePasses
    refine touches_bind ?_ fun _ => touches_bind (touches_lift _ _) fun _ => touches_bind (touches_process _ _ _ fun xs =>
      touches_output ?_ xs) fun _ => touches_rewritePasses h1 h2 inflate scheds cuts ix inp left _
    · unfold Rewrite.removeOld
      split
      · exact touches_emit (h2 _)
      · exact touches_pure _ _
    · unfold Rewrite.passOutput
      split
      · exact h2 _
      · exact h1

theorem touches_rewritenodes {S : String → Prop} {out : String} (h1 : S out)
    (h2 : ∀ p n, S (RelIndex.makePassFilename out p n)) (inflate : Inflate) (scheds : Nat → Block → Sched)
    (cuts : Nat → Option Nat) (memory : Option UInt64) (inp index : String) :
    Touches S (rewritenodes inflate scheds cuts memory inp index out) := by
  refine touches_bind (touches_OsOpen _ _) fun _ => touches_bind (touches_MMapMap _ _) fun _ =>
    touches_bind (touches_lift _ _) fun _ => touches_bind (touches_lift _ _) fun _ =>
    touches_bind (touches_rewritePasses h1 (fun p => h2 p _) _ _ _ _ _ _ _) fun _ => ?_
  unfold Rewrite.removeLast
  split
  · exact touches_OsRemove (h2 _ _)
  · exact touches_pure _ _

/-! ## Programs that create a file and append to it -/

/-- The operations on a file. -/
def opsOn (f : String) (ops : List FsOp) : List FsOp := ops.filter fun op => op.file = f

theorem run_congr (op : FsOp) {fs fs' : FS} (h : fs op.file = fs' op.file) : op.run fs op.file = op.run fs' op.file := by
  cases op <;> simp only [FsOp.run, FsOp.file, set_same] at * <;> rw [h]

theorem run_on (f : String) : ∀ (ops : List FsOp) (fs fs' : FS), fs f = fs' f →
    runOps ops fs f = runOps (opsOn f ops) fs' f
  | [], _, _, h => h
  | op :: ops, fs, fs', h => by
    by_cases ho : op.file = f
    · have : opsOn f (op :: ops) = op :: opsOn f ops := List.filter_cons_of_pos (by simpa using ho)
      rw [this, runOps_cons, runOps_cons]
      refine run_on f ops _ _ ?_
      subst ho
      exact run_congr op h
    · have : opsOn f (op :: ops) = opsOn f ops := List.filter_cons_of_neg (by simpa using ho)
      rw [this, runOps_cons]
      refine run_on f ops _ _ ?_
      rw [FsOp.run_other _ _ _ (Ne.symm ho), h]

theorem crash_on (f : String) {ops : List FsOp} {fs fs' : FS} (h : CrashState ops fs fs') :
    ∃ fs'', CrashState (opsOn f ops) fs fs'' ∧ fs'' f = fs' f := by
  obtain ⟨done, rest, rfl, h⟩ := h
  have ha : opsOn f (done ++ rest) = opsOn f done ++ opsOn f rest := List.filter_append ..
  rcases h with h | ⟨g, bs, more, k, h1, h2⟩
  · refine ⟨runOps (opsOn f done) fs, ⟨opsOn f done, opsOn f rest, ha, Or.inl rfl⟩, ?_⟩
    rw [h]; exact (run_on f done fs fs rfl).symm
  · by_cases hg : g = f
    · refine ⟨(FsOp.write g (bs.take k)).run (runOps (opsOn f done) fs), ⟨opsOn f done, opsOn f rest, ha, Or.inr
        ⟨g, bs, opsOn f more, k, ?_, rfl⟩⟩, ?_⟩
      · rw [h1]; exact List.filter_cons_of_pos (decide_eq_true hg)
      · rw [h2]
        subst hg
        exact run_congr (FsOp.write g (bs.take k)) (run_on g done fs fs rfl).symm
    · refine ⟨runOps (opsOn f done) fs, ⟨opsOn f done, opsOn f rest, ha, Or.inl rfl⟩, ?_⟩
      rw [h2, FsOp.run_other (FsOp.write g (bs.take k)) _ _ (Ne.symm hg)]
      exact (run_on f done fs fs rfl).symm

/-- The program does nothing with the file, or creates it and then writes to it. -/
def Appends {α : Type} (f : String) (p : Prog α) (fs : FS) : Prop :=
  opsOn f (p fs).1 = [] ∨ ∃ ps : List (List UInt8), opsOn f (p fs).1 = .create f :: ps.map (.write f)

theorem crash_appended {α : Type} {f : String} {p : Prog α} {fs fs1 fs' : FS} {a : α} {whole : List UInt8}
    (h : Appends f p fs) (h1 : p.exec fs = .ok (a, fs1)) (hw : Spec.Holds fs1 f whole) (hc : CrashState (p fs).1 fs fs') :
    fs' f = fs f ∨ ∃ k, Spec.Holds fs' f (whole.take k) := by
  obtain ⟨fs2, c1, c2⟩ := crash_on f hc
  have hend : fs1 = runOps (p fs).1 fs := by
    unfold Prog.exec at h1
    rcases hp : p fs with ⟨ops, r⟩
    rw [hp] at h1
    cases r <;> cases h1
    rfl
  rcases h with h | ⟨ps, h⟩
  · rw [h] at c1
    obtain ⟨done, rest, hs, c1⟩ := c1
    obtain ⟨rfl, rfl⟩ := List.append_eq_nil_iff.1 hs.symm
    rcases c1 with c1 | ⟨_, _, _, _, h2, _⟩
    · left; rw [← c2, c1]; rfl
    · cases h2
  · rw [h] at c1
    have hwhole : whole = ps.flatten := by
      obtain ⟨pos, hw⟩ := hw
      rw [hend, run_on f _ fs fs rfl, h, runOps_cons, run_pieces f ps ((FsOp.create f).run fs) ⟨[], 0⟩ (set_same _ _ _) (Nat.le_refl _)] at hw
      simp only [FsOp.run, set_same, Option.map_some, Option.some.injEq] at hw
      have := congrArg File.data hw
      simpa [File.write] using this.symm
    rcases crash_created _ _ _ _ c1 with c1 | ⟨k, pos, c1⟩
    · left; rw [← c2, c1]
    · exact Or.inr ⟨k, pos, by rw [← c2, c1, hwhole]⟩

/-- The program only writes to the file. -/
def Writes {α : Type} (f : String) (p : Prog α) : Prop := ∀ fs, ∃ ps : List (List UInt8), opsOn f (p fs).1 = ps.map (.write f)

theorem opsOn_append (f : String) (a b : List FsOp) : opsOn f (a ++ b) = opsOn f a ++ opsOn f b := List.filter_append ..

theorem opsOn_none {S : String → Prop} {α : Type} {p : Prog α} (h : Touches S p) {f : String} (hf : ¬ S f) (fs : FS) :
    opsOn f (p fs).1 = [] := by
  unfold opsOn
  rw [List.filter_eq_nil_iff]
  intro op ho
  have := h fs op ho
  simp only [decide_eq_true_eq]
  rintro rfl
  exact hf this

theorem writes_none {S : String → Prop} {α : Type} {p : Prog α} (h : Touches S p) {f : String} (hf : ¬ S f) : Writes f p :=
  fun fs => ⟨[], opsOn_none h hf fs⟩

theorem writes_emit (f : String) (bs : List UInt8) : Writes f (Prog.emit (.write f bs)) :=
  fun _ => ⟨[bs], by simp [opsOn, Prog.emit, FsOp.file]⟩

theorem bind_ops {α β : Type} (p : Prog α) (q : α → Prog β) (fs : FS) : (p >>= q) fs = Prog.bind p q fs := rfl

theorem writes_bind {α β : Type} {f : String} {p : Prog α} {q : α → Prog β} (hp : Writes f p) (hq : ∀ a, Writes f (q a)) :
    Writes f (p >>= q) := by
  intro fs
  rw [bind_ops]
  unfold Prog.bind
  have h0 := hp fs
  rcases hpf : p fs with ⟨ops, r⟩
  rw [hpf] at h0
  obtain ⟨ps, h0⟩ := h0
  cases r with
  | ok a =>
    obtain ⟨qs, h1⟩ := hq a (runOps ops fs)
    refine ⟨ps ++ qs, ?_⟩
    dsimp only
    rw [opsOn_append, h0, h1, List.map_append]
  | panic => exact ⟨ps, h0⟩
  | hang => exact ⟨ps, h0⟩

/-- Nothing with the file, then appends. -/
theorem appends_bind {α β : Type} {f : String} {p : Prog α} {q : α → Prog β} {fs : FS} (hp : opsOn f (p fs).1 = [])
    (hq : ∀ a fs1, Appends f (q a) fs1) : Appends f (p >>= q) fs := by
  unfold Appends
  rw [bind_ops]
  unfold Prog.bind
  rcases hpf : p fs with ⟨ops, r⟩
  rw [hpf] at hp
  cases r with
  | ok a =>
    dsimp only
    rw [opsOn_append, hp, List.nil_append]
    exact hq a _
  | panic => exact Or.inl hp
  | hang => exact Or.inl hp

/-- Appends, then only writes. -/
theorem appends_writes {α β : Type} {f : String} {p : Prog α} {q : α → Prog β} {fs : FS} (hp : Appends f p fs)
    (hp' : ∃ ps : List (List UInt8), opsOn f (p fs).1 = .create f :: ps.map (.write f))
    (hq : ∀ a, Writes f (q a)) : Appends f (p >>= q) fs := by
  unfold Appends at hp ⊢
  rw [bind_ops]
  unfold Prog.bind
  rcases hpf : p fs with ⟨ops, r⟩
  rw [hpf] at hp hp'
  obtain ⟨ps, hp'⟩ := hp'
  cases r with
  | ok a =>
    obtain ⟨qs, h1⟩ := hq a (runOps ops fs)
    right
    refine ⟨ps ++ qs, ?_⟩
    dsimp only
    rw [opsOn_append, hp', h1, List.map_append]
    rfl
  | panic => exact hp
  | hang => exact hp

/-- Appends, then nothing with the file. -/
theorem appends_then {α β : Type} {f : String} {p : Prog α} {q : α → Prog β} {fs : FS} (hp : Appends f p fs)
    (hq : ∀ a fs1, opsOn f (q a fs1).1 = []) : Appends f (p >>= q) fs := by
  unfold Appends at hp ⊢
  rw [bind_ops]
  unfold Prog.bind
  rcases hpf : p fs with ⟨ops, r⟩
  rw [hpf] at hp
  cases r with
  | ok a =>
    dsimp only
    rw [opsOn_append, hq, List.append_nil]
    exact hp
  | panic => exact hp
  | hang => exact hp

theorem appends_create {α : Type} {f : String} {q : Unit → Prog α} (hq : Writes f (q ())) (fs : FS) :
    Appends f (OsCreate f >>= q) fs := by
  unfold OsCreate Appends
  rw [bind_emit_ops]
  obtain ⟨ps, h⟩ := hq ((FsOp.create f).run fs)
  right
  refine ⟨ps, ?_⟩
  rw [show ∀ l, opsOn f (FsOp.create f :: l) = .create f :: opsOn f l from fun l =>
    List.filter_cons_of_pos (by simp [FsOp.file]), h]

theorem appends_none {S : String → Prop} {α : Type} {p : Prog α} (h : Touches S p) {f : String} (hf : ¬ S f) (fs : FS) :
    Appends f p fs := Or.inl (opsOn_none h hf fs)

theorem writes_relLoop (f : String) (swi : WayIndex.SubIdx) (last : Bool) :
    ∀ fuel o u, Writes f (RelIndex.rewriteLoop swi last f fuel o u)
  | 0, _, _ => fun _ => ⟨[], rfl⟩
  | _ + 1, o, [] => by
    unfold RelIndex.rewriteLoop
    split
    · exact writes_emit f _
    · exact fun _ => ⟨[], rfl⟩
  | fuel + 1, o, w :: u => by
    unfold RelIndex.rewriteLoop
    refine writes_bind (fun _ => ⟨[], rfl⟩) fun r => ?_
    dsimp only
    split
    · exact writes_bind (writes_emit f _) fun _ => writes_relLoop f swi last fuel _ _
    · exact writes_relLoop f swi last fuel _ _

theorem appends_relRewrite (f inp : String) (ix : WayIndex.WayIdx) (pass count : Int64) (fs : FS) :
    Appends f (RelIndex.rewrite f inp ix pass count) fs := by
  unfold RelIndex.rewrite
  refine appends_bind rfl fun _ _ => appends_bind rfl fun _ _ => appends_create (writes_bind (fun _ => ⟨[], rfl⟩) fun m => ?_) _
  exact writes_relLoop f _ _ _ _ _

theorem appends_relPasses (out : String) (ix : WayIndex.WayIdx) (n : Nat) :
    ∀ left i fs, i + left = n → Appends out (RelIndex.runPasses out ix n left i) fs
  | 0, _, _, _ => Or.inl rfl
  | left + 1, i, fs, h => by
    unfold RelIndex.runPasses
    have hrem : ∀ j fs1, opsOn out (OsRemoveTry (RelIndex.makePassFilename out j n) fs1).1 = [] := fun j fs1 =>
      opsOn_none (S := fun g => g = RelIndex.makePassFilename out j n) (touches_emit rfl)
        (fun e => RelIndex.pass_ne_out out j n e.symm) fs1
    by_cases hl : i + 1 < n
    · rw [if_pos hl]
      refine appends_bind ?_ fun _ _ => appends_bind (hrem _ _) fun _ _ => appends_relPasses out ix n left _ _ (by omega)
      exact opsOn_none (S := fun g => g = RelIndex.makePassFilename out (i + 1) n) (touches_relRewrite (by rfl) _ _ _ _)
        (fun e => RelIndex.pass_ne_out out (i + 1) n e.symm) fs
    · rw [if_neg hl]
      have : left = 0 := by omega
      subst this
      refine appends_then (appends_relRewrite _ _ _ _ _ _) fun _ _ => ?_
      rw [bind_ops]
      unfold Prog.bind
      have h0 := hrem i
      rename_i fs1
      rcases hp : OsRemoveTry (RelIndex.makePassFilename out i n) fs1 with ⟨ops, r⟩
      have h0 := h0 fs1
      rw [hp] at h0
      cases r with
      | ok a =>
        dsimp only
        rw [opsOn_append, h0]
        rfl
      | panic => exact h0
      | hang => exact h0

theorem relindex_appends (out wayIndex : String) (n : Nat) (sent : List (Option (List Int64))) (fs : FS) :
    Appends out (RelIndex.relindex out wayIndex n sent) fs := by
  unfold RelIndex.relindex
  refine appends_bind ?_ fun _ _ => appends_bind rfl fun _ _ => appends_bind rfl fun _ _ => appends_bind rfl fun _ _ =>
    appends_relPasses out _ n n 0 _ (by omega)
  unfold RelIndex.InitOutput
  exact opsOn_none (S := fun g => g = RelIndex.makePassFilename out 0 n)
    (touches_bind (touches_emit rfl) fun _ => touches_relBlocks (by rfl) _) (fun e => RelIndex.pass_ne_out out 0 n e.symm) fs

theorem writes_blocks (f : String) : ∀ xs, Writes f (Rewrite.writeBlocks f xs)
  | [] => fun _ => ⟨[], rfl⟩
  | (_, _) :: xs => writes_bind (writes_emit f _) fun _ => writes_bind (writes_emit f _) fun _ => writes_blocks f xs

theorem appends_process {α O : Type} (f : String) (cut : Option Nat) (work : Block → Res O) (inp : String)
    {output : List O → Prog α} (h : ∀ xs fs, Appends f (output xs) fs) (fs : FS) :
    Appends f (process cut work inp output) fs := by
  unfold process
  exact appends_bind rfl fun _ _ => appends_bind rfl fun _ _ => appends_bind rfl fun _ _ => appends_bind rfl fun _ _ => h _ _

theorem appends_rewritePasses (inflate : Inflate) (scheds : Nat → Block → Sched) (cuts : Nat → Option Nat)
    (ix : NodeIndex.NodeIdx) (inp out : String) (n : Nat) :
    ∀ left i fs, i + left = n → Appends out (rewritePasses inflate scheds cuts ix inp out n left i) fs
  | 0, _, _, _ => Or.inl rfl
  | left + 1, i, fs, h => by
    unfold rewritePasses
    refine appends_bind ?_ fun _ _ => appends_bind rfl fun _ _ => ?_
    · unfold Rewrite.removeOld
      split
      · exact opsOn_none (S := fun g => g = RelIndex.makePassFilename out (i - 1) n) (touches_emit rfl)
          (fun e => RelIndex.pass_ne_out out (i - 1) n e.symm) fs
      · rfl
    · unfold Rewrite.passOutput rewritePass
      by_cases hl : i + 1 < n
      · rw [if_pos hl]
        refine appends_bind ?_ fun _ _ => appends_rewritePasses inflate scheds cuts ix inp out n left _ _ (by omega)
        exact opsOn_none (S := fun g => g = RelIndex.makePassFilename out (i + 1) n)
          (touches_process _ _ _ fun xs => touches_output (by rfl) xs) (fun e => RelIndex.pass_ne_out out (i + 1) n e.symm) _
      · rw [if_neg hl]
        have : left = 0 := by omega
        subst this
        exact appends_then (appends_process _ _ _ _ (fun xs fs => appends_create (writes_blocks out xs) fs) _) fun _ _ => rfl

theorem rewritenodes_appends (inflate : Inflate) (scheds : Nat → Block → Sched) (cuts : Nat → Option Nat)
    (memory : Option UInt64) (inp index out : String) (fs : FS) :
    Appends out (rewritenodes inflate scheds cuts memory inp index out) fs := by
  unfold rewritenodes
  refine appends_bind rfl fun _ _ => appends_bind rfl fun _ _ => appends_bind rfl fun _ _ => appends_bind rfl fun n _ =>
    appends_then (appends_rewritePasses _ _ _ _ _ _ _ _ _ _ (by omega)) fun _ fs1 => ?_
  unfold Rewrite.removeLast
  split
  · exact opsOn_none (S := fun g => g = RelIndex.makePassFilename out (n.toNat - 1) n.toNat) (touches_OsRemove rfl)
      (fun e => RelIndex.pass_ne_out out _ _ e.symm) fs1
  · rfl

/-! ## The writer's channel is closed -/

/-- When the writer's channel is closed in a run that is not cancelled, the writer has received everything. -/
theorem closed_all {O : Type} (c : Cfg O) (hl : c.file.length < 2 ^ 63) (hw : c.hasWriter = true) (W : Nat) (s : St O)
    (hr : Reachable c W s) (ho : s.outClosed = true) (hc : s.cancelled = false) :
    ∃ bs, split c.file = .ok bs ∧ mapRes c.work bs = .ok s.got := by
  have hI := hr.inv hl
  have hrk : 6 ≤ rank s.main := hI.b.outC ho
  obtain ⟨_, p, hh, ha⟩ := hI.a
  have hne : ∀ m, s.main = m → 6 ≤ rank m := by rintro m rfl; exact hrk
  have ha : p = c.file.length := by
    revert ha
    cases hm : s.main <;> (first | (have := hne _ hm; simp [rank] at this; done) | skip)
    all_goals
      intro ha
      rcases ha with ha | ha
      · exact ha.1
      · rw [hc] at ha; cases ha.1
  subst ha
  refine ⟨s.sent, hh.all hl (hr.file_ne (Or.inr ?_)), ?_⟩
  · intro h0
    rw [h0] at hrk
    simp [rank] at hrk
  · have hall := hI.seen_all hw (hI.b.workersExited (by omega))
    have hlen : s.seen.length = s.sent.length := by simpa using hall.length_eq.symm
    have hro := (hI.d hw).reorder
    rw [hI.b.reorderExited hw (by omega)] at hro
    have := ((hI.d hw).prefix hro).2
    rw [hlen, List.take_length] at this
    exact this

end Interrupt
end Osm
