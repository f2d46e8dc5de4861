import Verif.Spec.Faults
import Verif.Lemmas.Faults
import Verif.Props.Interrupt
import Verif.Props.PowerLossBlocks
import Verif.Props.Alongside
import Verif.Props.Restart

/-!
# C106: errors of the operating system do not go unnoticed

A call that fails makes the run panic, whichever call it is, so a run that ends normally has done everything; what a run
leaves that panics for this reason is what an interrupted run leaves. Only `OsRemoveTry` ignores errors: then files between
passes are left over, and nothing else differs.
-/

namespace Osm.Props
open Osm Osm.T Osm.Pbf Osm.Spec Osm.Interrupt

/-! ## Any program -/

/-- C106: if every call a run makes is answered without an error, it is the run of a program that is alone; if one is answered
with an error the run panics, and leaves what some interrupted run leaves. -/
theorem C106_noticed {α : Type} (c : Code α) (p : Prog α) (hc : c.denote = p) (answers : Nat → Answer) (fs : FS) :
    ((∀ i < c.accesses fs, answers i = .done) →
      c.under answers 0 fs = (aloneResult p fs, aloneFiles p fs)) ∧
    ((∃ i < c.accesses fs, answers i ≠ .done) →
      (c.under answers 0 fs).1 = .panic ∧ CrashState (p fs).1 fs (c.under answers 0 fs).2) := by
  subst hc
  refine ⟨fun h => c.under_ok answers 0 fs fun j _ h2 => h j (by omega), ?_⟩
  rintro ⟨i, h1, h2⟩
  exact c.under_error answers 0 fs ⟨i, Nat.zero_le _, by omega, h2⟩

theorem written_eq : ∀ ops, written ops = bytesWritten ops
  | [] => rfl
  | .write _ bs :: ops => by rw [bytesWritten_cons, ← written_eq ops]; rfl
  | .create _ :: ops => by rw [bytesWritten_cons, ← written_eq ops]; exact (Nat.zero_add _).symm
  | .rewind _ :: ops => by rw [bytesWritten_cons, ← written_eq ops]; exact (Nat.zero_add _).symm
  | .advance _ _ :: ops => by rw [bytesWritten_cons, ← written_eq ops]; exact (Nat.zero_add _).symm
  | .remove _ :: ops => by rw [bytesWritten_cons, ← written_eq ops]; exact (Nat.zero_add _).symm

/-- C106: on a disk that has room for everything that is written the run is that of a program that is alone; on any other it
panics, and leaves what some interrupted run leaves. -/
theorem C106_full_disk {α : Type} (c : Code α) (p : Prog α) (hc : c.denote = p) (room : Nat) (fs : FS) :
    (written (p fs).1 ≤ room → c.onDisk room fs = (aloneResult p fs, aloneFiles p fs)) ∧
    (room < written (p fs).1 →
      (c.onDisk room fs).1 = .panic ∧ CrashState (p fs).1 fs (c.onDisk room fs).2) := by
  subst hc
  rw [written_eq]
  exact c.onDisk_spec room fs

/-- C106: so whatever fails, a run that does not panic is complete, and one that does leaves what an interrupted run
leaves (or panics without any error). -/
theorem C106_complete_or_panic {α : Type} (c : Code α) (p : Prog α) (hc : c.denote = p) (fs fs' : FS) (r : Res α)
    (hf : Faulty c fs r fs') :
    (r = aloneResult p fs ∧ fs' = aloneFiles p fs) ∨ (r = .panic ∧ CrashState (p fs).1 fs fs') := by
  rcases hf with ⟨answers, h⟩ | ⟨room, h⟩
  · obtain ⟨h1, h2⟩ := C106_noticed c p hc answers fs
    rw [h] at h1 h2
    by_cases he : ∀ i < c.accesses fs, answers i = .done
    · left
      have := h1 he
      exact ⟨congrArg Prod.fst this, congrArg Prod.snd this⟩
    · right
      refine h2 ?_
      rw [Classical.not_forall] at he
      obtain ⟨i, he⟩ := he
      rw [Classical.not_imp] at he
      exact ⟨i, he.1, he.2⟩
  · obtain ⟨h1, h2⟩ := C106_full_disk c p hc room fs
    rw [h] at h1 h2
    by_cases he : written (p fs).1 ≤ room
    · left
      have := h1 he
      exact ⟨congrArg Prod.fst this, congrArg Prod.snd this⟩
    · exact Or.inr (h2 (by omega))

/-! ## Writing -/

/-- C106: one call of `FWrite`, however many bytes each call of `Write` accepts and whenever one fails: it writes the whole
buffer, or panics and has written a first part of it: as an `Answer` says. -/
theorem C106_write (env : Nat → WriteRet) (f : String) (buf : List UInt8) (fs : FS) (x : File) (hx : fs f = some x)
    (hp : x.pos ≤ x.data.length) : ∃ answer,
      (Code.emit (.write f buf) (.done (.ok ()))).under (fun _ => answer) 0 fs =
        ((fWrite env f buf fs).2, runOps (fWrite env f buf fs).1 fs) := by
  have h1 := fWriteLoop_ok env (buf.length + 1) 0 buf
  have h2 := fWriteLoop_no_hang env (buf.length + 1) 0 buf (by omega)
  have h3 := fWriteLoop_prefix env (buf.length + 1) 0 buf
  unfold fWrite
  dsimp only
  rcases hl : fWriteLoop env (buf.length + 1) 0 buf with ⟨ps, q⟩
  rw [hl] at h1 h2 h3
  dsimp only at h1 h2 h3 ⊢
  cases q with
  | ok u =>
    refine ⟨.done, ?_⟩
    rw [run_pieces f ps fs x hx hp, h1 rfl]
    rfl
  | panic =>
    refine ⟨.error ps.flatten.length, ?_⟩
    rw [run_pieces f ps fs x hx hp]
    obtain ⟨t, ht⟩ := h3
    show (Res.panic, (FsOp.write f (buf.take ps.flatten.length)).run fs) = _
    rw [← ht, List.take_left]
  | hang => exact absurd rfl h2

/-- C106: the same for the functions which write slices, which panic unless a single call accepts everything. -/
theorem C106_write_slice (ret : WriteRet) (f : String) (buf : List UInt8) (fs : FS) : ∃ answer,
      (Code.emit (.write f buf) (.done (.ok ()))).under (fun _ => answer) 0 fs =
        ((fWriteOnce ret f buf fs).2, runOps (fWriteOnce ret f buf fs).1 fs) := by
  unfold fWriteOnce
  dsimp only
  by_cases he : ret.err = true
  · refine ⟨.error (min ret.n buf.length), ?_⟩
    rw [if_pos he]; rfl
  · rw [if_neg he]
    by_cases hn : min ret.n buf.length ≠ buf.length
    · refine ⟨.error (min ret.n buf.length), ?_⟩
      rw [if_pos hn]; rfl
    · refine ⟨.done, ?_⟩
      rw [if_neg hn]
      have : min ret.n buf.length = buf.length := by omega
      rw [this, List.take_length]
      rfl

/-! ## The commands -/

/-- Reading the input changes nothing, and then there is only the output. -/
theorem process_ops {α O : Type} (cut : Option Nat) (work : Block → Res O) (inp : String) (output : List O → Prog α) (fs : FS) :
    ((process cut work inp output fs).1 = [] ∧ ∀ a, (process cut work inp output fs).2 ≠ .ok a) ∨
      ∃ xs, process cut work inp output fs = output xs fs := by
  have step : ∀ {β : Type} (p : Prog β) (q : β → Prog α), (p fs).1 = [] →
      (((p >>= q) fs).1 = [] ∧ ∀ a, ((p >>= q) fs).2 ≠ .ok a) ∨ ∃ b, (p >>= q) fs = q b fs := by
    intro β p q h
    rw [bind_ops]
    unfold Prog.bind
    rcases hp : p fs with ⟨ops, r⟩
    rw [hp] at h
    dsimp only at h
    subst h
    cases r with
    | ok b => exact Or.inr ⟨b, by simp⟩
    | panic => exact Or.inl ⟨rfl, fun a h => by cases h⟩
    | hang => exact Or.inl ⟨rfl, fun a h => by cases h⟩
  unfold process
  rcases step (OsOpen inp) _ rfl with h | ⟨_, h⟩
  · exact Or.inl h
  rw [h]
  rcases step (MMapMap inp) _ rfl with h | ⟨_, h⟩
  · exact Or.inl h
  rw [h]
  rcases step (Prog.lift _) _ rfl with h | ⟨_, h⟩
  · exact Or.inl h
  rw [h]
  rcases step (Prog.lift _) _ rfl with h | ⟨xs, h⟩
  · exact Or.inl h
  exact Or.inr ⟨xs, h⟩

theorem crash_nil {fs fs' : FS} (h : CrashState [] fs fs') : fs' = fs := by
  obtain ⟨done, rest, hs, h⟩ := h
  obtain ⟨rfl, rfl⟩ := List.append_eq_nil_iff.1 hs.symm
  rcases h with h | ⟨_, _, _, _, h, _⟩
  · exact h
  · cases h

/-- C106: nodeindex, whatever fails: it completes and everything has been written; or it panics, and the output is as it was,
or is rejected as a node index, or everything but its header has been written. -/
theorem C106_nodeindex (inflate : Inflate) (sched : Block → Sched) (cut : Option Nat) (chunks : Nat → Nat)
    (copyCancelled : Nat → Bool) (inp out : String) (c : Code Unit)
    (hc : c.denote = nodeindex inflate sched cut chunks copyCancelled inp out) (fs fs' : FS) (r : Res Unit) (hf : Faulty c fs r fs') :
    (r = aloneResult (nodeindex inflate sched cut chunks copyCancelled inp out) fs ∧
      fs' = aloneFiles (nodeindex inflate sched cut chunks copyCancelled inp out) fs) ∨
    (r = .panic ∧ (fs' out = fs out ∨ (∃ file, Holds fs' out file ∧ NodeIndex.NewNodeIndex file = .panic) ∨
      ∃ done hd k, nodeindex inflate sched cut chunks copyCancelled inp out fs = (done ++ [.write out hd], .ok ()) ∧
        hd.length = 16 ∧ 1 ≤ k ∧ fs' = (FsOp.write out (hd.take k)).run (runOps done fs))) := by
  rcases C106_complete_or_panic c _ hc fs fs' r hf with h | ⟨h1, h2⟩
  · exact Or.inl h
  · refine Or.inr ⟨h1, ?_⟩
    unfold nodeindex at h2 ⊢
    rcases process_ops cut (Programs.blockWork inflate sched Programs.nodeReader NodeIndexer.work) inp
      (NodeIndexer.Output out chunks copyCancelled) fs with ⟨h, _⟩ | ⟨xs, h⟩
    · rw [h] at h2
      exact Or.inl (congrFun (crash_nil h2) out)
    · rw [h] at h2 ⊢
      rcases C35_crash out chunks copyCancelled xs fs fs' h2 with e | e | ⟨done, hd, k, e1, e2, e3⟩
      · exact Or.inl e
      · exact Or.inr (Or.inl e)
      · exact Or.inr (Or.inr ⟨done, hd, k, e1, C35_header_size out chunks copyCancelled xs fs done hd e1, e2, e3⟩)

/-- C106: wayindex (an unfinished index is one for which opening and taking any pass panics). -/
theorem C106_wayindex (inflate : Inflate) (sched : Block → Sched) (cut : Option Nat) (chunks : Nat → Nat)
    (copyCancelled : Nat → Bool) (shift : Int64) (inp out : String) (c : Code Unit)
    (hc : c.denote = wayindex inflate sched cut chunks copyCancelled shift inp out) (fs fs' : FS) (r : Res Unit)
    (hf : Faulty c fs r fs') :
    (r = aloneResult (wayindex inflate sched cut chunks copyCancelled shift inp out) fs ∧
      fs' = aloneFiles (wayindex inflate sched cut chunks copyCancelled shift inp out) fs) ∨
    (r = .panic ∧ (fs' out = fs out ∨
      (∃ file, Holds fs' out file ∧ ∀ p n, (WayIndex.NewWayIndex file >>= fun ix => ix.SubIndexWithScaledPass p n) = .panic) ∨
      ∃ done hd k, wayindex inflate sched cut chunks copyCancelled shift inp out fs = (done ++ [.write out hd], .ok ()) ∧
        1 ≤ k ∧ fs' = (FsOp.write out (hd.take k)).run (runOps done fs))) := by
  rcases C106_complete_or_panic c _ hc fs fs' r hf with h | ⟨h1, h2⟩
  · exact Or.inl h
  · refine Or.inr ⟨h1, ?_⟩
    unfold wayindex at h2 ⊢
    rcases process_ops cut (Programs.blockWork inflate sched Programs.wayReader (Programs.wayWork shift)) inp
      (WayIndexer.Output out shift chunks copyCancelled) fs with ⟨h, _⟩ | ⟨xs, h⟩
    · rw [h] at h2
      exact Or.inl (congrFun (crash_nil h2) out)
    · rw [h] at h2 ⊢
      exact C42_crash out shift chunks copyCancelled xs fs fs' h2

/-- For programs which create one file and write to it. -/
theorem appended_faulty {α : Type} (c : Code α) (p : Prog α) (hc : c.denote = p) (out : String) (fs fs1 fs' : FS) (a : α)
    (r : Res α) (whole : List UInt8) (ha : Appends out p fs) (h1 : p.exec fs = .ok (a, fs1)) (hw : Holds fs1 out whole)
    (hf : Faulty c fs r fs') :
    (r = .ok a ∧ fs' = fs1) ∨ (r = .panic ∧ (fs' out = fs out ∨ ∃ k, Holds fs' out (whole.take k))) := by
  rcases C106_complete_or_panic c p hc fs fs' r hf with ⟨e1, e2⟩ | ⟨e1, e2⟩
  · left
    unfold aloneResult at e1
    unfold aloneFiles at e2
    unfold Prog.exec at h1
    rcases hp : p fs with ⟨ops, q⟩
    rw [hp] at h1 e1 e2
    cases q with
    | ok b => cases h1; exact ⟨e1, e2⟩
    | panic => cases h1
    | hang => cases h1
  · exact Or.inr ⟨e1, crash_appended ha h1 hw e2⟩

theorem decompress_appends (inflate : Inflate) (sched : Block → Sched) (cut : Option Nat) (inp out : String) (fs : FS) :
    Appends out (decompress inflate sched cut inp out) fs :=
  appends_process _ _ _ _ (fun xs fs => appends_create (appends_all out xs) fs) fs

theorem tagfilter_appends (inflate : Inflate) (sched : Block → Sched) (cut : Option Nat) (inp out : String) (fs : FS) :
    Appends out (tagfilter inflate sched cut inp out) fs :=
  appends_process _ _ _ _ (fun xs fs => appends_create (appends_loop out xs 0) fs) fs

/-- C106: decompress, where the run with nothing failing completes with the output `whole`: whatever fails, it completes with
that, or panics, and the output is as it was or a first part of `whole`. -/
theorem C106_decompress (inflate : Inflate) (sched : Block → Sched) (cut : Option Nat) (inp out : String) (c : Code Unit)
    (hc : c.denote = decompress inflate sched cut inp out) (fs fs1 fs' : FS) (r : Res Unit) (whole : List UInt8)
    (h1 : (decompress inflate sched cut inp out).exec fs = .ok ((), fs1)) (hw : Holds fs1 out whole) (hf : Faulty c fs r fs') :
    (r = .ok () ∧ fs' = fs1) ∨ (r = .panic ∧ (fs' out = fs out ∨ ∃ k, Holds fs' out (whole.take k))) :=
  appended_faulty c _ hc out fs fs1 fs' () r whole (decompress_appends inflate sched cut inp out fs) h1 hw hf

/-- C106: tagfilter. -/
theorem C106_tagfilter (inflate : Inflate) (sched : Block → Sched) (cut : Option Nat) (inp out : String) (c : Code Nat)
    (hc : c.denote = tagfilter inflate sched cut inp out) (fs fs1 fs' : FS) (r : Res Nat) (n : Nat) (whole : List UInt8)
    (h1 : (tagfilter inflate sched cut inp out).exec fs = .ok (n, fs1)) (hw : Holds fs1 out whole) (hf : Faulty c fs r fs') :
    (r = .ok n ∧ fs' = fs1) ∨ (r = .panic ∧ (fs' out = fs out ∨ ∃ k, Holds fs' out (whole.take k))) :=
  appended_faulty c _ hc out fs fs1 fs' n r whole (tagfilter_appends inflate sched cut inp out fs) h1 hw hf

/-- A program that creates one file, writes to it and touches no other. -/
theorem room_appended {α : Type} (c : Code α) (p : Prog α) (hc : c.denote = p) (out : String) (fs fs1 : FS) (a : α)
    (whole : List UInt8) (ha : Appends out p fs) (ht : Touches (fun f => f = out) p)
    (h1 : p.exec fs = .ok (a, fs1)) (hne : (p fs).1 ≠ []) (hw : Holds fs1 out whole) (room : Nat) :
    (whole.length ≤ room → c.onDisk room fs = (.ok a, fs1)) ∧
    (room < whole.length → (c.onDisk room fs).1 = .panic ∧ Holds (c.onDisk room fs).2 out (whole.take room)) := by
  subst hc
  have hall : opsOn out (c.denote fs).1 = (c.denote fs).1 := by
    unfold opsOn
    rw [List.filter_eq_self]
    intro op ho
    exact decide_eq_true (ht fs op ho)
  have hrun : (c.denote fs).2 = .ok a ∧ runOps (c.denote fs).1 fs = fs1 := by
    unfold Prog.exec at h1
    rcases hp : c.denote fs with ⟨ops, q⟩
    rw [hp] at h1
    cases q with
    | ok b => cases h1; exact ⟨rfl, rfl⟩
    | panic => cases h1
    | hang => cases h1
  rcases ha with ha | ⟨ps, ha⟩
  · rw [hall] at ha
    exact absurd ha hne
  · rw [hall] at ha
    have hsum : ∀ ps : List (List UInt8), bytesWritten (ps.map (.write out)) = ps.flatten.length := by
      intro ps
      induction ps with
      | nil => rfl
      | cons q ps ih => rw [List.map_cons, bytesWritten_cons, ih, List.flatten_cons, List.length_append]; rfl
    have hwhole : whole = ps.flatten := by
      obtain ⟨pos, hw⟩ := hw
      rw [← hrun.2, ha, runOps_cons, run_pieces out ps ((FsOp.create out).run fs) ⟨[], 0⟩ (set_same _ _ _) (Nat.le_refl _)] at hw
      simp only [FsOp.run, set_same, Option.map_some, Option.some.injEq] at hw
      have := congrArg File.data hw
      simpa [File.write] using this.symm
    have hbytes : bytesWritten (c.denote fs).1 = whole.length := by
      rw [ha, bytesWritten_cons, hsum, hwhole]
      exact Nat.zero_add _
    obtain ⟨s1, s2⟩ := c.onDisk_spec room fs
    rw [hbytes] at s1 s2
    refine ⟨fun h => ?_, fun h => ⟨(s2 h).1, ?_⟩⟩
    · rw [s1 h, hrun.1, hrun.2]
    · obtain ⟨pos, e⟩ := c.onDisk_created out room fs ps ha (by rw [← hwhole]; exact h)
      exact ⟨pos, by rw [e, hwhole]⟩

/-- C106: decompress on a disk that becomes full: it completes if there is room for the output; otherwise it panics, and as
much of the output as there was room for has been written. -/
theorem C106_decompress_full_disk (inflate : Inflate) (sched : Block → Sched) (cut : Option Nat) (inp out : String) (c : Code Unit)
    (hc : c.denote = decompress inflate sched cut inp out) (fs fs1 : FS) (whole : List UInt8)
    (h1 : (decompress inflate sched cut inp out).exec fs = .ok ((), fs1)) (hw : Holds fs1 out whole) (room : Nat) :
    (whole.length ≤ room → c.onDisk room fs = (.ok (), fs1)) ∧
    (room < whole.length → (c.onDisk room fs).1 = .panic ∧ Holds (c.onDisk room fs).2 out (whole.take room)) := by
  refine room_appended c _ hc out fs fs1 () whole (decompress_appends inflate sched cut inp out fs)
    (touches_process _ _ _ fun xs => touches_decompressOutput (by rfl) xs) h1 ?_ hw room
  intro h
  unfold decompress at h h1
  rcases process_ops cut (decompressWork inflate sched) inp (decompressOutput out) fs with ⟨_, h2⟩ | ⟨xs, h2⟩
  · unfold Prog.exec at h1
    rcases hp : process cut (decompressWork inflate sched) inp (decompressOutput out) fs with ⟨ops, q⟩
    rw [hp] at h1 h2
    cases q with
    | ok b => exact h2 b rfl
    | panic => cases h1
    | hang => cases h1
  · rw [h2] at h
    unfold decompressOutput at h
    rw [bind_ops] at h
    have hcons : ∀ q : Unit → Prog Unit, (Prog.bind (OsCreate out) q fs).1 ≠ [] := by
      intro q hq
      unfold Prog.bind OsCreate Prog.emit at hq
      simp at hq
    exact hcons _ h

/-! ## Removals that fail -/

/-- One of them is removed, the other may be left. -/
theorem try_alike (stuck : String → Bool) (f : String) {S T : String → Prop} (hs : ∀ g, S g → T g) (hf : stuck f = true → T f)
    (fs fs' : FS) (ha : ∀ g, ¬ S g → fs g = fs' g) :
    AlikeBut T ((OsRemoveTry f).exec fs) ((OsRemoveTryIf stuck f).exec fs') := by
  unfold OsRemoveTryIf
  split
  · rename_i hst
    refine .ok _ _ ⟨rfl, fun g hg => ?_⟩
    show (FsOp.remove f).run fs g = fs' g
    have hne : g ≠ f := fun e => hg (e ▸ hf hst)
    refine (set_other _ _ hne).trans ?_
    exact ha g fun h => hg (hs g h)
  · refine .ok _ _ ⟨rfl, fun g hg => ?_⟩
    exact run_same (.remove f) (S := fun g => ¬ T g) (fun g hg => ha g fun h => hg (hs g h)) g hg

/-- The pass files from one number up to another, excluding that, which cannot be removed. -/
def stuckPasses (stuck : String → Bool) (out : String) (n first i : Nat) : String → Prop :=
  fun f => stuck f = true ∧ ∃ p, first ≤ p ∧ p < i ∧ f = RelIndex.makePassFilename out p n

theorem not_stuckPass {stuck : String → Bool} {out : String} {n first i q : Nat} (h : i ≤ q) :
    ¬ stuckPasses stuck out n first i (RelIndex.makePassFilename out q n) := by
  rintro ⟨_, p, _, h2, h3⟩
  have := RelIndex.pass_inj h3
  omega

theorem out_not_stuckPass (stuck : String → Bool) (out : String) (n first i : Nat) : ¬ stuckPasses stuck out n first i out := by
  rintro ⟨_, p, _, _, h⟩
  exact RelIndex.pass_ne_out _ _ _ h.symm

theorem nowhere {S : String → Prop} (f : String) (h : False ∨ False) : ¬ S f := h.elim False.elim False.elim

theorem passes_stuck (stuck : String → Bool) (inflate : Inflate) (scheds : Nat → Block → Sched) (cuts : Nat → Option Nat)
    (ix : NodeIndex.NodeIdx) (inp out : String) (n : Nat) :
    ∀ left i (fs fs' : FS), i + left = n → (∀ f, ¬ stuckPasses stuck out n 1 (i - 1) f → fs f = fs' f) →
      AlikeBut (stuckPasses stuck out n 1 (n - 1)) ((rewritePasses inflate scheds cuts ix inp out n left i).exec fs)
        ((rewritePassesStuck stuck inflate scheds cuts ix inp out n left i).exec fs')
  | 0, i, fs, fs', h, ha => by
    have : i = n := by omega
    subst this
    exact .ok _ _ ⟨rfl, ha⟩
  | left + 1, i, fs, fs', h, ha => by
    unfold rewritePasses rewritePassesStuck
    rw [Prog.exec_bind, Prog.exec_bind]
    have h1 : AlikeBut (stuckPasses stuck out n 1 i) ((Rewrite.removeOld out n i).exec fs)
        ((removeOldIf stuck out n i).exec fs') := by
      unfold Rewrite.removeOld removeOldIf
      have hmono : ∀ g, stuckPasses stuck out n 1 (i - 1) g → stuckPasses stuck out n 1 i g :=
        fun g ⟨s, p, a, b, c⟩ => ⟨s, p, a, by omega, c⟩
      by_cases hi : i > 1
      · rw [if_pos hi, if_pos hi]
        exact try_alike stuck _ hmono (fun hs => ⟨hs, i - 1, by omega, by omega, rfl⟩) fs fs' ha
      · rw [if_neg hi, if_neg hi]
        exact .ok _ _ ⟨rfl, fun g hg => ha g fun hb => hg (hmono g hb)⟩
    refine alikeBut_bind h1 fun _ fs1 fs1' ha1 => ?_
    dsimp only
    rw [Prog.exec_bind, Prog.exec_bind]
    refine alikeBut_bind (coded_alike (coded_lift (fun _ => False) (fun _ => False) _) fs1 fs1' ha1 nowhere)
      fun si fs2 fs2' ha2 => ?_
    dsimp only
    rw [Prog.exec_bind, Prog.exec_bind]
    refine alikeBut_bind (S := stuckPasses stuck out n 1 i) ?_ fun _ fs3 fs3' ha3 =>
      passes_stuck stuck inflate scheds cuts ix inp out n left (i + 1) fs3 fs3' (by omega) ha3
    refine coded_alike (R := fun f => f = Rewrite.passInput inp out n i)
      (W := fun f => f = Rewrite.passOutput out n i) (coded_process _ _ (by rfl) fun xs => coded_output (by rfl) xs) fs2 fs2' ha2 ?_
    · rintro f (rfl | rfl)
      · unfold Rewrite.passInput
        split
        · exact not_stuckPass (Nat.le_refl _)
        · rintro ⟨_, p, a, b, e⟩
          omega
      · unfold Rewrite.passOutput
        split
        · exact not_stuckPass (by omega)
        · exact out_not_stuckPass _ _ _ _ _

/-- C106: if files between passes cannot be removed, rewritenodes ends as if they could, and all other files are the same. -/
theorem C106_rewritenodes_stuck (stuck : String → Bool) (inflate : Inflate) (scheds : Nat → Block → Sched)
    (cuts : Nat → Option Nat) (memory : Option UInt64) (inp index out : String) (fs : FS) :
    Alike (fun r s => ∀ f, ¬ leftByRewrite stuck out f → r.2 f = s.2 f)
      ((rewritenodes inflate scheds cuts memory inp index out).exec fs)
      ((rewritenodesStuck stuck inflate scheds cuts memory inp index out).exec fs) := by
  have key : AlikeBut (leftByRewrite stuck out) ((rewritenodes inflate scheds cuts memory inp index out).exec fs)
      ((rewritenodesStuck stuck inflate scheds cuts memory inp index out).exec fs) := by
    unfold rewritenodes rewritenodesStuck
    have same : ∀ {β : Type} (p : Prog β) (fs : FS), AlikeBut (fun _ => False) (p.exec fs) (p.exec fs) := by
      intro β p fs
      exact Repeat.alike_rfl (fun _ => ⟨rfl, fun _ _ => rfl⟩) _
    have eqs : ∀ {fs fs' : FS}, (∀ f, ¬ False → fs f = fs' f) → fs = fs' := fun h => funext fun f => h f id
    rw [Prog.exec_bind, Prog.exec_bind]
    refine alikeBut_bind (same _ _) fun _ fs1 fs1' ha => ?_
    obtain rfl := eqs ha
    dsimp only
    rw [Prog.exec_bind, Prog.exec_bind]
    refine alikeBut_bind (same _ _) fun m fs2 fs2' ha => ?_
    obtain rfl := eqs ha
    dsimp only
    rw [Prog.exec_bind, Prog.exec_bind]
    refine alikeBut_bind (same _ _) fun ix fs3 fs3' ha => ?_
    obtain rfl := eqs ha
    dsimp only
    rw [Prog.exec_bind, Prog.exec_bind]
    refine alikeBut_bind (same _ _) fun n fs4 fs4' ha => ?_
    obtain rfl := eqs ha
    dsimp only
    rw [Prog.exec_bind, Prog.exec_bind]
    refine alikeBut_bind (passes_stuck stuck inflate scheds cuts ix inp out n.toNat n.toNat 0 fs4 fs4 (by omega) fun _ _ => rfl)
      fun _ fs5 fs5' ha => ?_
    dsimp only
    have hle : ∀ f, stuckPasses stuck out n.toNat 1 (n.toNat - 1) f → leftByRewrite stuck out f :=
      fun f ⟨s, p, a, b, e⟩ => ⟨s, p, n.toNat, a, by omega, e⟩
    have := coded_alike (p := Rewrite.removeLast out n.toNat)
      (R := fun f => f = RelIndex.makePassFilename out (n.toNat - 1) n.toNat)
      (W := fun f => f = RelIndex.makePassFilename out (n.toNat - 1) n.toNat) (by
        unfold Rewrite.removeLast
        split
        · exact coded_OsRemove rfl rfl
        · exact coded_pure _ _ _) fs5 fs5' ha (by
        rintro f (rfl | rfl) <;> exact not_stuckPass (Nat.le_refl _))
    exact Repeat.Alike.mono this fun r s h => ⟨h.1, fun f hf => h.2 f fun hs => hf (hle f hs)⟩
  exact Repeat.Alike.mono key fun r s h => h.2

theorem relPasses_stuck (stuck : String → Bool) (ix : WayIndex.WayIdx) (out : String) (n : Nat) :
    ∀ left i (fs fs' : FS), i + left = n → (∀ f, ¬ stuckPasses stuck out n 0 i f → fs f = fs' f) →
      AlikeBut (stuckPasses stuck out n 0 n) ((RelIndex.runPasses out ix n left i).exec fs)
        ((RelIndex.runPassesStuck stuck out ix n left i).exec fs')
  | 0, i, fs, fs', h, ha => by
    have : i = n := by omega
    subst this
    exact .ok _ _ ⟨rfl, ha⟩
  | left + 1, i, fs, fs', h, ha => by
    unfold RelIndex.runPasses RelIndex.runPassesStuck
    rw [Prog.exec_bind, Prog.exec_bind]
    refine alikeBut_bind (S := stuckPasses stuck out n 0 i) ?_ fun _ fs1 fs1' ha1 => ?_
    · refine coded_alike (R := fun f => f = RelIndex.makePassFilename out i n)
        (W := fun f => f = if i + 1 < n then RelIndex.makePassFilename out (i + 1) n else out)
        (coded_relRewrite (by rfl) (by rfl) _ _ _) fs fs' ha ?_
      rintro f (rfl | rfl)
      · exact not_stuckPass (Nat.le_refl _)
      · split
        · exact not_stuckPass (by omega)
        · exact out_not_stuckPass _ _ _ _ _
    · dsimp only
      rw [Prog.exec_bind, Prog.exec_bind]
      exact alikeBut_bind (try_alike stuck _ (fun g ⟨s, p, a, b, c⟩ => ⟨s, p, a, Nat.lt_succ_of_lt b, c⟩)
        (fun hs => ⟨hs, i, Nat.zero_le _, Nat.lt_succ_self i, rfl⟩) fs1 fs1' ha1) fun _ fs2 fs2' ha2 =>
        relPasses_stuck stuck ix out n left (i + 1) fs2 fs2' (by omega) ha2

/-- C106: the same for relindex. -/
theorem C106_relindex_stuck (stuck : String → Bool) (inflate : Inflate) (sched : Block → Sched) (cut : Option Nat) (passes : Nat)
    (inp wayIndex out : String) (fs : FS) :
    Alike (fun r s => ∀ f, ¬ leftByRelindex stuck out f → r.2 f = s.2 f)
      ((relindex inflate sched cut passes inp wayIndex out).exec fs)
      ((relindexStuck stuck inflate sched cut passes inp wayIndex out).exec fs) := by
  have key : AlikeBut (leftByRelindex stuck out) ((relindex inflate sched cut passes inp wayIndex out).exec fs)
      ((relindexStuck stuck inflate sched cut passes inp wayIndex out).exec fs) := by
    have same : ∀ {β : Type} (p : Prog β) (fs : FS), AlikeBut (fun _ => False) (p.exec fs) (p.exec fs) := by
      intro β p fs
      exact Repeat.alike_rfl (fun _ => ⟨rfl, fun _ _ => rfl⟩) _
    have eqs : ∀ {fs fs' : FS}, (∀ f, ¬ False → fs f = fs' f) → fs = fs' := fun h => funext fun f => h f id
    unfold relindex relindexStuck process
    iterate 4
      rw [Prog.exec_bind, Prog.exec_bind]
      refine alikeBut_bind (same _ _) fun _ _ _ ha => ?_
      obtain rfl := eqs ha
      dsimp only
    unfold RelIndex.relindex RelIndex.relindexStuck
    iterate 4
      rw [Prog.exec_bind, Prog.exec_bind]
      refine alikeBut_bind (same _ _) fun _ _ _ ha => ?_
      obtain rfl := eqs ha
      dsimp only
    exact Repeat.Alike.mono (relPasses_stuck stuck _ out passes passes 0 _ _ (by omega) fun _ _ => rfl)
      fun r s h => ⟨h.1, fun f hf => h.2 f fun ⟨s, p, _, b, e⟩ => hf ⟨s, p, passes, b, e⟩⟩
  exact Repeat.Alike.mono key fun r s h => h.2

/-! ## Both -/

theorem try_none (stuck : String → Bool) {out f : String} (hne : f ≠ out) (fs : FS) :
    opsOn out (OsRemoveTryIf stuck f fs).1 = [] := by
  unfold OsRemoveTryIf
  split
  · rfl
  · exact opsOn_none (S := fun g => g = f) (touches_emit rfl) (fun e => hne e.symm) fs

theorem appends_rewritePassesStuck (stuck : String → Bool) (inflate : Inflate) (scheds : Nat → Block → Sched) (cuts : Nat → Option Nat)
    (ix : NodeIndex.NodeIdx) (inp out : String) (n : Nat) :
    ∀ left i fs, i + left = n → Appends out (rewritePassesStuck stuck inflate scheds cuts ix inp out n left i) fs
  | 0, _, _, _ => Or.inl rfl
  | left + 1, i, fs, h => by
    unfold rewritePassesStuck
    refine appends_bind ?_ fun _ _ => appends_bind rfl fun _ _ => ?_
    · unfold removeOldIf
      split
      · exact try_none stuck (RelIndex.pass_ne_out _ _ _) fs
      · rfl
    · unfold Rewrite.passOutput rewritePass
      by_cases hl : i + 1 < n
      · rw [if_pos hl]
        refine appends_bind ?_ fun _ _ => appends_rewritePassesStuck stuck inflate scheds cuts ix inp out n left _ _ (by omega)
        exact opsOn_none (S := fun g => g = RelIndex.makePassFilename out (i + 1) n)
          (touches_process _ _ _ fun xs => touches_output (by rfl) xs) (fun e => RelIndex.pass_ne_out out (i + 1) n e.symm) _
      · rw [if_neg hl]
        have : left = 0 := by omega
        subst this
        exact appends_then (appends_process _ _ _ _ (fun xs fs => appends_create (writes_blocks out xs) fs) _) fun _ _ => rfl

theorem rewritenodesStuck_appends (stuck : String → Bool) (inflate : Inflate) (scheds : Nat → Block → Sched)
    (cuts : Nat → Option Nat) (memory : Option UInt64) (inp index out : String) (fs : FS) :
    Appends out (rewritenodesStuck stuck inflate scheds cuts memory inp index out) fs := by
  unfold rewritenodesStuck
  refine appends_bind rfl fun _ _ => appends_bind rfl fun _ _ => appends_bind rfl fun _ _ => appends_bind rfl fun n _ =>
    appends_then (appends_rewritePassesStuck _ _ _ _ _ _ _ _ _ _ _ (by omega)) fun _ fs1 => ?_
  unfold Rewrite.removeLast
  split
  · exact opsOn_none (S := fun g => g = RelIndex.makePassFilename out (n.toNat - 1) n.toNat) (touches_OsRemove rfl)
      (fun e => RelIndex.pass_ne_out out _ _ e.symm) fs1
  · rfl

theorem appends_relPassesStuck (stuck : String → Bool) (out : String) (ix : WayIndex.WayIdx) (n : Nat) :
    ∀ left i fs, i + left = n → Appends out (RelIndex.runPassesStuck stuck out ix n left i) fs
  | 0, _, _, _ => Or.inl rfl
  | left + 1, i, fs, h => by
    unfold RelIndex.runPassesStuck
    by_cases hl : i + 1 < n
    · rw [if_pos hl]
      refine appends_bind ?_ fun _ _ => appends_bind (try_none stuck (RelIndex.pass_ne_out _ _ _) _) fun _ _ =>
        appends_relPassesStuck stuck out ix n left _ _ (by omega)
      exact opsOn_none (S := fun g => g = RelIndex.makePassFilename out (i + 1) n) (touches_relRewrite (by rfl) _ _ _ _)
        (fun e => RelIndex.pass_ne_out out (i + 1) n e.symm) fs
    · rw [if_neg hl]
      have : left = 0 := by omega
      subst this
      refine appends_then (appends_relRewrite _ _ _ _ _ _) fun _ fs1 => ?_
      rw [bind_ops]
      unfold Prog.bind
      have h0 := try_none stuck (RelIndex.pass_ne_out out i n) fs1
      rcases hp : OsRemoveTryIf stuck (RelIndex.makePassFilename out i n) fs1 with ⟨ops, r⟩
      rw [hp] at h0
      cases r with
      | ok a =>
        dsimp only
        rw [opsOn_append, h0]
        rfl
      | panic => exact h0
      | hang => exact h0

theorem relindexStuck_appends (stuck : String → Bool) (inflate : Inflate) (sched : Block → Sched) (cut : Option Nat)
    (passes : Nat) (inp wayIndex out : String) (fs : FS) :
    Appends out (relindexStuck stuck inflate sched cut passes inp wayIndex out) fs := by
  unfold relindexStuck
  refine appends_process _ _ _ _ (fun sent fs => ?_) fs
  unfold RelIndex.relindexStuck
  refine appends_bind ?_ fun _ _ => appends_bind rfl fun _ _ => appends_bind rfl fun _ _ => appends_bind rfl fun _ _ =>
    appends_relPassesStuck stuck out _ passes passes 0 _ (by omega)
  unfold RelIndex.InitOutput
  exact opsOn_none (S := fun g => g = RelIndex.makePassFilename out 0 passes)
    (touches_bind (touches_emit rfl) fun _ => touches_relBlocks (by rfl) _) (fun e => RelIndex.pass_ne_out out 0 passes e.symm) fs

theorem alike_ok {α : Type} {S : String → Prop} {a : α} {fs1 : FS} {y : Res (α × FS)}
    (h : Alike (fun r s : α × FS => ∀ f, ¬ S f → r.2 f = s.2 f) (.ok (a, fs1)) y) :
    ∃ b fs2, y = .ok (b, fs2) ∧ ∀ f, ¬ S f → fs1 f = fs2 f := by
  cases h with
  | ok _ q h => exact ⟨q.1, q.2, rfl, h⟩

/-- C106: rewritenodes, where the run with nothing failing completes with the output `whole`: whatever fails, and whatever pass
files cannot be removed: it completes with that output, and all files are as they should be but such pass files; or it panics,
and the output is as it was or a first part of `whole`. -/
theorem C106_rewritenodes (stuck : String → Bool) (inflate : Inflate) (scheds : Nat → Block → Sched) (cuts : Nat → Option Nat)
    (memory : Option UInt64) (inp index out : String) (c : Code Unit)
    (hc : c.denote = rewritenodesStuck stuck inflate scheds cuts memory inp index out) (fs fs1 fs' : FS) (r : Res Unit)
    (whole : List UInt8) (h1 : (rewritenodes inflate scheds cuts memory inp index out).exec fs = .ok ((), fs1))
    (hw : Holds fs1 out whole) (hf : Faulty c fs r fs') :
    (r = .ok () ∧ Holds fs' out whole ∧ ∀ f, ¬ leftByRewrite stuck out f → fs' f = fs1 f) ∨
    (r = .panic ∧ (fs' out = fs out ∨ ∃ k, Holds fs' out (whole.take k))) := by
  have ha := C106_rewritenodes_stuck stuck inflate scheds cuts memory inp index out fs
  rw [h1] at ha
  obtain ⟨_, fs2, h2, h3⟩ := alike_ok ha
  have hout : ¬ leftByRewrite stuck out out := fun ⟨_, p, n, _, _, e⟩ => RelIndex.pass_ne_out _ _ _ e.symm
  have hw2 : Holds fs2 out whole := by
    obtain ⟨pos, hw⟩ := hw
    exact ⟨pos, (h3 out hout).symm.trans hw⟩
  rcases appended_faulty c _ hc out fs fs2 fs' () r whole
    (rewritenodesStuck_appends stuck inflate scheds cuts memory inp index out fs) h2 hw2 hf with ⟨e1, e2⟩ | e
  · subst e2
    exact Or.inl ⟨e1, hw2, fun f hf => (h3 f hf).symm⟩
  · exact Or.inr e

/-- C106: the same for relindex. -/
theorem C106_relindex (stuck : String → Bool) (inflate : Inflate) (sched : Block → Sched) (cut : Option Nat) (passes : Nat)
    (inp wayIndex out : String) (c : Code Unit)
    (hc : c.denote = relindexStuck stuck inflate sched cut passes inp wayIndex out) (fs fs1 fs' : FS) (r : Res Unit)
    (whole : List UInt8) (h1 : (relindex inflate sched cut passes inp wayIndex out).exec fs = .ok ((), fs1))
    (hw : Holds fs1 out whole) (hf : Faulty c fs r fs') :
    (r = .ok () ∧ Holds fs' out whole ∧ ∀ f, ¬ leftByRelindex stuck out f → fs' f = fs1 f) ∨
    (r = .panic ∧ (fs' out = fs out ∨ ∃ k, Holds fs' out (whole.take k))) := by
  have ha := C106_relindex_stuck stuck inflate sched cut passes inp wayIndex out fs
  rw [h1] at ha
  obtain ⟨_, fs2, h2, h3⟩ := alike_ok ha
  have hout : ¬ leftByRelindex stuck out out := fun ⟨_, p, n, _, e⟩ => RelIndex.pass_ne_out _ _ _ e.symm
  have hw2 : Holds fs2 out whole := by
    obtain ⟨pos, hw⟩ := hw
    exact ⟨pos, (h3 out hout).symm.trans hw⟩
  rcases appended_faulty c _ hc out fs fs2 fs' () r whole
    (relindexStuck_appends stuck inflate sched cut passes inp wayIndex out fs) h2 hw2 hf with ⟨e1, e2⟩ | e
  · subst e2
    exact Or.inl ⟨e1, hw2, fun f hf => (h3 f hf).symm⟩
  · exact Or.inr e

/-! ## What is left over -/

theorem relPassesStuck_left (stuck : String → Bool) (ix : WayIndex.WayIdx) (out : String) (n : Nat) :
    ∀ left i (fs fs' : FS), i + left = n → (RelIndex.runPassesStuck stuck out ix n left i).exec fs = .ok ((), fs') →
      (∀ p, p < i → fs' (RelIndex.makePassFilename out p n) = fs (RelIndex.makePassFilename out p n)) ∧
      ∀ p, i ≤ p → p < n → stuck (RelIndex.makePassFilename out p n) = true →
        fs' (RelIndex.makePassFilename out p n) ≠ none
  | 0, i, fs, fs', h, he => by
    cases he
    exact ⟨fun _ _ => rfl, fun p h1 h2 => by omega⟩
  | left + 1, i, fs, fs', h, he => by
    unfold RelIndex.runPassesStuck at he
    rw [Prog.exec_bind] at he
    obtain ⟨⟨_, f1⟩, e1, he⟩ := Res.bind_eq_ok.1 he
    dsimp only at he
    rw [Prog.exec_bind] at he
    obtain ⟨⟨_, f2⟩, e2, he⟩ := Res.bind_eq_ok.1 he
    obtain ⟨ih1, ih2⟩ := relPassesStuck_left stuck ix out n left (i + 1) f2 fs' (by omega) he
    have hne : ∀ p, p ≤ i → RelIndex.makePassFilename out p n ≠
        (if i + 1 < n then RelIndex.makePassFilename out (i + 1) n else out) := by
      intro p hp e
      split at e
      · have := RelIndex.pass_inj e
        omega
      · exact RelIndex.pass_ne_out _ _ _ e
    have k1 : ∀ p, p ≤ i → f1 (RelIndex.makePassFilename out p n) = fs (RelIndex.makePassFilename out p n) := fun p hp =>
      (touches_relRewrite (S := fun g => g = _) (by rfl) _ _ _ _).exec e1 _ (hne p hp)
    have k2 : ∀ p, p < i ∨ stuck (RelIndex.makePassFilename out p n) = true → f2 (RelIndex.makePassFilename out p n) =
        f1 (RelIndex.makePassFilename out p n) := by
      intro p hp
      unfold OsRemoveTryIf at e2
      split at e2
      · cases e2
        rfl
      · next hs =>
        cases e2
        refine set_other _ _ fun e => ?_
        have := RelIndex.pass_inj e
        subst this
        rcases hp with hp | hp
        · omega
        · exact hs hp
    have hopen : fs (RelIndex.makePassFilename out i n) ≠ none := by
      intro hno
      unfold RelIndex.rewrite at e1
      rw [Prog.exec_bind, Prog.exec_lift] at e1
      obtain ⟨⟨a, g⟩, e3, e1⟩ := Res.bind_eq_ok.1 e1
      obtain ⟨b, _, e3⟩ := Res.bind_eq_ok.1 e3
      cases e3
      dsimp only at e1
      rw [Prog.exec_bind, exec_OsOpen, hno] at e1
      cases e1
    refine ⟨fun p hp => ?_, fun p h1 h2 hs => ?_⟩
    · rw [ih1 p (by omega), k2 p (.inl hp), k1 p (by omega)]
    · by_cases hp : p = i
      · subst hp
        rw [ih1 p (by omega), k2 p (.inr hs), k1 p (by omega)]
        exact hopen
      · exact ih2 p (by omega) h2 hs

/-- C106: a pass file of relindex that cannot be removed is there after the run, and the run does not say so. -/
theorem C106_left_over (stuck : String → Bool) (inflate : Inflate) (sched : Block → Sched) (cut : Option Nat) (passes : Nat)
    (inp wayIndex out : String) (fs fs' : FS)
    (h : (relindexStuck stuck inflate sched cut passes inp wayIndex out).exec fs = .ok ((), fs')) (p : Nat) (hp : p < passes)
    (hs : stuck (RelIndex.makePassFilename out p passes) = true) : fs' (RelIndex.makePassFilename out p passes) ≠ none := by
  obtain ⟨xs, h⟩ := process_exec_ok h
  unfold RelIndex.relindexStuck at h
  rw [Prog.exec_bind] at h
  obtain ⟨⟨_, f1⟩, _, h⟩ := Res.bind_eq_ok.1 h
  dsimp only at h
  rw [Prog.exec_bind] at h
  obtain ⟨⟨_, f2⟩, _, h⟩ := Res.bind_eq_ok.1 h
  dsimp only at h
  rw [Prog.exec_bind] at h
  obtain ⟨⟨m, f3⟩, _, h⟩ := Res.bind_eq_ok.1 h
  dsimp only at h
  rw [Prog.exec_bind] at h
  obtain ⟨⟨ix, f4⟩, _, h⟩ := Res.bind_eq_ok.1 h
  exact (relPassesStuck_left stuck ix out passes passes 0 f4 fs' (by omega) h).2 p (Nat.zero_le _) hp hs

/-! ## The hypotheses are met -/

/-- Whatever cannot be removed, these programs can be carried out access by access. -/
theorem rewritenodesStuck_code (stuck : String → Bool) (inflate : Inflate) (scheds : Nat → Block → Sched)
    (cuts : Nat → Option Nat) (memory : Option UInt64) (inp index out : String) :
    ∃ c : Code Unit, c.denote = rewritenodesStuck stuck inflate scheds cuts memory inp index out := by
  have hT : ∀ f, Coded (fun _ => True) (fun _ => True) (OsRemoveTryIf stuck f) := by
    intro f
    unfold OsRemoveTryIf
    split
    · exact coded_pure _ _ _
    · exact coded_emit trivial
  have passes : ∀ ix n left i, Coded (fun _ => True) (fun _ => True)
      (rewritePassesStuck stuck inflate scheds cuts ix inp out n left i) := by
    intro ix n left
    induction left with
    | zero => exact fun _ => coded_pure _ _ _
    | succ left ih =>
      intro i
      unfold rewritePassesStuck
      refine coded_bind ?_ fun _ => coded_bind (coded_lift _ _ _) fun _ => coded_bind (coded_process _ _ trivial fun xs =>
        coded_output trivial xs) fun _ => ih _
      unfold removeOldIf
      split
      · exact hT _
      · exact coded_pure _ _ _
  have h : Coded (fun _ => True) (fun _ => True) (rewritenodesStuck stuck inflate scheds cuts memory inp index out) := by
    unfold rewritenodesStuck
    refine coded_bind (coded_OsOpen trivial) fun _ => coded_bind (coded_MMapMap trivial) fun _ => coded_bind (coded_lift _ _ _) fun _ =>
      coded_bind (coded_lift _ _ _) fun n => coded_bind (passes _ _ _ _) fun _ => ?_
    unfold Rewrite.removeLast
    split
    · exact coded_OsRemove trivial trivial
    · exact coded_pure _ _ _
  exact ⟨h.choose, h.choose_spec.1⟩

theorem relindexStuck_code (stuck : String → Bool) (inflate : Inflate) (sched : Block → Sched) (cut : Option Nat) (passes : Nat)
    (inp wayIndex out : String) : ∃ c : Code Unit, c.denote = relindexStuck stuck inflate sched cut passes inp wayIndex out := by
  have hT : ∀ f, Coded (fun _ => True) (fun _ => True) (OsRemoveTryIf stuck f) := by
    intro f
    unfold OsRemoveTryIf
    split
    · exact coded_pure _ _ _
    · exact coded_emit trivial
  have hp : ∀ ix left i, Coded (fun _ => True) (fun _ => True) (RelIndex.runPassesStuck stuck out ix passes left i) := by
    intro ix left
    induction left with
    | zero => exact fun _ => coded_pure _ _ _
    | succ left ih =>
      intro i
      unfold RelIndex.runPassesStuck
      exact coded_bind (coded_relRewrite trivial trivial _ _ _) fun _ => coded_bind (hT _) fun _ => ih _
  have h : Coded (fun _ => True) (fun _ => True) (relindexStuck stuck inflate sched cut passes inp wayIndex out) := by
    unfold relindexStuck
    refine coded_process _ _ trivial fun sent => ?_
    unfold RelIndex.relindexStuck RelIndex.InitOutput
    exact coded_bind (coded_bind (coded_emit trivial) fun _ => coded_relBlocks trivial _) fun _ => coded_bind (coded_OsOpen trivial) fun _ =>
      coded_bind (coded_MMapMap trivial) fun _ => coded_bind (coded_lift _ _ _) fun _ => hp _ _ _
  exact ⟨h.choose, h.choose_spec.1⟩

/-- A file of 116 bytes is decompressed to 116 bytes: there may be room for them or not, and if there is room for 50 bytes, the
first 50 are written. -/
example (inflate : Inflate) (sched : Block → Sched) (fs : FS) (hin : Holds fs "in" (fileOf pagedBlocks)) :
    ∃ (c : Code Unit) (fs1 : FS), c.denote = decompress inflate sched none "in" "out" ∧ Holds fs1 "out" (fileOf pagedBlocks) ∧
      c.onDisk (fileOf pagedBlocks).length fs = (.ok (), fs1) ∧ (c.onDisk 50 fs).1 = .panic ∧
      Holds (c.onDisk 50 fs).2 "out" ((fileOf pagedBlocks).take 50) ∧
      ∀ r fs', Faulty c fs r fs' → (r = .ok () ∧ fs' = fs1) ∨
        (r = .panic ∧ (fs' "out" = fs "out" ∨ ∃ k, Holds fs' "out" ((fileOf pagedBlocks).take k))) := by
  obtain ⟨c, hc, _⟩ := C83_decompress inflate sched none "in" "out"
  obtain ⟨bs, hs, hx⟩ := paged_works inflate sched
  obtain ⟨fs1, e1, e2, _⟩ := decompressOutput_exec "out" (pagedBlocks.map fun x => frame x.1 x.2) fs
  have hrun : (decompress inflate sched none "in" "out").exec fs = .ok ((), fs1) := by
    rw [← e1]
    unfold Prog.exec decompress
    rw [process_run none _ "in" _ hs hx fs hin]
  have hw : Holds fs1 "out" (fileOf pagedBlocks) := by
    rw [show (pagedBlocks.map fun x => frame x.1 x.2).flatten = fileOf pagedBlocks from rfl] at e2
    exact e2
  have hf := C106_decompress_full_disk inflate sched none "in" "out" c hc fs fs1 _ hrun hw
  exact ⟨c, fs1, hc, hw, (hf _).1 (Nat.le_refl _), (hf 50).2 (by decide +kernel) |>.1, (hf 50).2 (by decide +kernel) |>.2,
    fun r fs' h => C106_decompress inflate sched none "in" "out" c hc fs fs1 fs' r _ hrun hw h⟩

/-- An error at the second write. -/
example : ∃ c : Code Unit, c.denote = (do OsCreate "f"; Prog.emit (.write "f" [1, 2]); Prog.emit (.write "f" [3, 4, 5])) ∧
    c.accesses (fun _ => none) = 3 ∧
    (c.under (fun i => if i = 2 then .error 1 else .done) 0 (fun _ => none)).1 = .panic ∧
    (c.under (fun i => if i = 2 then .error 1 else .done) 0 (fun _ => none)).2 "f" = some ⟨[1, 2, 3], 3⟩ :=
  ⟨.emit (.create "f") (.emit (.write "f" [1, 2]) (.emit (.write "f" [3, 4, 5]) (.done (.ok ())))), rfl, rfl, rfl, rfl⟩

end Osm.Props
