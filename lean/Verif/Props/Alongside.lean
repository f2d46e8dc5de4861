import Verif.Spec.Alongside
import Verif.Lemmas.Alongside
import Verif.Props.Raw

/-!
# C83, C84: commands beside other processes

C83: a command ends, with the same result and the same files as alone, whatever other processes do at any time to any
files except those it uses; so two commands may run at the same time if neither writes a file which the other uses. The files
which each command uses are listed. C84: profiling (`--cpu-profile`, `--mem-profile`) changes nothing but the files of
the profiles, if these are not files of the command; nothing checks that.
-/

namespace Osm.Props
open Osm Osm.T Osm.Pbf Osm.Spec Osm.Interrupt Osm.Code

/-! ## C83 -/

/-- C83: whatever others do to other files: a command that has ended has ended as it does alone, and its files are as it
leaves them alone. -/
theorem C83_undisturbed {α : Type} (R W : String → Prop) (c : Code α) (p : Prog α) (hc : CarriesOut R W c p) (fs fs' : FS)
    (r : Res α) (hr : Code.Runs (fun f => R f ∨ W f) c fs (.done r) fs') :
    r = aloneResult p fs ∧ ∀ f, R f ∨ W f → fs' f = aloneFiles p fs f := by
  obtain ⟨rfl, hu⟩ := hc
  obtain ⟨_, h1, h2⟩ := hr.same hu
  exact ⟨h1, fun f hf => h2 f hf⟩

/-- C83: and others can neither keep it from ending nor make it perform endlessly many operations. -/
theorem C83_ends {α : Type} (files : String → Prop) (c : Code α) (fs : FS) :
    (∃ r fs', Code.Runs files c fs (.done r) fs') ∧ Acc (fun d c : Code α => ∃ fs fs', Move c fs d fs') c :=
  ⟨c.ends files fs, c.finite⟩

/-- C83: nor does it change files which are not its own: each of its operations leaves all files alone but those it may
change. -/
theorem C83_harmless {α : Type} (R W : String → Prop) (c : Code α) (p : Prog α) (hc : CarriesOut R W c p) (files : String → Prop)
    (fs fs1 fs2 : FS) (c1 c2 : Code α) (hr : Code.Runs files c fs c1 fs1) (hm : Move c1 fs1 c2 fs2) (f : String) (hf : ¬ W f) :
    fs2 f = fs1 f := by
  have key : ∀ {c c1 : Code α} {fs fs1 : FS}, Code.Runs files c fs c1 fs1 → c.Uses R W → c1.Uses R W := by
    intro c c1 fs fs1 h
    induction h with
    | refl => exact id
    | move hm _ ih => exact fun hu => ih (hm.files hu).1
    | others _ _ ih => exact ih
  exact (hm.files (key hr hc.2)).2 f hf

/-- C83: two commands at the same time, their operations in any order: both end as they do alone, with the same files,
and the files of neither are unchanged. -/
theorem C83_two {α β : Type} (R1 W1 R2 W2 : String → Prop) (c : Code α) (p : Prog α) (d : Code β) (q : Prog β)
    (hc : CarriesOut R1 W1 c p) (hd : CarriesOut R2 W2 d q) (ha : Apart R1 W1 R2 W2) (fs fs' : FS) (r : Res α) (r' : Res β)
    (hb : Both c d fs (.done r) (.done r') fs') :
    r = aloneResult p fs ∧ r' = aloneResult q fs ∧
    (∀ f, W1 f → fs' f = aloneFiles p fs f) ∧ (∀ f, W2 f → fs' f = aloneFiles q fs f) ∧
    ∀ f, ¬ W1 f → ¬ W2 f → fs' f = fs f := by
  have h1 := hb.left_runs (R1 := R1) (W1 := W1) hd.2 fun f hf h => h.elim (ha.2 f hf).1 (ha.2 f hf).2
  have h2 := hb.swap.left_runs (R1 := R2) (W1 := W2) hc.2 fun f hf h => h.elim (ha.1 f hf).1 (ha.1 f hf).2
  obtain ⟨e1, e2⟩ := C83_undisturbed R1 W1 c p hc fs fs' r h1
  obtain ⟨e3, e4⟩ := C83_undisturbed R2 W2 d q hd fs fs' r' h2
  exact ⟨e1, e3, fun f hf => e2 f (Or.inr hf), fun f hf => e4 f (Or.inr hf), fun f h3 h4 => hb.others hc.2 hd.2 f h3 h4⟩

/-- C83: also if the other one dies, or is still running. -/
theorem C83_other_dies {α β : Type} (R1 W1 R2 W2 : String → Prop) (c : Code α) (p : Prog α) (d d' : Code β) (q : Prog β)
    (hc : CarriesOut R1 W1 c p) (hd : CarriesOut R2 W2 d q) (ha : Apart R1 W1 R2 W2) (fs fs' : FS) (r : Res α)
    (hb : Both c d fs (.done r) d' fs') :
    r = aloneResult p fs ∧ ∀ f, R1 f ∨ W1 f → fs' f = aloneFiles p fs f :=
  C83_undisturbed R1 W1 c p hc fs fs' r
    (hb.left_runs (R1 := R1) (W1 := W1) hd.2 fun f hf h => h.elim (ha.2 f hf).1 (ha.2 f hf).2)

/-- C83: the files of nodeindex. -/
theorem C83_nodeindex (inflate : Inflate) (sched : Block → Sched) (cut : Option Nat) (chunks : Nat → Nat)
    (copyCancelled : Nat → Bool) (inp out : String) :
    ∃ c, CarriesOut (among [inp, out ++ ".loc.tmp"]) (indexFiles out) c (nodeindex inflate sched cut chunks copyCancelled inp out) :=
  coded_process _ _ (by simp [among]) fun xs =>
    coded_nodeOutput (by simp [among]) (by simp [indexFiles, among]) (by simp [indexFiles, among]) _ _ xs

/-- C83: the files of wayindex. -/
theorem C83_wayindex (inflate : Inflate) (sched : Block → Sched) (cut : Option Nat) (chunks : Nat → Nat)
    (copyCancelled : Nat → Bool) (shift : Int64) (inp out : String) :
    ∃ c, CarriesOut (among [inp, out ++ ".loc.tmp"]) (indexFiles out) c
      (wayindex inflate sched cut chunks copyCancelled shift inp out) :=
  coded_process _ _ (by simp [among]) fun xs =>
    coded_wayOutput (by simp [among]) (by simp [indexFiles, among]) (by simp [indexFiles, among]) _ _ _ xs

/-- C83: the files of relindex. -/
theorem C83_relindex (inflate : Inflate) (sched : Block → Sched) (cut : Option Nat) (passes : Nat)
    (inp wayIndex out : String) :
    ∃ c, CarriesOut (fun f => among [inp, wayIndex] f ∨ passFiles out f) (passFiles out) c
      (relindex inflate sched cut passes inp wayIndex out) :=
  coded_process _ _ (Or.inl (by simp [among])) fun xs =>
    coded_relindex (Or.inl (by simp [among])) (fun p => Or.inr (Or.inr ⟨p, _, rfl⟩)) (Or.inl rfl)
      (fun p => Or.inr ⟨p, _, rfl⟩) xs

/-- C83: the files of rewritenodes. -/
theorem C83_rewritenodes (inflate : Inflate) (scheds : Nat → Block → Sched) (cuts : Nat → Option Nat) (memory : Option UInt64)
    (inp index out : String) :
    ∃ c, CarriesOut (fun f => among [inp, index] f ∨ passFiles out f) (passFiles out) c
      (rewritenodes inflate scheds cuts memory inp index out) :=
  coded_rewritenodes (Or.inl (by simp [among])) (Or.inl (by simp [among])) (fun p n => Or.inr (Or.inr ⟨p, n, rfl⟩))
    (Or.inl rfl) (fun p n => Or.inr ⟨p, n, rfl⟩) _ _ _ _

/-- C83: the files of tagfilter. -/
theorem C83_tagfilter (inflate : Inflate) (sched : Block → Sched) (cut : Option Nat) (inp out : String) :
    ∃ c, CarriesOut (among [inp]) (among [out]) c (tagfilter inflate sched cut inp out) :=
  coded_process _ _ (by simp [among]) fun xs => coded_filterOutput (by simp [among]) xs

/-- C83: the files of decompress. -/
theorem C83_decompress (inflate : Inflate) (sched : Block → Sched) (cut : Option Nat) (inp out : String) :
    ∃ c, CarriesOut (among [inp]) (among [out]) c (decompress inflate sched cut inp out) :=
  coded_process _ _ (by simp [among]) fun xs => coded_decompressOutput (by simp [among]) xs

/-- C83: for instance both indexes of the same file may be made at the same time, in any order of their operations: each
is as if it had been made alone. -/
theorem C83_both_indexes (inflate : Inflate) (s1 s2 : Block → Sched) (chunks1 chunks2 : Nat → Nat)
    (cancelled1 cancelled2 : Nat → Bool) (cut1 cut2 : Option Nat) (shift : Int64) (inp nodes ways : String)
    (hn : (inp :: nodes :: (nodes ++ ".loc.tmp") :: ways :: [ways ++ ".loc.tmp"]).Nodup) :
    ∃ c d, c.denote = nodeindex inflate s1 cut1 chunks1 cancelled1 inp nodes ∧
      d.denote = wayindex inflate s2 cut2 chunks2 cancelled2 shift inp ways ∧
      ∀ fs r r' fs', Both c d fs (.done r) (.done r') fs' →
        r = aloneResult (nodeindex inflate s1 cut1 chunks1 cancelled1 inp nodes) fs ∧
        r' = aloneResult (wayindex inflate s2 cut2 chunks2 cancelled2 shift inp ways) fs ∧
        fs' nodes = aloneFiles (nodeindex inflate s1 cut1 chunks1 cancelled1 inp nodes) fs nodes ∧
        fs' ways = aloneFiles (wayindex inflate s2 cut2 chunks2 cancelled2 shift inp ways) fs ways ∧
        fs' inp = fs inp := by
  obtain ⟨c, hc⟩ := C83_nodeindex inflate s1 cut1 chunks1 cancelled1 inp nodes
  obtain ⟨d, hd⟩ := C83_wayindex inflate s2 cut2 chunks2 cancelled2 shift inp ways
  refine ⟨c, d, hc.1, hd.1, fun fs r r' fs' hb => ?_⟩
  simp only [List.nodup_cons, List.mem_cons, List.not_mem_nil, or_false, not_or, List.nodup_nil, and_true,
    not_false_eq_true] at hn
  obtain ⟨⟨a1, a2, a3, a4⟩, ⟨b1, b2, b3⟩, ⟨c1, c2⟩, d1⟩ := hn
  have ha : Apart (among [inp, nodes ++ ".loc.tmp"]) (indexFiles nodes) (among [inp, ways ++ ".loc.tmp"]) (indexFiles ways) := by
    simp only [Apart, indexFiles, among, List.mem_cons, List.not_mem_nil, or_false, not_or]
    refine ⟨fun f hf => ?_, fun f hf => ?_⟩
    · rcases hf with rfl | rfl
      · exact ⟨⟨Ne.symm a1, b3⟩, b2, b3⟩
      · exact ⟨⟨Ne.symm a2, c2⟩, c1, c2⟩
    · rcases hf with rfl | rfl
      · exact ⟨⟨Ne.symm a3, Ne.symm c1⟩, Ne.symm b2, Ne.symm c1⟩
      · exact ⟨⟨Ne.symm a4, Ne.symm c2⟩, Ne.symm b3, Ne.symm c2⟩
  obtain ⟨e1, e2, e3, e4, e5⟩ := C83_two _ _ _ _ c _ d _ hc hd ha fs fs' r r' hb
  refine ⟨e1, e2, e3 _ (by simp [indexFiles, among]), e4 _ (by simp [indexFiles, among]), e5 _ ?_ ?_⟩
  · simp only [indexFiles, among, List.mem_cons, List.not_mem_nil, or_false, not_or]; exact ⟨a1, a2⟩
  · simp only [indexFiles, among, List.mem_cons, List.not_mem_nil, or_false, not_or]; exact ⟨a3, a4⟩

/-- A program can be carried on by itself until it has performed any of its first operations. -/
theorem carry_on {α : Type} (c : Code α) : ∀ (fs : FS) (first rest : List FsOp), (c.denote fs).1 = first ++ rest →
    ∃ c', c'.denote (runOps first fs) = (rest, (c.denote fs).2) ∧
      ∀ {β : Type} (d d' : Code β) (e : Code α) (fs' : FS), Both c' d (runOps first fs) e d' fs' → Both c d fs e d' fs' := by
  induction c with
  | done r =>
    intro fs first rest h
    have : first = [] ∧ rest = [] := by
      have : ([] : List FsOp) = first ++ rest := h
      simpa using this.symm
    obtain ⟨rfl, rfl⟩ := this
    exact ⟨.done r, rfl, fun d d' e fs' hb => hb⟩
  | emit op next ih =>
    intro fs first rest h
    cases first with
    | nil => exact ⟨.emit op next, Prod.ext h rfl, fun d d' e fs' hb => hb⟩
    | cons o first =>
      have h : op :: (next.denote (op.run fs)).1 = o :: (first ++ rest) := h
      injection h with h1 h2
      subst h1
      obtain ⟨c', e1, e2⟩ := ih (op.run fs) first rest h2
      refine ⟨c', e1, fun d d' e fs' hb => .left (.emit _ _ _) (e2 d d' e fs' hb)⟩
  | ask f next ih =>
    intro fs first rest h
    obtain ⟨c', e1, e2⟩ := ih (fs f) fs first rest h
    exact ⟨c', e1, fun d d' e fs' hb => .left (.ask _ _ _) (e2 d d' e fs' hb)⟩

theorem finish_right {α β : Type} (c : Code α) (d : Code β) : ∀ fs, Both c d fs c (.done (d.denote fs).2) (runOps (d.denote fs).1 fs) := by
  induction d with
  | done r => exact fun fs => .refl _ _ _
  | emit op next ih => exact fun fs => .right (.emit _ _ _) (ih (op.run fs))
  | ask f next ih => exact fun fs => .right (.ask _ _ _) (ih (fs f) fs)

theorem finish_left {α β : Type} (c : Code α) (d : Code β) (fs : FS) :
    Both c d fs (.done (c.denote fs).2) d (runOps (c.denote fs).1 fs) := (finish_right d c fs).swap

/-- C83: the proviso is needed: a command that is started on a file while another one is still writing it may panic, though
it would have succeeded before. (`decompress` from `a` to `b` and from `b` to `d`.) -/
theorem C83_unfinished_input (inflate : Inflate) (sched : Block → Sched) (a b d : String) (hab : a ≠ b) (file : List UInt8)
    (bs : List Block) (outs : List (List UInt8)) (hs : split file = .ok bs)
    (ho : mapRes (decompressWork inflate sched) bs = .ok outs) (fs : FS) (ha : Holds fs a file) (hb : Holds fs b file) :
    aloneResult (decompress inflate sched none b d) fs = .ok () ∧
    ∃ (p q : Code Unit) (fs' : FS), p.denote = decompress inflate sched none a b ∧ q.denote = decompress inflate sched none b d ∧
      Both p q fs (.done (.ok ())) (.done .panic) fs' := by
  have hrun : ∀ (x y : String), Holds fs x file → decompress inflate sched none x y fs = decompressOutput y outs fs := by
    intro x y hx
    unfold decompress
    exact process_run none _ x _ hs ho fs hx
  have hout : ∀ (ys : List (List UInt8)) (y : String) (fs : FS), (writeAll y ys fs).2 = .ok () := by
    intro ys y
    induction ys with
    | nil => intro fs; rfl
    | cons x ys ih =>
      intro fs
      show (writeAll y ys ((FsOp.write y x).run fs)).2 = _
      exact ih _
  have hok : ∀ (y : String) (fs : FS), (decompressOutput y outs fs).2 = .ok () := by
    intro y fs
    show (writeAll y outs ((FsOp.create y).run fs)).2 = _
    exact hout _ _ _
  refine ⟨by unfold aloneResult; rw [hrun b d hb, hok], ?_⟩
  obtain ⟨p, hp, _⟩ := C83_decompress inflate sched none a b
  obtain ⟨q, hq, _⟩ := C83_decompress inflate sched none b d
  have hops : ∃ rest, (p.denote fs).1 = [FsOp.create b] ++ rest := by
    rw [hp, hrun a b ha]
    unfold decompressOutput OsCreate
    rw [bind_emit_ops]
    exact ⟨_, rfl⟩
  obtain ⟨rest, hops⟩ := hops
  obtain ⟨p', e1, e2⟩ := carry_on p fs [.create b] rest hops
  have hpan : (q.denote (runOps [.create b] fs)) = ([], .panic) := by
    rw [hq]
    unfold decompress process
    show Prog.bind _ _ _ = _
    have h1 : OsOpen b (runOps [.create b] fs) = ([], .ok ()) := by
      unfold OsOpen
      rw [show runOps [.create b] fs b = some ⟨[], 0⟩ from set_same _ _ _]
      rfl
    unfold Prog.bind
    rw [h1]
    show ([] ++ (Prog.bind _ _ _).1, (Prog.bind _ _ _).2) = _
    have h2 : MMapMap b (runOps [] (runOps [.create b] fs)) = ([], .panic) := by
      unfold MMapMap
      rw [show runOps [] (runOps [.create b] fs) b = some ⟨[], 0⟩ from set_same _ _ _]
      rfl
    unfold Prog.bind
    rw [h2]
    rfl
  have hfin := finish_right p' q (runOps [.create b] fs)
  rw [hpan] at hfin
  have hp2 : (p.denote fs).2 = .ok () := by rw [hp, hrun a b ha, hok]
  have hlast := finish_left p' (.done .panic : Code Unit) (runOps [.create b] fs)
  rw [e1, hp2] at hlast
  -- the right one ends first, then the left one
  have trans : ∀ {α β : Type} {c c1 c2 : Code α} {d d1 d2 : Code β} {f f1 f2 : FS}, Both c d f c1 d1 f1 →
      Both c1 d1 f1 c2 d2 f2 → Both c d f c2 d2 f2 := by
    intro α β c c1 c2 d d1 d2 f f1 f2 h1 h2
    induction h1 with
    | refl => exact h2
    | left hm _ ih => exact .left hm (ih h2)
    | right hm _ ih => exact .right hm (ih h2)
  exact ⟨p, q, _, hp, hq, e2 _ _ _ _ (trans hfin hlast)⟩

/-! ## C84 -/

theorem runs_mono {α : Type} {S T : String → Prop} (h : ∀ f, S f → T f) {c c' : Code α} {fs fs' : FS} (hr : Code.Runs T c fs c' fs') :
    Code.Runs S c fs c' fs' := by
  induction hr with
  | refl => exact .refl _ _
  | move hm _ ih => exact .move hm ih
  | others ho _ ih => exact .others (fun f hf => ho f (h f hf)) ih

theorem setup_other (cpu : Option String) (fs : FS) (f : String) (hf : cpu ≠ some f) : runOps (setup cpu fs).1 fs f = fs f := by
  cases cpu with
  | none => rfl
  | some g => exact set_other _ _ fun e => hf (by rw [e])

theorem teardown_ops (cpu mem : Option String) (heap last : List UInt8) (fs : FS) :
    (teardown cpu mem heap last fs).1 = (match mem with | some m => [.create m, .write m heap] | none => []) ++
      (match cpu with | some g => [FsOp.write g last] | none => []) := by
  cases mem <;> cases cpu <;> rfl

theorem teardown_other (cpu mem : Option String) (heap last : List UInt8) (fs : FS) (f : String) (h1 : cpu ≠ some f)
    (h2 : mem ≠ some f) : runOps (teardown cpu mem heap last fs).1 fs f = fs f := by
  rw [teardown_ops]
  refine runOps_other _ _ _ fun op ho e => ?_
  rcases List.mem_append.1 ho with ho | ho
  · cases mem with
    | none => cases ho
    | some m =>
      refine h2 ?_
      simp only [List.mem_cons, List.not_mem_nil, or_false] at ho
      rcases ho with rfl | rfl <;> exact congrArg some e.symm
  · cases cpu with
    | none => cases ho
    | some g =>
      refine h1 ?_
      simp only [List.mem_cons, List.not_mem_nil, or_false] at ho
      subst ho
      exact congrArg some e.symm

/-- C84: with profiling, whatever is written to the profile of the processor and whenever, the command ends as without and
leaves every file as without, except the two profiles: provided that they are not files of the command. -/
theorem C84_profiled {α : Type} (R W : String → Prop) (c : Code α) (p : Prog α) (hc : CarriesOut R W c p)
    (cpu mem : Option String) (heap last : List UInt8) (h1 : ∀ f, cpu = some f → ¬ R f ∧ ¬ W f)
    (fs fs' : FS) (r : Res α)
    (hp : Profiled cpu mem heap last (fun f => cpu ≠ some f) c fs fs' r) :
    r = aloneResult p fs ∧ ∀ f, cpu ≠ some f → mem ≠ some f → fs' f = aloneFiles p fs f := by
  have key : ∀ {fs2 : FS} {r : Res α}, Code.Runs (fun f => cpu ≠ some f) c (runOps (setup cpu fs).1 fs) (.done r) fs2 →
      r = aloneResult p fs ∧ ∀ f, cpu ≠ some f → fs2 f = aloneFiles p fs f := by
    intro fs2 r hr
    have hu : CarriesOut (fun f => cpu ≠ some f) W c p := by
      refine ⟨hc.1, Code.uses_mono (fun f hf e => (h1 f e).1 hf) (fun _ h => h) c hc.2⟩
    have hsame : ∀ f, cpu ≠ some f ∨ W f → fs f = runOps (setup cpu fs).1 fs f := by
      intro f hf
      refine (setup_other cpu fs f ?_).symm
      rcases hf with hf | hf
      · exact hf
      · exact fun e => (h1 f e).2 hf
    obtain ⟨e1, e2⟩ := C83_undisturbed (fun f => cpu ≠ some f) W c p hu _ fs2 r (runs_mono (fun f hf => by
      rcases hf with hf | hf
      · exact hf
      · exact fun e => (h1 f e).2 hf) hr)
    have e3 : p fs = p (runOps (setup cpu fs).1 fs) := by rw [← hc.1]; exact c.local hu.2 _ _ hsame
    unfold aloneResult aloneFiles at *
    rw [← e3] at e1 e2
    refine ⟨e1, fun f hf => ?_⟩
    rw [e2 f (Or.inl hf)]
    exact (runOps_same (S := fun f => cpu ≠ some f) _ _ _ (fun f hf => hsame f (Or.inl hf)) f hf).symm
  cases hp with
  | ended hr _ =>
    obtain ⟨e1, e2⟩ := key hr
    exact ⟨e1, fun f hf hm => by rw [teardown_other _ _ _ _ _ _ hf hm]; exact e2 f hf⟩
  | crashed hr =>
    obtain ⟨e1, e2⟩ := key hr
    exact ⟨e1, fun f hf _ => e2 f hf⟩

/-- C84: without profiles nothing is done around the command. -/
theorem C84_off {α : Type} (c : Code α) (heap last : List UInt8) (files : String → Prop) (fs fs' : FS) (r : Res α) (hr : r ≠ .hang) :
    Profiled none none heap last files c fs fs' r ↔ Code.Runs files c fs (.done r) fs' := by
  constructor
  · intro h
    cases h with
    | ended h _ => exact h
    | crashed h => exact h
  · intro h
    exact .ended (cpu := none) (mem := none) (heap := heap) (last := last) h hr

/-- C84: when the command has completed, the heap profile has been written, whole, and to no other file. -/
theorem C84_heap {α : Type} (c : Code α) (cpu : Option String) (m : String) (hne : cpu ≠ some m) (heap last : List UInt8)
    (files : String → Prop) (fs fs' : FS) (a : α) (hp : Profiled cpu (some m) heap last files c fs fs' (.ok a)) :
    Holds fs' m heap := by
  cases hp with
  | @ended fs2 _ hr _ =>
    refine ⟨heap.length, ?_⟩
    rw [teardown_ops]
    have e : runOps ([.create m, .write m heap] ++ (match cpu with | some g => [FsOp.write g last] | none => [])) fs2 m
        = runOps [.create m, .write m heap] fs2 m := by
      rw [runOps_append]
      refine runOps_other _ _ _ fun op ho e => hne ?_
      cases cpu with
      | none => cases ho
      | some g =>
        simp only [List.mem_cons, List.not_mem_nil, or_false] at ho
        subst ho
        exact congrArg some e.symm
    refine e.trans ?_
    simp [runOps, FsOp.run, File.write]

/-- C84: the names of the profiles are not checked. If the heap profile has the name of the output, the output of a
completed run is the heap profile. -/
theorem C84_mem_is_output (inflate : Inflate) (sched : Block → Sched) (inp out : String) (heap last : List UInt8) (c : Code Unit)
    (_ : c.denote = decompress inflate sched none inp out) (files : String → Prop) (fs fs' : FS)
    (hp : Profiled none (some out) heap last files c fs fs' (.ok ())) : Holds fs' out heap :=
  C84_heap c none out (by simp) heap last files fs fs' () hp

/-- C84: and if the profile of the processor has the name of the input, the input is emptied before it is read: the command
may panic, and the input is lost. -/
theorem C84_cpu_is_input (inflate : Inflate) (sched : Block → Sched) (inp out : String) (fs : FS) :
    ∃ (c : Code Unit) (fs' : FS), c.denote = decompress inflate sched none inp out ∧
      Profiled (some inp) none [] [] (fun f => some inp ≠ some f) c fs fs' .panic ∧ Holds fs' inp [] := by
  obtain ⟨c, hc, _⟩ := C83_decompress inflate sched none inp out
  have hpan : c.denote (runOps (setup (some inp) fs).1 fs) = ([], .panic) := by
    rw [hc]
    unfold decompress process
    show Prog.bind _ _ _ = _
    have h1 : OsOpen inp (runOps (setup (some inp) fs).1 fs) = ([], .ok ()) := by
      unfold OsOpen
      rw [show runOps (setup (some inp) fs).1 fs inp = some ⟨[], 0⟩ from set_same _ _ _]
      rfl
    unfold Prog.bind
    rw [h1]
    show ([] ++ (Prog.bind _ _ _).1, (Prog.bind _ _ _).2) = _
    have h2 : MMapMap inp (runOps [] (runOps (setup (some inp) fs).1 fs)) = ([], .panic) := by
      unfold MMapMap
      rw [show runOps [] (runOps (setup (some inp) fs).1 fs) inp = some ⟨[], 0⟩ from set_same _ _ _]
      rfl
    unfold Prog.bind
    rw [h2]
    rfl
  have solo : ∀ (c : Code Unit) (fs : FS), Code.Runs (fun f => some inp ≠ some f) c fs (.done (c.denote fs).2) (runOps (c.denote fs).1 fs) := by
    intro c
    induction c with
    | done r => exact fun fs => .refl _ _
    | emit op next ih => exact fun fs => .move (.emit _ _ _) (ih (op.run fs))
    | ask f next ih => exact fun fs => .move (.ask _ _ _) (ih (fs f) fs)
  have hr := solo c (runOps (setup (some inp) fs).1 fs)
  rw [hpan] at hr
  exact ⟨c, _, hc, .crashed hr, 0, set_same _ _ _⟩

/-- The hypotheses are met: two indexes with usual names, and a profile with another name. -/
example : (["a.pbf", "nodes", "nodes" ++ ".loc.tmp", "ways", "ways" ++ ".loc.tmp"] : List String).Nodup := by decide

example (inflate : Inflate) (sched : Block → Sched) (c : Code Unit)
    (hc : CarriesOut (among ["a.pbf"]) (among ["b.pbf"]) c (decompress inflate sched none "a.pbf" "b.pbf")) (fs fs' : FS) (r : Res Unit)
    (hp : Profiled (some "cpu") (some "mem") [1, 2] [3] (fun f => some "cpu" ≠ some f) c fs fs' r) :
    fs' "b.pbf" = aloneFiles (decompress inflate sched none "a.pbf" "b.pbf") fs "b.pbf" :=
  (C84_profiled _ _ c _ hc (some "cpu") (some "mem") [1, 2] [3] (fun f e => by
    cases e; simp [among]) fs fs' r hp).2 _ (by simp) (by simp)

end Osm.Props
