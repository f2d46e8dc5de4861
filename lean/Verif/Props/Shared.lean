import Verif.Lemmas.SharedLive
import Verif.Props.Raw
import Verif.Props.Cancel
import Verif.Props.Find
import Verif.Props.TagFilter
import Verif.Props.Programs
import Verif.Props.Count

/-! # C76: workers that share buffers do not disturb each other -/

namespace Osm.Props
open Osm Osm.T Osm.Pbf Osm.Spec Osm.Shared

variable {O : Type}

/-- C76: whatever the workers do at the same time with the pool and the memory behind it, and however they read it, the
pipeline is always in a state in which it can be if each worker computes its answer alone and at once, as a function of
the block, of some content of the pooled buffer and of some way for zlib to deliver the data, the same for the whole run.
And each answer given so far is that function's value. -/
theorem C76_as_if_alone (c : Cmd O) (use : Block → Slice → Res O) (hc : Computes c use) (p : Cfg O)
    (hl : p.file.length < 2 ^ 63) (W : Nat) (s : Shared.St O) (h : Shared.Reachable c p W s) :
    ∃ sched, Possible sched ∧ Pbf.Reachable (atomically c use p sched) W s.pipe ∧
      ∀ x ∈ s.answers, c.work use sched x.1 = .ok x.2 := (refines hc hl h).2

/-- C76: in a completed, uncancelled run each block of the file is answered exactly once. -/
theorem C76_each_once (c : Cmd O) (use : Block → Slice → Res O) (hc : Computes c use) (p : Cfg O)
    (hl : p.file.length < 2 ^ 63) (W : Nat) (s : Shared.St O) (h : Shared.Reachable c p W s) (hd : s.pipe.main = .done)
    (hcn : s.pipe.cancelled = false) :
    ∃ bs, split p.file = .ok bs ∧ (s.answers.map (·.1)).Perm bs := by
  obtain ⟨sched, _, h2, _⟩ := C76_as_if_alone c use hc p hl W s h
  obtain ⟨bs, e1, _, e3, _⟩ := C55_each_once (atomically c use p sched) hl W _ h2 hd hcn
  refine ⟨bs, e1, ?_⟩
  have hI := h2.inv (c := atomically c use p sched) hl
  have hcov := covers h
  unfold Covers at hcov
  have hex := hI.b.workersExited (by rw [hd]; decide)
  have : s.pipe.workers.flatMap blockOf = [] := by
    rw [List.flatMap_eq_nil_iff]
    intro w hw
    unfold blockOf
    rw [hex w hw]
  rw [this, List.append_nil] at hcov
  exact hcov.trans (hI.k.perm.symm.trans e3)

/-- C76: so what a completed, uncancelled run delivers to the writer is what one delivers in which each worker computes
alone. -/
theorem C76_delivers (c : Cmd O) (use : Block → Slice → Res O) (hc : Computes c use) (p : Cfg O)
    (hl : p.file.length < 2 ^ 63) (W : Nat) (got : List O) (h : Shared.Delivers c p W got) :
    ∃ sched, Possible sched ∧ Spec.Delivers (atomically c use p sched) W got := by
  obtain ⟨s, h1, h2, h3, rfl⟩ := h
  obtain ⟨sched, g1, g2, _⟩ := C76_as_if_alone c use hc p hl W s h1
  exact ⟨sched, g1, s.pipe, g2, h2, h3, rfl⟩

/-- C76: if nothing panics when the workers compute alone, nothing panics. -/
theorem C76_no_panic (c : Cmd O) (use : Block → Slice → Res O) (hc : Computes c use) (p : Cfg O)
    (hl : p.file.length < 2 ^ 63) (bs : List Block) (hcl : ∀ sched, Possible sched → Clean (atomically c use p sched) bs)
    (W : Nat) (s : Shared.St O) (h : Shared.Reachable c p W s) : s.pipe.crashed = false := by
  obtain ⟨sched, g1, g2, _⟩ := C76_as_if_alone c use hc p hl W s h
  exact C55_no_panic (atomically c use p sched) hl bs (hcl sched g1) W _ g2

/-- C76: no run goes on for ever. -/
theorem C76_ends (c : Cmd O) (use : Block → Slice → Res O) (hc : Computes c use) (p : Cfg O)
    (hl : p.file.length < 2 ^ 63) (W : Nat) :
    ¬ ∃ f : Nat → Shared.St O, f 0 = Shared.init p W ∧
      ∀ n, (f n).pipe.crashed = false ∧ Shared.Step c p (f n) (f (n + 1)) := by
  rintro ⟨f, h0, hf⟩
  exact Shared.ends hc hl f h0 hf

/-- C76: with at least one worker, no run gets stuck: whatever has happened, it can complete, or something panics. -/
theorem C76_completes (c : Cmd O) (use : Block → Slice → Res O) (hc : Computes c use) (p : Cfg O)
    (hl : p.file.length < 2 ^ 63) (ht : ∀ sched, Possible sched → Total (atomically c use p sched)) (W : Nat) (hW : 0 < W)
    (s : Shared.St O) (h : Shared.Reachable c p W s) :
    ∃ s', Shared.Runs c p s s' ∧ s'.pipe.cancelled = s.pipe.cancelled ∧
      (s'.pipe.crashed = true ∨ s'.pipe.main = .done) := Shared.completes hc hl ht hW s h

theorem runs_reachable {c : Cmd O} {p : Cfg O} {W : Nat} {s s' : Shared.St O} (hr : Shared.Runs c p s s') :
    Shared.Reachable c p W s → Shared.Reachable c p W s' := by
  induction hr with
  | refl => exact id
  | step h1 h2 _ ih => exact fun h => ih (.step h h1 h2)

/-! ## The commands -/

theorem slurp_run (use : List UInt8 → Res O) (mem : List UInt8) : ∀ n i got, i + n = mem.length →
    (slurp use n i got).run mem = use (got ++ mem.drop i) := by
  intro n
  induction n with
  | zero =>
    intro i got h
    rw [List.drop_eq_nil_of_le (by omega), List.append_nil]
    rfl
  | succ n ih =>
    intro i got h
    have hx : mem[i]? = some (mem[i]'(by omega)) := List.getElem?_eq_getElem (by omega)
    unfold slurp Reader.run
    rw [hx]
    dsimp only
    rw [ih (i + 1) _ (by omega), List.drop_eq_getElem_cons (i := i) (by omega)]
    simp

/-- C76: for every function of the raw data there is a worker that computes it. -/
theorem C76_some_worker (inflate : Inflate) (direct : Block → Option (Res O)) (use : Block → Slice → Res O) :
    ∃ c : Cmd O, c.inflate = inflate ∧ c.direct = direct ∧ Computes c use := by
  refine ⟨⟨inflate, direct, fun b len cap => slurp (fun l => use b ⟨l.take len, l.drop len⟩) cap 0 []⟩, rfl, rfl, ?_⟩
  intro b s
  dsimp only
  rw [slurp_run _ _ _ _ _ (by simp)]
  simp

/-- Blocks of other kinds are passed on without a look at their data. -/
def passOn (f : Block → O) (b : Block) : Option (Res O) := if b.Kind ≠ osmData then some (.ok (f b)) else none

theorem work_passOn {c : Cmd O} {f : Block → O} (hd : c.direct = passOn f) (use : Block → Slice → Res O)
    (sched : Block → Sched) (b : Block) :
    c.work use sched b = if b.Kind ≠ osmData then .ok (f b) else rawOf c.inflate (sched b) b >>= use b := by
  unfold Cmd.work
  rw [hd]
  unfold passOn
  by_cases h : b.Kind ≠ osmData
  · rw [if_pos h, if_pos h]
  · rw [if_neg h, if_neg h]

/-- C76: the workers of the commands are of this form: what `Model/` says they do with a block is what such a worker
does with it alone. In each case the first line says what becomes of a block that is not data, and the second what is
done with the raw data. -/
theorem C76_commands :
    (∀ (c : Cmd (List UInt8)), c.direct = (fun _ => none) → ∀ sched b,
      c.work (fun b raw => do
        let blob ← (Blob.mk (some raw) none none).Write none []
        .ok (frame b.Kind blob)) sched b = decompressWork c.inflate sched b) ∧
    (∀ (c : Cmd Rewrite.Out) si, c.direct = passOn (fun b => (b.Kind, b.Data.bytes)) → ∀ sched b,
      c.work (fun b raw => do
        let pb ← ReadPrimitiveBlock waysDecoded raw
        Rewrite.rewriteDecoded si b pb) sched b = Rewrite.rewriteWork c.inflate sched si b) ∧
    (∀ (c : Cmd TagFilter.Sent), c.direct = passOn (fun b => ⟨(b.Kind, b.Data.bytes), 0, 0, []⟩) → ∀ sched b,
      c.work (fun _ raw => do
        let pb ← ReadPrimitiveBlock readAll raw
        TagFilter.filterBlock [] pb) sched b = TagFilter.filterIter c.inflate sched [] b) ∧
    (∀ (O : Type) (c : Cmd O) (o : PBReader) (work : Option PrimitiveBlock → Res O) (x : O), work none = .ok x →
      c.direct = passOn (fun _ => x) → ∀ sched b,
      c.work (fun _ raw => do
        let pb ← ReadPrimitiveBlock o raw
        work (some pb)) sched b = Programs.blockWork c.inflate sched o work b) ∧
    (∀ (c : Cmd (List T.PrimitiveGroup)), c.direct = passOn (fun _ => []) → ∀ sched b,
      c.work (fun _ raw => do
        let pb ← ReadPrimitiveBlock entitiesDecoded raw
        .ok pb.PrimitiveGroup) sched b = Count.groupsOf c.inflate sched b) ∧
    (∀ (c : Cmd (List Find.Entity)) ids, c.direct = passOn (fun _ => []) → ∀ sched b,
      c.work (fun _ raw => do
        let pb ← ReadPrimitiveBlock readAll raw
        let ns ← pb.ToNodes
        let ws ← pb.ToWays
        let rs ← pb.ToRelations
        .ok (Find.printNodes ids ns ++ Find.printWays ids ws ++ Find.printRelations ids rs)) sched b =
      Find.findBlock c.inflate sched ids b) := by
  refine ⟨?_, ?_, ?_, ?_, ?_, ?_⟩
  · intro c hd sched b
    unfold Cmd.work
    rw [hd]
    rfl
  · intro c si hd sched b
    rw [work_passOn hd]
    rfl
  · intro c hd sched b
    rw [work_passOn hd]
    rfl
  · intro O c o work x hx hd sched b
    rw [work_passOn hd]
    unfold Programs.blockWork Programs.decodeBlock
    by_cases h : b.Kind ≠ osmData
    · rw [if_pos h, if_pos h, Res.ok_bind, hx]
    · rw [if_neg h, if_neg h]
      cases rawOf c.inflate (sched b) b with
      | panic => rfl
      | hang => rfl
      | ok raw =>
        simp only [Res.ok_bind]
        cases ReadPrimitiveBlock o raw <;> rfl
  · intro c hd sched b
    rw [work_passOn hd]
    rfl
  · intro c ids hd sched b
    rw [work_passOn hd]
    rfl

/-- The answer of decompress, given the raw data of a block (decompressor_worker.go:37-58). -/
def decompressUse (b : Block) (raw : Slice) : Res (List UInt8) := do
  let blob ← (Blob.mk (some raw) none none).Write none []
  .ok (frame b.Kind blob)

/-- C76: the workers of decompress, sharing their buffers: whatever the number of workers, the interleaving and the chunks,
nothing panics, the run can always be completed, and the output file has the same blocks with the same payloads. -/
theorem C76_decompress (inflate : Inflate) (file : List UInt8) (hl : file.length < 2 ^ 63) (bs : List Block)
    (hs : split file = .ok bs) (hp : ∀ b ∈ bs, Decompressible inflate b) (c : Cmd (List UInt8)) (hi : c.inflate = inflate)
    (hd : c.direct = fun _ => none) (hc : Computes c decompressUse) (W : Nat) :
    (∀ s, Shared.Reachable c (Programs.cfg (fun _ => .hang) file) W s → s.pipe.crashed = false) ∧
    (0 < W → ∀ s, Shared.Reachable c (Programs.cfg (fun _ => .hang) file) W s →
      ∃ s', Shared.Runs c (Programs.cfg (fun _ => .hang) file) s s' ∧ s'.pipe.cancelled = s.pipe.cancelled ∧
        s'.pipe.main = .done) ∧
    (∀ got, Shared.Delivers c (Programs.cfg (fun _ => .hang) file) W got → ∀ (f : String) (fs : FS),
      ∃ fs' out, (decompressOutput f got).exec fs = .ok ((), fs') ∧ Holds fs' f out ∧ (∀ g, g ≠ f → fs' g = fs g) ∧
      (out.length < 2 ^ 63 → ∃ bs', split out = .ok bs' ∧ bs'.map (·.Kind) = bs.map (·.Kind) ∧
        ∀ (i : Nat) b b', bs[i]? = some b → bs'[i]? = some b' → ∀ p, BlockPayload inflate b p → BlockPayload inflate b' p)) := by
  have hw : ∀ sched, atomically c decompressUse (Programs.cfg (fun _ => .hang) file) sched = decompressCfg inflate sched file := by
    intro sched
    have e : c.work decompressUse sched = decompressWork inflate sched := by
      funext b
      rw [← hi]
      exact C76_commands.1 c hd sched b
    unfold atomically Programs.cfg decompressCfg
    rw [e]
  have hcl : ∀ sched, Possible sched → Clean (atomically c decompressUse (Programs.cfg (fun _ => .hang) file) sched) bs := by
    intro sched _
    rw [hw]
    refine ⟨hs, fun b hb => ?_, by simp [decompressCfg], by simp [decompressCfg]⟩
    obtain ⟨p, p1, p2, p3⟩ := hp b hb
    show decompressWork inflate sched b ≠ .panic
    rw [decompressWork_eq inflate sched b p p1 p2]
    simp
  have hnp := fun s h => C76_no_panic c decompressUse hc (Programs.cfg (fun _ => .hang) file) hl bs hcl W s h
  refine ⟨hnp, ?_, ?_⟩
  · intro hW s h
    obtain ⟨s', h1, h2, h3⟩ := C76_completes c decompressUse hc (Programs.cfg (fun _ => .hang) file) hl
      (fun sched _ => by rw [hw]; exact decompress_total inflate sched file) W hW s h
    refine ⟨s', h1, h2, h3.resolve_left ?_⟩
    rw [hnp s' (runs_reachable h1 h)]
    simp
  · intro got hg f fs
    obtain ⟨sched, g1, g2⟩ := C76_delivers c decompressUse hc (Programs.cfg (fun _ => .hang) file) hl W got hg
    rw [hw] at g2
    exact C51_preserved_partial inflate sched file hl bs hs hp W got g2 f fs

/-- C76: the effect of a whole command. What is delivered to the writer, with shared buffers, is what the command's
program (see C69, C72) computes block by block, for some way of filling the buffers. -/
theorem C76_process (c : Cmd O) (use : Block → Slice → Res O) (hc : Computes c use) (file : List UInt8)
    (hl : file.length < 2 ^ 63) (W : Nat) (got : List O)
    (h : Shared.Delivers c (Programs.cfg (fun _ => .hang) file) W got) :
    ∃ sched, Possible sched ∧ ∀ (inp : String) (output : List O → Prog Unit) (fs : FS), Holds fs inp file →
      (Programs.process (c.work use sched) inp output).exec fs = (output got).exec fs := by
  obtain ⟨sched, h1, h2⟩ := C76_delivers c use hc _ hl W got h
  exact ⟨sched, h1, fun inp output fs hin => C69_any_schedule (c.work use sched) file hl W got h2 inp output fs hin⟩

/-- A file with a raw and a compressed block, and three workers: there is such a worker, and runs that complete. -/
example : ∃ c : Cmd (List UInt8), Computes c decompressUse ∧
    ∃ got, Shared.Delivers c (Programs.cfg (fun _ => .hang) (fileOf mixedBlocks)) 3 got := by
  obtain ⟨bs, h1, h2⟩ := mixed_decompressible
  obtain ⟨c, c1, c2, c3⟩ := C76_some_worker
    (fun z => if z = [120, 1] then some [1, 2, 3] else none) (fun _ => none) decompressUse
  obtain ⟨d1, d2, _⟩ := C76_decompress _ _ (by decide +kernel) bs h1 h2 c c1 c2 c3 3
  obtain ⟨s', e1, e2, e3⟩ := d2 (by decide) _ .init
  exact ⟨c, c3, s'.pipe.got, s', runs_reachable e1 .init, e3, e2, rfl⟩

end Osm.Props
