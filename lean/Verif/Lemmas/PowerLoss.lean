import Verif.Spec.PowerLoss
import Verif.Lemmas.Touch
import Verif.Lemmas.NodeOutput
import Verif.Lemmas.WayOutput

/-! # What the disk can have of a file that is only added to -/

namespace Osm.PowerLoss
open Osm Osm.Spec

/-- An operation that at most adds to the file `f`. -/
def Adds (f : String) : FsOp → Prop
  | .write _ _ => True
  | op => op.file ≠ f

theorem adds_run {f : String} : ∀ (ops : List FsOp) (fs : FS) (d : List UInt8), (∀ op ∈ ops, Adds f op) →
    fs f = some ⟨d, d.length⟩ → ∃ y, runOps ops fs f = some ⟨d ++ y, (d ++ y).length⟩ := by
  intro ops
  induction ops with
  | nil => intro fs d _ h; exact ⟨[], by rw [List.append_nil]; exact h⟩
  | cons op ops ih =>
    intro fs d ha h
    rw [runOps_cons]
    have hop := ha op List.mem_cons_self
    have hops := fun o ho => ha o (List.mem_cons_of_mem _ ho)
    by_cases hf : f = op.file
    · cases op with
      | write g bs =>
        have hf : f = g := hf
        subst hf
        have : (FsOp.write f bs).run fs f = some ⟨d ++ bs, (d ++ bs).length⟩ := by
          simp only [FsOp.run, set_same]
          rw [h]
          simp only [Option.map_some, write_end]
        obtain ⟨y, hy⟩ := ih _ _ hops this
        exact ⟨bs ++ y, by rw [hy, List.append_assoc]⟩
      | _ => exact absurd hf.symm hop
    · have : op.run fs f = some ⟨d, d.length⟩ := by rw [FsOp.run_other _ _ _ hf]; exact h
      exact ih _ _ hops this

/-- Operations that add to `f`, and perhaps a last one that goes back to its start. -/
def Tail (f : String) (ops : List FsOp) : Prop :=
  ∃ mid, (∀ op ∈ mid, Adds f op) ∧ (ops = mid ∨ ops = mid ++ [.rewind f])

theorem tail_nil (f : String) : Tail f [] := ⟨[], by simp, .inl rfl⟩

theorem tail_append {f : String} {a b : List FsOp} (ha : ∀ op ∈ a, Adds f op) (hb : Tail f b) : Tail f (a ++ b) := by
  obtain ⟨mid, h1, h2⟩ := hb
  refine ⟨a ++ mid, ?_, ?_⟩
  · intro op ho
    rcases List.mem_append.1 ho with ho | ho
    · exact ha op ho
    · exact h1 op ho
  · rcases h2 with rfl | rfl
    · exact .inl rfl
    · exact .inr (by rw [List.append_assoc])

/-- All operations of a program add to `f`. -/
def AddsP {α : Type} (f : String) (p : Prog α) : Prop := ∀ fs, ∀ op ∈ (p fs).1, Adds f op

theorem addsP_bind {α β : Type} {f : String} {p : Prog α} {g : α → Prog β} (hp : AddsP f p)
    (hg : ∀ a, AddsP f (g a)) : AddsP f (p >>= g) := by
  intro fs op ho
  rw [Prog.bind_eq] at ho
  unfold Prog.bind at ho
  have h0 := hp fs
  rcases hpf : p fs with ⟨ops, r⟩
  rw [hpf] at ho h0
  cases r with
  | ok a =>
    rcases List.mem_append.1 ho with ho | ho
    · exact h0 _ ho
    · exact hg a _ _ ho
  | panic => exact h0 _ ho
  | hang => exact h0 _ ho

theorem addsP_pure {α : Type} (f : String) (a : α) : AddsP f (Prog.pure a) := fun _ _ h => by cases h
theorem addsP_lift {α : Type} (f : String) (r : Res α) : AddsP f (Prog.lift r) := fun _ _ h => by cases h
theorem addsP_rest (f g : String) : AddsP f (Prog.rest g) := fun _ _ h => by cases h
theorem addsP_emit {f : String} {op : FsOp} (h : Adds f op) : AddsP f (Prog.emit op) := by
  intro fs o ho
  cases ho with
  | head => exact h
  | tail _ h => cases h

theorem tail_bind {α β : Type} {f : String} {p : Prog α} {g : α → Prog β} (hp : AddsP f p)
    (hg : ∀ a fs, Tail f (g a fs).1) (fs : FS) : Tail f ((p >>= g) fs).1 := by
  rw [Prog.bind_eq]
  unfold Prog.bind
  have h0 := hp fs
  rcases hpf : p fs with ⟨ops, r⟩
  rw [hpf] at h0
  cases r with
  | ok a => exact tail_append h0 (hg a _)
  | panic => exact ⟨ops, h0, .inl rfl⟩
  | hang => exact ⟨ops, h0, .inl rfl⟩

theorem addsP_copyAll {dst src : String} (hne : dst ≠ src) (sched : Nat → Nat) (cancelled : Nat → Bool) :
    AddsP dst (copyAll dst src sched cancelled) := by
  have loop : ∀ fuel k, AddsP dst (copyLoop dst src sched cancelled fuel k) := by
    intro fuel
    induction fuel with
    | zero => intro k; exact addsP_lift _ _
    | succ fuel ih =>
      intro k
      unfold copyLoop
      split
      · exact addsP_pure _ _
      · refine addsP_bind (addsP_rest _ _) fun r => addsP_bind (addsP_emit (Ne.symm hne)) fun _ =>
          addsP_bind (addsP_emit trivial) fun _ => ?_
        split
        · exact addsP_pure _ _
        · exact ih _
  exact addsP_bind (addsP_rest _ _) fun _ => loop _ _

theorem tail_twoFile {α : Type} (out : String) (sched : Nat → Nat) (cancelled : Nat → Bool) {L : Prog α} (hL : AddsP out L)
    (fs : FS) : ∃ ops, (twoFile out sched cancelled L fs).1 =
      .create out :: .create (out ++ ".loc.tmp") :: .write out zeros16 :: ops ∧ Tail out ops := by
  have hne := tmp_ne out
  refine ⟨_, by rw [← zeros16_eq]; rfl, ?_⟩
  refine tail_bind hL (fun a fs => ?_) _
  refine tail_bind (addsP_emit (op := .rewind _) (Ne.symm hne)) (fun _ fs => ?_) _
  refine tail_bind (addsP_copyAll hne _ _) (fun _ fs => ?_) _
  refine tail_bind (addsP_bind (fun _ _ h => by cases h) fun _ => addsP_emit (op := .remove _) (Ne.symm hne)) (fun _ fs => ?_) _
  exact ⟨[], by simp, .inr rfl⟩

/-- What was in the file at a moment before the header was written is a beginning of what was in it just before. -/
theorem before {α : Type} (out : String) (sched : Nat → Nat) (cancelled : Nat → Bool) {L : Prog α} (hL : AddsP out L)
    (fs : FS) (hnew : fs out = none) {x : List UInt8} (hx : Moment (twoFile out sched cancelled L fs).1 fs out x) :
    ∃ y pos, runOps (twoFile out sched cancelled L fs).1 fs out = some ⟨zeros16 ++ y, pos⟩ ∧ x <+: zeros16 ++ y := by
  obtain ⟨ops, h1, mid, hm, ht⟩ := tail_twoFile out sched cancelled hL fs
  rw [h1] at hx ⊢
  obtain ⟨done, rest, pos, hd, hx⟩ := hx
  obtain ⟨e1, _, _⟩ := start_exec out fs
  have hfin : ∀ done' rest', mid = done' ++ rest' → ∃ y z,
      runOps done' ((FsOp.write out zeros16).run ((FsOp.create (out ++ ".loc.tmp")).run ((FsOp.create out).run fs))) out =
        some ⟨zeros16 ++ y, (zeros16 ++ y).length⟩ ∧
      runOps mid ((FsOp.write out zeros16).run ((FsOp.create (out ++ ".loc.tmp")).run ((FsOp.create out).run fs))) out =
        some ⟨zeros16 ++ y ++ z, (zeros16 ++ y ++ z).length⟩ := by
    rintro done' rest' rfl
    obtain ⟨y, hy⟩ := adds_run done' _ _ (fun o ho => hm o (List.mem_append_left _ ho)) e1
    obtain ⟨z, hz⟩ := adds_run rest' _ _ (fun o ho => hm o (List.mem_append_right _ ho)) hy
    exact ⟨y, z, hy, by rw [runOps_append]; exact hz⟩
  obtain ⟨y, z, hy, hz⟩ := hfin mid [] (by rw [List.append_nil])
  rw [hy] at hz
  have hend : ∃ pos, runOps (.create out :: .create (out ++ ".loc.tmp") :: .write out zeros16 :: ops) fs out =
      some ⟨zeros16 ++ y, pos⟩ := by
    simp only [runOps_cons]
    rcases ht with rfl | rfl
    · exact ⟨_, hy⟩
    · rw [runOps_append, runOps_cons]
      generalize (FsOp.write out zeros16).run _ = fs3 at hy
      exact ⟨0, by simp only [runOps, List.foldl_nil, FsOp.run, set_same]; unfold runOps at hy; rw [hy]; rfl⟩
  obtain ⟨pos', hend⟩ := hend
  refine ⟨y, pos', hend, ?_⟩
  have empty : ∀ g : FS, g out = some ⟨[], 0⟩ → g out = some ⟨x, pos⟩ → x <+: zeros16 ++ y := by
    intro g h h'
    rw [h] at h'
    cases h'
    exact List.nil_prefix
  match done with
  | [] => change fs out = _ at hx; rw [hnew] at hx; cases hx
  | [o] =>
    simp only [List.cons_append, List.nil_append, List.cons.injEq] at hd
    obtain ⟨rfl, _⟩ := hd
    exact empty _ (by simp only [runOps, List.foldl, FsOp.run, set_same]) hx
  | [o, o'] =>
    simp only [List.cons_append, List.nil_append, List.cons.injEq] at hd
    obtain ⟨rfl, rfl, _⟩ := hd
    refine empty _ ?_ hx
    simp only [runOps, List.foldl, FsOp.run, set_same, set_other _ _ (tmp_ne out)]
  | o :: o' :: o'' :: done' =>
    simp only [List.cons_append, List.cons.injEq] at hd
    obtain ⟨rfl, rfl, rfl, hd⟩ := hd
    simp only [runOps_cons] at hx
    have hcase : (∃ rest', mid = done' ++ rest') ∨ (ops = mid ++ [.rewind out] ∧ done' = mid ++ [.rewind out]) := by
      rcases ht with rfl | rfl
      · exact .inl ⟨rest, hd⟩
      · rcases List.append_eq_append_iff.1 hd with ⟨a, h1, h2⟩ | ⟨a, h1, h2⟩
        · cases a with
          | nil => left; exact ⟨[], by simpa using h1.symm⟩
          | cons b bs =>
            simp only [List.cons_append, List.cons.injEq] at h2
            obtain ⟨rfl, h2⟩ := h2
            have := List.append_eq_nil_iff.1 h2.symm
            rw [this.1] at h1
            exact .inr ⟨rfl, h1⟩
        · exact .inl ⟨a, h1⟩
    rcases hcase with ⟨rest', hmid⟩ | ⟨_, rfl⟩
    · obtain ⟨y1, z1, h2, h3⟩ := hfin done' rest' hmid
      rw [h2] at hx
      cases hx
      rw [hy] at h3
      have h4 : zeros16 ++ y = zeros16 ++ y1 ++ z1 := by
        injection h3 with h3
        injection h3
      rw [h4]
      exact List.prefix_append _ _
    · rw [runOps_append, runOps_cons] at hx
      clear hfin hend hz
      generalize (FsOp.write out zeros16).run _ = fs3 at hy hx
      simp only [runOps, List.foldl_nil, FsOp.run, set_same] at hx
      unfold runOps at hy
      rw [hy] at hx
      cases hx
      exact List.prefix_refl _

/-- The moments of a run: before the header, and at the end. -/
theorem moments {α : Type} (out : String) (sched : Nat → Nat) (cancelled : Nat → Bool) {L : Prog α} (hL : AddsP out L)
    {res : Res (α × List UInt8 × List UInt8)} (hspec : LoopSpec out (out ++ ".loc.tmp") L res)
    (h : α → List UInt8) (hh : ∀ a, (h a).length = 16)
    (fs : FS) (hnew : fs out = none) {x : List UInt8}
    (hx : Moment (withHeader out (twoFile out sched cancelled L) h fs).1 fs out x) :
    (x <+: zeros16 ∨ zeros16 <+: x) ∧
      ((withHeader out (twoFile out sched cancelled L) h fs).2 = .ok () →
        ∃ a y pos, runOps (withHeader out (twoFile out sched cancelled L) h fs).1 fs out = some ⟨h a ++ y, pos⟩ ∧
          x <+: zeros16 ++ y) ∨
    ∃ a y pos, (withHeader out (twoFile out sched cancelled L) h fs).2 = .ok () ∧
      runOps (withHeader out (twoFile out sched cancelled L) h fs).1 fs out = some ⟨h a ++ y, pos⟩ ∧ x = h a ++ y := by
  have hb := fun {x} => before (x := x) out sched cancelled hL fs hnew
  unfold withHeader at hx ⊢
  rw [Prog.bind_eq] at hx ⊢
  unfold Prog.bind at hx ⊢
  rcases hp : twoFile out sched cancelled L fs with ⟨ops, r⟩
  rw [hp] at hx hb
  have pre : ∀ {x y : List UInt8}, x <+: zeros16 ++ y → (x <+: zeros16 ∨ zeros16 <+: x) := by
    intro x y hxy
    rcases Nat.le_total x.length zeros16.length with hl | hl
    · exact .inl (List.prefix_of_prefix_length_le hxy (List.prefix_append _ _) hl)
    · exact .inr (List.prefix_of_prefix_length_le (List.prefix_append _ _) hxy hl)
  cases r with
  | panic =>
    obtain ⟨y, pos, _, h2⟩ := hb hx
    exact .inl ⟨pre h2, fun h => by cases h⟩
  | hang =>
    obtain ⟨y, pos, _, h2⟩ := hb hx
    exact .inl ⟨pre h2, fun h => by cases h⟩
  | ok a =>
    have hpos : ∀ y pos, runOps ops fs out = some ⟨zeros16 ++ y, pos⟩ → pos = 0 → ∃ pos',
        runOps (ops ++ [.write out (h a)]) fs out = some ⟨h a ++ y, pos'⟩ := by
      intro y pos hy h0
      subst h0
      rw [runOps_append, runOps_cons]
      refine ⟨16, ?_⟩
      show (FsOp.write out (h a)).run (runOps ops fs) out = _
      simp only [FsOp.run, set_same]
      rw [hy]
      simp only [Option.map_some, File.write, List.take_zero, List.nil_append, hh, Nat.zero_add]
      rw [List.drop_left' (by rfl)]
    have hzero : ∀ y pos, runOps ops fs out = some ⟨zeros16 ++ y, pos⟩ → pos = 0 := by
      intro y pos hy
      obtain ⟨r1, r2, r3⟩ := twoFile_exec out sched cancelled L res hspec fs
      have hex : (twoFile out sched cancelled L).exec fs = .ok (a, runOps ops fs) := by
        unfold Prog.exec
        rw [hp]
      cases res with
      | ok x =>
        obtain ⟨fs', m, e1, e2, _⟩ := r1 x.1 x.2.1 x.2.2 rfl
        rw [hex] at e1
        cases e1
        rw [hy] at e2
        cases e2
        rfl
      | panic => rw [r2 rfl] at hex; cases hex
      | hang => rw [r3 rfl] at hex; cases hex
    obtain ⟨done, rest, pos, hd, hx⟩ := hx
    change ops ++ [FsOp.write out (h a)] = done ++ rest at hd
    have hcase : (∃ rest', ops = done ++ rest') ∨ done = ops ++ [.write out (h a)] := by
      rcases List.append_eq_append_iff.1 hd with ⟨b, h1, h2⟩ | ⟨b, h1, h2⟩
      · cases b with
        | nil => left; exact ⟨[], by simpa using h1.symm⟩
        | cons c cs =>
          simp only [List.cons_append, List.cons.injEq] at h2
          obtain ⟨rfl, h2⟩ := h2
          have := List.append_eq_nil_iff.1 h2.symm
          rw [this.1] at h1
          exact .inr h1
      · exact .inl ⟨b, h1⟩
    rcases hcase with ⟨rest', hd'⟩ | rfl
    · obtain ⟨y, pos1, h1, h2⟩ := hb ⟨done, rest', pos, hd', hx⟩
      obtain ⟨pos', h3⟩ := hpos y pos1 h1 (hzero y pos1 h1)
      exact .inl ⟨pre h2, fun _ => ⟨a, y, pos', h3, h2⟩⟩
    · right
      have hex : ∃ x0 p0, runOps ops fs out = some ⟨x0, p0⟩ := by
        rw [runOps_append, runOps_cons] at hx
        simp only [runOps, List.foldl_nil, FsOp.run, set_same] at hx
        rcases hr : List.foldl FsOp.run fs ops out with _ | ⟨x0, p0⟩
        · rw [hr] at hx; cases hx
        · exact ⟨x0, p0, hr⟩
      obtain ⟨x0, p0, h0⟩ := hex
      obtain ⟨y, pos1, h1, _⟩ := hb (x := x0) ⟨ops, [], p0, by rw [List.append_nil], h0⟩
      obtain ⟨pos', h3⟩ := hpos y pos1 h1 (hzero y pos1 h1)
      refine ⟨a, y, pos', rfl, h3, ?_⟩
      rw [h3] at hx
      cases hx
      rfl

/-- Before the header is written. -/
theorem moments_before {α : Type} (out : String) (sched : Nat → Nat) (cancelled : Nat → Bool) {L : Prog α} (hL : AddsP out L)
    (h : α → List UInt8) (fs : FS) (hnew : fs out = none) {x : List UInt8}
    (hx : Moment (withHeader out (twoFile out sched cancelled L) h fs).1.dropLast fs out x) :
    x <+: zeros16 ∨ zeros16 <+: x := by
  have hb := fun {x} => before (x := x) out sched cancelled hL fs hnew
  unfold withHeader at hx
  rw [Prog.bind_eq] at hx
  unfold Prog.bind at hx
  rcases hp : twoFile out sched cancelled L fs with ⟨ops, r⟩
  rw [hp] at hx hb
  have hm : Moment ops fs out x := by
    cases r with
    | ok a =>
      have : ((ops ++ [FsOp.write out (h a)]).dropLast) = ops := List.dropLast_concat
      exact this ▸ hx
    | panic =>
      obtain ⟨done, rest, pos, h1, h2⟩ := hx
      have h1 : ops.dropLast = done ++ rest := h1
      refine ⟨done, rest ++ ops.drop (ops.length - 1), pos, ?_, h2⟩
      rw [← List.append_assoc, ← h1, List.dropLast_eq_take, List.take_append_drop]
    | hang =>
      obtain ⟨done, rest, pos, h1, h2⟩ := hx
      have h1 : ops.dropLast = done ++ rest := h1
      refine ⟨done, rest ++ ops.drop (ops.length - 1), pos, ?_, h2⟩
      rw [← List.append_assoc, ← h1, List.dropLast_eq_take, List.take_append_drop]
  obtain ⟨y, pos, _, hxy⟩ := hb hm
  rcases Nat.le_total x.length zeros16.length with hl | hl
  · exact .inl (List.prefix_of_prefix_length_le hxy (List.prefix_append _ _) hl)
  · exact .inr (List.prefix_of_prefix_length_le (List.prefix_append _ _) hxy hl)

theorem zeros16_get {i : Nat} (h : i < 16) : zeros16[i]? = some 0 := by
  unfold zeros16
  rw [List.getElem?_replicate, if_pos h]

/-- A beginning of the file that consists of zeros. -/
theorem no_header {left : List UInt8} (h : ∀ i, i < 16 → i < left.length → left[i]? = some 0) :
    left <+: zeros16 ∨ zeros16 <+: left := by
  have key : ∀ k, k ≤ 16 → k ≤ left.length → left.take k = zeros16.take k := by
    intro k h1 h2
    apply List.ext_getElem?
    intro i
    by_cases hi : i < k
    · rw [List.getElem?_take_of_lt hi, List.getElem?_take_of_lt hi, h i (by omega) (by omega), zeros16_get (by omega)]
    · rw [List.getElem?_eq_none (by rw [List.length_take]; omega), List.getElem?_eq_none (by rw [List.length_take]; omega)]
  rcases Nat.le_total left.length 16 with hl | hl
  · left
    have := key left.length hl (Nat.le_refl _)
    rw [List.take_length] at this
    rw [this]
    exact List.take_prefix _ _
  · right
    have := key 16 (Nat.le_refl _) hl
    rw [show zeros16.take 16 = zeros16 from rfl] at this
    rw [← this]
    exact List.take_prefix _ _

theorem zero_at {x : List UInt8} (h : x <+: zeros16 ∨ zeros16 <+: x) {i : Nat} (hi : i < 16) : x.getD i 0 = 0 := by
  rw [List.getD_eq_getElem?_getD]
  rcases h with h | h
  · by_cases hl : i < x.length
    · obtain ⟨t, ht⟩ := h
      have : zeros16[i]? = x[i]? := by rw [← ht, List.getElem?_append_left hl]
      rw [← this, zeros16_get hi]
      rfl
    · rw [List.getElem?_eq_none (by omega)]; rfl
  · obtain ⟨t, rfl⟩ := h
    rw [List.getElem?_append_left hi, zeros16_get hi]
    rfl

/-- What is left begins with zeros, or the run had come to its end and the first page is as it then was. -/
theorem first_page {α : Type} (page : Nat) (hpage : 16 ≤ page) (out : String) (sched : Nat → Nat) (cancelled : Nat → Bool)
    {L : Prog α} (hL : AddsP out L) {res : Res (α × List UInt8 × List UInt8)}
    (hspec : LoopSpec out (out ++ ".loc.tmp") L res) (h : α → List UInt8) (hh : ∀ a, (h a).length = 16) (fs : FS)
    (hnew : fs out = none) {left : List UInt8}
    (hp : AfterPowerLoss page (withHeader out (twoFile out sched cancelled L) h fs).1 fs out left) :
    (left <+: zeros16 ∨ zeros16 <+: left) ∨
    ∃ final, (withHeader out (twoFile out sched cancelled L) h fs).2 = .ok () ∧
      Holds (runOps (withHeader out (twoFile out sched cancelled L) h fs).1 fs) out final ∧
      ∀ i, i < page → i < left.length → left[i]? = some (final.getD i 0) := by
  obtain ⟨x, hx, hxl⟩ := hp.2 0
  rcases moments out sched cancelled hL hspec h hh fs hnew hx with ⟨hz, _⟩ | ⟨a, y, pos, h1, h2, rfl⟩
  · left
    refine no_header fun i hi hl => ?_
    rw [hxl i (Nat.div_eq_of_lt (by omega)) hl, zero_at hz hi]
  · right
    exact ⟨_, h1, ⟨pos, h2⟩, fun i hi hl => hxl i (Nat.div_eq_of_lt hi) hl⟩

/-- Every byte that is left is as at the end, or zero. -/
theorem bytes_left {α : Type} (page : Nat) (out : String) (sched : Nat → Nat) (cancelled : Nat → Bool)
    {L : Prog α} (hL : AddsP out L) {res : Res (α × List UInt8 × List UInt8)}
    (hspec : LoopSpec out (out ++ ".loc.tmp") L res) (h : α → List UInt8) (hh : ∀ a, (h a).length = 16) (fs : FS)
    (hnew : fs out = none) {left final : List UInt8}
    (hok : (withHeader out (twoFile out sched cancelled L) h fs).2 = .ok ())
    (hfin : Holds (runOps (withHeader out (twoFile out sched cancelled L) h fs).1 fs) out final)
    (hp : AfterPowerLoss page (withHeader out (twoFile out sched cancelled L) h fs).1 fs out left) :
    left.length ≤ final.length ∧ ∀ i, i < left.length → left[i]? = some 0 ∨ left[i]? = final[i]? := by
  obtain ⟨p0, hfin⟩ := hfin
  have each : ∀ x, Moment (withHeader out (twoFile out sched cancelled L) h fs).1 fs out x →
      x.length ≤ final.length ∧ ∀ i, x.getD i 0 = 0 ∨ some (x.getD i 0) = final[i]? := by
    intro x hx
    rcases moments out sched cancelled hL hspec h hh fs hnew hx with ⟨hz, h0⟩ | ⟨a, y, pos, _, h2, rfl⟩
    · obtain ⟨a, y, pos, h2, h3⟩ := h0 hok
      rw [hfin] at h2
      cases h2
      refine ⟨?_, fun i => ?_⟩
      · have := h3.length_le
        rw [List.length_append] at this ⊢
        rw [hh]
        exact this
      · by_cases hi : i < 16
        · exact .inl (zero_at hz hi)
        · by_cases hl : i < x.length
          · right
            obtain ⟨t, ht⟩ := h3
            have e1 : (zeros16 ++ y)[i]? = x[i]? := by rw [← ht, List.getElem?_append_left hl]
            rw [List.getD_eq_getElem?_getD, ← e1, List.getElem?_append_right (by show 16 ≤ i; omega),
              List.getElem?_append_right (by rw [hh]; omega), hh]
            have : i - 16 < y.length := by
              have := congrArg List.length ht
              rw [List.length_append, List.length_append, show zeros16.length = 16 from rfl] at this
              omega
            rw [show zeros16.length = 16 from rfl, List.getElem?_eq_getElem this]
            rfl
          · left
            rw [List.getD_eq_getElem?_getD, List.getElem?_eq_none (by omega)]
            rfl
    · rw [hfin] at h2
      cases h2
      refine ⟨Nat.le_refl _, fun i => ?_⟩
      rw [List.getD_eq_getElem?_getD]
      by_cases hl : i < (h a ++ y).length
      · right
        rw [List.getElem?_eq_getElem hl]
        rfl
      · left
        rw [List.getElem?_eq_none (by omega)]
        rfl
  refine ⟨?_, fun i hi => ?_⟩
  · obtain ⟨x, hx, e⟩ := hp.1
    rw [e]
    exact (each x hx).1
  · obtain ⟨x, hx, e⟩ := hp.2 (i / page)
    rw [e i rfl hi]
    rcases (each x hx).2 i with h | h
    · exact .inl (by rw [h])
    · exact .inr h

/-- If the file had been synchronised: what is left begins with zeros, or is complete. -/
theorem synced {α : Type} (page : Nat) (hpage : 16 ≤ page) (out : String) (sched : Nat → Nat) (cancelled : Nat → Bool)
    {L : Prog α} (hL : AddsP out L) {res : Res (α × List UInt8 × List UInt8)}
    (hspec : LoopSpec out (out ++ ".loc.tmp") L res) (h : α → List UInt8) (hh : ∀ a, (h a).length = 16) (fs : FS)
    (hnew : fs out = none) {left : List UInt8}
    (hp : AfterPowerLossSynced page (withHeader out (twoFile out sched cancelled L) h fs).1 fs out left) :
    (left <+: zeros16 ∨ zeros16 <+: left) ∨ 
    Holds (runOps (withHeader out (twoFile out sched cancelled L) h fs).1 fs) out left := by
  rcases hp with hp | ⟨x, y, pos, pos', h1, h2, h3, h4⟩
  · left
    obtain ⟨x, hx, hxl⟩ := hp.2 0
    have hz := moments_before out sched cancelled hL h fs hnew hx
    refine no_header fun i hi hl => ?_
    rw [hxl i (Nat.div_eq_of_lt (by omega)) hl, zero_at hz hi]
  · have hmx : Moment (withHeader out (twoFile out sched cancelled L) h fs).1.dropLast fs out x :=
      ⟨_, [], pos, (List.append_nil _).symm, h1⟩
    have hz := moments_before out sched cancelled hL h fs hnew hmx
    obtain ⟨z, hz0, hz1⟩ := h4 0
    rcases hz0 with rfl | rfl
    · left
      refine no_header fun i hi hl => ?_
      have e := hz1 i (Nat.div_eq_of_lt (by omega))
      rw [e]
      have hlz : i < z.length := by
        rcases Nat.lt_or_ge i z.length with h | h
        · exact h
        · rw [List.getElem?_eq_none h, List.getElem?_eq_getElem hl] at e
          cases e
      have := zero_at hz hi
      rw [List.getD_eq_getElem?_getD, List.getElem?_eq_getElem hlz] at this
      rw [List.getElem?_eq_getElem hlz]
      exact congrArg some this
    · by_cases hok : (withHeader out (twoFile out sched cancelled L) h fs).2 = .ok ()
      · right
        have hmz : Moment (withHeader out (twoFile out sched cancelled L) h fs).1 fs out x := by
          refine ⟨_, (withHeader out (twoFile out sched cancelled L) h fs).1.drop
            ((withHeader out (twoFile out sched cancelled L) h fs).1.length - 1), pos, ?_, h1⟩
          rw [List.dropLast_eq_take, List.take_append_drop]
        have htail : ∀ i, 16 ≤ i → i < z.length → x[i]? = z[i]? ∨ x[i]? = none := by
          intro i hi hl
          rcases moments out sched cancelled hL hspec h hh fs hnew hmz with ⟨_, h0⟩ | ⟨a, w, p, _, e, rfl⟩
          · obtain ⟨a, w, p, e, hpre⟩ := h0 hok
            rw [h2] at e
            cases e
            by_cases hlx : i < x.length
            · left
              obtain ⟨t, ht⟩ := hpre
              have e1 : (zeros16 ++ w)[i]? = x[i]? := by rw [← ht, List.getElem?_append_left hlx]
              rw [← e1, List.getElem?_append_right (by show 16 ≤ i; omega), List.getElem?_append_right (by rw [hh]; omega), hh]
              rfl
            · exact .inr (List.getElem?_eq_none (by omega))
          · rw [h2] at e
            cases e
            exact .inl rfl
        have : left = z := by
          apply List.ext_getElem?
          intro i
          by_cases hl : i < left.length
          · by_cases hi : i < page
            · exact hz1 i (Nat.div_eq_of_lt hi)
            · obtain ⟨v, hv, hv1⟩ := h4 (i / page)
              have e := hv1 i rfl
              rcases hv with rfl | rfl
              · rcases htail i (by omega) (by omega) with h | h
                · rw [e, h]
                · rw [h, List.getElem?_eq_getElem hl] at e
                  cases e
              · exact e
          · rw [List.getElem?_eq_none (by omega), List.getElem?_eq_none (by omega)]
        rw [this]
        exact ⟨pos', h2⟩
      · left
        have hmz : Moment (withHeader out (twoFile out sched cancelled L) h fs).1 fs out z :=
          ⟨_, [], pos', (List.append_nil _).symm, h2⟩
        rcases moments out sched cancelled hL hspec h hh fs hnew hmz with ⟨hz', _⟩ | ⟨a, w, p, e, _, _⟩
        · refine no_header fun i hi hl => ?_
          have e := hz1 i (Nat.div_eq_of_lt (by omega))
          rw [e]
          have hlz : i < z.length := by omega
          have := zero_at hz' hi
          rw [List.getD_eq_getElem?_getD, List.getElem?_eq_getElem hlz] at this
          rw [List.getElem?_eq_getElem hlz]
          exact congrArg some this
        · exact absurd e hok

/-! ## A page that is lost -/

/-- The file without what was written to a page. -/
def losePage (page k : Nat) (data : List UInt8) : List UInt8 := data.mapIdx fun i b => if i / page = k then 0 else b

theorem lost_page {page : Nat} {ops : List FsOp} {fs : FS} {f : String} {final : List UInt8} (h : Moment ops fs f final)
    (h0 : Moment ops fs f []) (k : Nat) : AfterPowerLoss page ops fs f (losePage page k final) := by
  refine ⟨⟨final, h, by unfold losePage; rw [List.length_mapIdx]⟩, fun j => ?_⟩
  by_cases hj : j = k
  · subst hj
    refine ⟨[], h0, fun i hi hl => ?_⟩
    unfold losePage at hl ⊢
    rw [List.length_mapIdx] at hl
    rw [List.getElem?_mapIdx, List.getElem?_eq_getElem hl]
    simp only [Option.map_some, if_pos hi, List.getD_nil]
  · refine ⟨final, h, fun i hi hl => ?_⟩
    unfold losePage at hl ⊢
    rw [List.length_mapIdx] at hl
    rw [List.getElem?_mapIdx, List.getElem?_eq_getElem hl]
    simp only [Option.map_some, List.getD_eq_getElem?_getD, List.getElem?_eq_getElem hl, Option.getD_some]
    rw [if_neg (by rw [hi]; exact hj)]

/-- The second page is lost, and it is the last one. -/
theorem losePage_second {page : Nat} {a b : List UInt8} (h0 : 0 < page) (ha : a.length = page) (hb : b.length ≤ page) :
    losePage page 1 (a ++ b) = a ++ List.replicate b.length 0 := by
  unfold losePage
  rw [List.mapIdx_append, ha]
  congr 1
  · apply List.ext_getElem?
    intro i
    rw [List.getElem?_mapIdx]
    by_cases hi : i < a.length
    · rw [List.getElem?_eq_getElem hi]
      have : i / page = 0 := Nat.div_eq_of_lt (by omega)
      simp [this]
    · rw [List.getElem?_eq_none (by omega)]
      rfl
  · apply List.ext_getElem?
    intro i
    rw [List.getElem?_mapIdx, List.getElem?_replicate]
    by_cases hi : i < b.length
    · rw [List.getElem?_eq_getElem hi, if_pos hi, Nat.add_div_right _ h0, Nat.div_eq_of_lt (show i < page by omega)]
      rfl
    · rw [List.getElem?_eq_none (by omega), if_neg hi]
      rfl

/-- The same for a file of words. -/
def loseWords (words k : Nat) (ws : List UInt64) : List UInt64 := ws.mapIdx fun i w => if i / words = k then 0 else w

theorem losePage_words (words k : Nat) (ws : List UInt64) :
    losePage (8 * words) k (bytesOf ws) = bytesOf (loseWords words k ws) := by
  induction ws using T.snoc_induction with
  | h0 => rfl
  | h1 ws w ih =>
    unfold losePage loseWords at ih ⊢
    rw [bytesOf_append, List.mapIdx_append, List.mapIdx_append, bytesOf_append, ih]
    congr 1
    rw [bytesOf_length]
    have e : ∀ j, j < 8 → (j + 8 * ws.length) / (8 * words) = ws.length / words := by
      intro j hj
      rw [← Nat.div_div_eq_div_mul]
      congr 1
      omega
    have hb : ∀ w : UInt64, bytesOf [w] = le64 w := fun w => List.append_nil _
    simp only [List.mapIdx_cons, List.mapIdx_nil, Nat.zero_add, hb]
    unfold le64
    simp only [List.mapIdx_cons, List.mapIdx_nil, Nat.zero_add]
    simp only [Nat.reduceAdd, e 1 (by omega), e 2 (by omega), e 3 (by omega), e 4 (by omega), e 5 (by omega), e 6 (by omega),
      e 7 (by omega)]
    have e0 := e 0 (by omega)
    rw [Nat.zero_add] at e0
    rw [e0]
    split <;> rfl

theorem created {α : Type} (out : String) (sched : Nat → Nat) (cancelled : Nat → Bool) {L : Prog α} (hL : AddsP out L)
    (h : α → List UInt8) (fs : FS) : Moment (withHeader out (twoFile out sched cancelled L) h fs).1 fs out [] := by
  obtain ⟨ops, h1, _⟩ := tail_twoFile out sched cancelled hL fs
  unfold withHeader
  rw [Prog.bind_eq]
  unfold Prog.bind
  rcases hp : twoFile out sched cancelled L fs with ⟨ops', r⟩
  rw [hp] at h1
  have h1 : ops' = _ := h1
  subst h1
  cases r with
  | ok a => exact ⟨[.create out], _, 0, rfl, by simp only [runOps, List.foldl, FsOp.run, set_same]⟩
  | panic => exact ⟨[.create out], _, 0, rfl, by simp only [runOps, List.foldl, FsOp.run, set_same]⟩
  | hang => exact ⟨[.create out], _, 0, rfl, by simp only [runOps, List.foldl, FsOp.run, set_same]⟩

theorem addsP_nodeBatches {out tmp : String} : ∀ bs count last, AddsP out (NodeIndexer.writeBatches out tmp count last bs)
  | [], _, _ => addsP_pure _ _
  | none :: bs, _, _ => addsP_nodeBatches bs _ _
  | some _ :: bs, _, _ => addsP_bind (addsP_lift _ _) fun _ => addsP_bind (addsP_emit trivial) fun _ =>
      addsP_bind (addsP_emit trivial) fun _ => addsP_nodeBatches bs _ _

theorem addsP_wayBatches {out tmp : String} (shift : Int64) : ∀ bs count len,
    AddsP out (WayIndexer.writeBatches out tmp shift count len bs)
  | [], _, _ => addsP_pure _ _
  | none :: bs, _, _ => addsP_wayBatches shift bs _ _
  | some _ :: bs, _, _ => addsP_bind (addsP_lift _ _) fun _ => addsP_bind (addsP_emit trivial) fun _ =>
      addsP_bind (addsP_emit trivial) fun _ => addsP_bind (addsP_lift _ _) fun _ => addsP_wayBatches shift bs _ _

end Osm.PowerLoss
