import Verif.Lemmas.Fs

/-!
# The two-file output pattern

Both indexers write the index to the output file and the locations to a temporary file, append the latter to
the former and then fill in the header. This file has what is common to the two.
-/

namespace Osm

/-- Sixteen zero bytes. -/
def zeros16 : List UInt8 := List.replicate 16 0

theorem zeros16_eq : Int64SliceAsByteSlice [0, 0] = zeros16 := by decide

/-- The common shape; `L` writes to both files. -/
def twoFile {α : Type} (out : String) (sched : Nat → Nat) (cancelled : Nat → Bool) (L : Prog α) : Prog α := do
  OsCreate out
  OsCreate (out ++ ".loc.tmp")
  FWriteSliceI64 out [0, 0]
  let a ← L
  FSeekStart (out ++ ".loc.tmp")
  copyAll out (out ++ ".loc.tmp") sched cancelled
  OsRemove (out ++ ".loc.tmp")
  FSeekStart out
  Prog.pure a

/-- What is required of `L`: it appends to both files, what it appends being given by `res`. -/
structure LoopSpec {α : Type} (out tmp : String) (L : Prog α) (res : Res (α × List UInt8 × List UInt8)) :
    Prop where
  runs : ∀ fs d t, fs out = some ⟨d, d.length⟩ → fs tmp = some ⟨t, t.length⟩ →
    (∀ a A B, res = .ok (a, A, B) → ∃ fs', L.exec fs = .ok (a, fs') ∧
      fs' out = some ⟨d ++ A, (d ++ A).length⟩ ∧ fs' tmp = some ⟨t ++ B, (t ++ B).length⟩ ∧
      ∀ g, g ≠ out → g ≠ tmp → fs' g = fs g) ∧
    (res = .panic → L.exec fs = .panic) ∧ (res = .hang → L.exec fs = .hang)
  crash : ∀ fs d t z, fs out = some ⟨d, d.length⟩ → fs tmp = some ⟨t, t.length⟩ → z <+: d →
    Prog.Always (StartsWith out z) L fs

/-- The file after the first three operations. -/
theorem start_exec (out : String) (fs : FS) :
    let fs3 := (FsOp.write out zeros16).run
      ((FsOp.create (out ++ ".loc.tmp")).run ((FsOp.create out).run fs))
    fs3 out = some ⟨zeros16, zeros16.length⟩ ∧ fs3 (out ++ ".loc.tmp") = some ⟨[], 0⟩ ∧
      ∀ g, g ≠ out → g ≠ out ++ ".loc.tmp" → fs3 g = fs g := by
  have hne := tmp_ne out
  refine ⟨?_, ?_, ?_⟩
  · simp only [FsOp.run, set_same, set_other _ _ hne]
    rfl
  · simp only [FsOp.run, set_same, set_other _ _ (Ne.symm hne)]
  · intro g h1 h2
    simp only [FsOp.run, set_other _ _ h1, set_other _ _ h2]

theorem twoFile_exec {α : Type} (out : String) (sched : Nat → Nat) (cancelled : Nat → Bool) (L : Prog α)
    (res : Res (α × List UInt8 × List UInt8)) (hL : LoopSpec out (out ++ ".loc.tmp") L res) (fs : FS) :
    (∀ a A B, res = .ok (a, A, B) → ∃ fs' m, (twoFile out sched cancelled L).exec fs = .ok (a, fs') ∧
      fs' out = some ⟨zeros16 ++ A ++ B.take m, 0⟩ ∧ fs' (out ++ ".loc.tmp") = none ∧
      (∀ g, g ≠ out → g ≠ out ++ ".loc.tmp" → fs' g = fs g) ∧
      ((∀ k, cancelled k = false) → B.length ≤ m) ∧ (cancelled 0 = true → m = 0)) ∧
    (res = .panic → (twoFile out sched cancelled L).exec fs = .panic) ∧
    (res = .hang → (twoFile out sched cancelled L).exec fs = .hang) := by
  have hne := tmp_ne out
  unfold twoFile OsCreate FWriteSliceI64 FSeekStart OsRemove
  rw [zeros16_eq]
  obtain ⟨e1, e2, e3⟩ := start_exec out fs
  simp only [Prog.exec_bind, Prog.exec_emit, Res.ok_bind]
  generalize hfs3 : (FsOp.write out zeros16).run
    ((FsOp.create (out ++ ".loc.tmp")).run ((FsOp.create out).run fs)) = fs3 at *
  obtain ⟨r1, r2, r3⟩ := hL.runs fs3 zeros16 [] e1 e2
  refine ⟨?_, ?_, ?_⟩
  · intro a A B hres
    obtain ⟨fs4, h1, h2, h3, h4⟩ := r1 a A B hres
    rw [h1]
    simp only [Res.ok_bind]
    generalize hfs5 : (FsOp.rewind (out ++ ".loc.tmp")).run fs4 = fs5
    have k1 : fs5 out = some ⟨zeros16 ++ A, (zeros16 ++ A).length⟩ := by
      rw [← hfs5]; simp only [FsOp.run, set_other _ _ hne]; exact h2
    have k2 : fs5 (out ++ ".loc.tmp") = some ⟨B, 0⟩ := by
      rw [← hfs5]; simp only [FsOp.run, set_same]; rw [h3]; rfl
    obtain ⟨fs6, m, p', c1, c2, c3, c4, c5, c6⟩ := copyAll_exec out _ hne sched cancelled fs5 _ _ _ k1 k2
    rw [c1]
    simp only [Res.ok_bind, Prog.exec_pure, exec_OsOpen_some c3]
    refine ⟨_, m, rfl, ?_, ?_, ?_, ?_, c6⟩
    · simp only [FsOp.run, set_same, set_other _ _ hne]
      rw [c2]
      simp
    · simp only [FsOp.run, set_same, set_other _ _ (Ne.symm hne)]
    · intro g g1 g2
      simp only [FsOp.run, set_other _ _ g1, set_other _ _ g2]
      rw [c4 g g1 g2, ← hfs5]
      simp only [FsOp.run, set_other _ _ g2]
      rw [h4 g g1 g2, e3 g g1 g2]
    · intro h
      have := c5 h
      omega
  · intro h; rw [r2 h]; rfl
  · intro h; rw [r3 h]; rfl

/-- A file cut off inside its leading zeros, or still starting with all of them. -/
def NoHeader (out : String) (fs : FS) : Prop :=
  ∃ x : File, fs out = some x ∧ (x.data <+: zeros16 ∨ zeros16 <+: x.data)

theorem noHeader_of_starts {out : String} {fs : FS} (h : StartsWith out zeros16 fs) : NoHeader out fs := by
  obtain ⟨x, h1, h2⟩ := h
  exact ⟨x, h1, Or.inr h2⟩

theorem always_mono {α : Type} {P Q : FS → Prop} {p : Prog α} {fs : FS} (h : Prog.Always P p fs)
    (hpq : ∀ fs', P fs' → Q fs') : Prog.Always Q p fs := fun fs' hc => hpq fs' (h fs' hc)

theorem twoFile_crash {α : Type} (out : String) (sched : Nat → Nat) (cancelled : Nat → Bool) (L : Prog α)
    (res : Res (α × List UInt8 × List UInt8)) (hL : LoopSpec out (out ++ ".loc.tmp") L res) (fs : FS) :
    Prog.Always (fun fs' => fs' out = fs out ∨ NoHeader out fs') (twoFile out sched cancelled L) fs := by
  have hne := tmp_ne out
  unfold twoFile OsCreate FWriteSliceI64 FSeekStart OsRemove
  rw [zeros16_eq]
  obtain ⟨e1, e2, e3⟩ := start_exec out fs
  have hc1 : (FsOp.create out).run fs out = some ⟨[], 0⟩ := by simp only [FsOp.run, set_same]
  have hc2 : (FsOp.create (out ++ ".loc.tmp")).run ((FsOp.create out).run fs) out = some ⟨[], 0⟩ := by
    simp only [FsOp.run, set_same, set_other _ _ hne]
  have hempty : ∀ fs' : FS, fs' out = some ⟨[], 0⟩ → fs' out = fs out ∨ NoHeader out fs' :=
    fun fs' h => Or.inr ⟨_, h, Or.inl (List.nil_prefix)⟩
  refine Prog.always_bind (Prog.always_emit _ (Or.inl rfl) (hempty _ hc1) (by intros; contradiction)) ?_
  intro _ fs1 h1
  simp only [Prog.exec_emit, Res.ok.injEq, Prod.mk.injEq, true_and] at h1
  subst h1
  refine Prog.always_bind (Prog.always_emit _ (hempty _ hc1) (hempty _ hc2) (by intros; contradiction)) ?_
  intro _ fs2 h2
  simp only [Prog.exec_emit, Res.ok.injEq, Prod.mk.injEq, true_and] at h2
  subst h2
  have hall : ∀ fs' : FS, StartsWith out zeros16 fs' → fs' out = fs out ∨ NoHeader out fs' :=
    fun fs' h => Or.inr (noHeader_of_starts h)
  refine Prog.always_bind (Prog.always_emit _ (hempty _ hc2) ?_ ?_) ?_
  · exact Or.inr ⟨_, e1, Or.inr (List.prefix_refl _)⟩
  · intro f bs k heq
    injection heq with q1 q2
    subst q1 q2
    refine Or.inr ⟨⟨zeros16.take k, (zeros16.take k).length⟩, ?_, Or.inl (List.take_prefix _ _)⟩
    simp only [FsOp.run, set_same, set_other _ _ hne, Option.map_some]
    exact congrArg some (write_end [] _)
  intro _ fs3 h3
  simp only [Prog.exec_emit, Res.ok.injEq, Prod.mk.injEq, true_and] at h3
  subst h3
  refine Prog.always_bind (always_mono (hL.crash _ zeros16 [] zeros16 e1 e2 (List.prefix_refl _)) hall) ?_
  intro a fs4 h4
  -- the loop ended normally
  obtain ⟨r1, r2, r3⟩ := hL.runs _ zeros16 [] e1 e2
  have hok : ∃ a' A B, res = .ok (a', A, B) := by
    cases hres : res with
    | ok x => exact ⟨_, _, _, rfl⟩
    | panic => rw [r2 hres] at h4; cases h4
    | hang => rw [r3 hres] at h4; cases h4
  obtain ⟨a', A, B, hres⟩ := hok
  obtain ⟨fs4', g1, g2, g3, g4⟩ := r1 a' A B hres
  rw [g1] at h4
  simp only [Res.ok.injEq, Prod.mk.injEq] at h4
  obtain ⟨rfl, rfl⟩ := h4
  have hA : zeros16 <+: zeros16 ++ A := List.prefix_append _ _
  have hrew : (FsOp.rewind (out ++ ".loc.tmp")).run fs4' out = some ⟨zeros16 ++ A, (zeros16 ++ A).length⟩ := by
    simp only [FsOp.run, set_other _ _ hne]; exact g2
  have hrew2 : (FsOp.rewind (out ++ ".loc.tmp")).run fs4' (out ++ ".loc.tmp") = some ⟨[] ++ B, 0⟩ := by
    simp only [FsOp.run, set_same]; rw [g3]; rfl
  refine Prog.always_bind (Prog.always_emit _ (hall _ ⟨_, g2, hA⟩) (hall _ ⟨_, hrew, hA⟩)
    (by intros; contradiction)) ?_
  intro _ fs5 h5
  simp only [Prog.exec_emit, Res.ok.injEq, Prod.mk.injEq, true_and] at h5
  subst h5
  refine Prog.always_bind (always_mono (copyAll_always out _ hne sched cancelled zeros16 _ _ hrew hA) hall) ?_
  intro _ fs6 h6
  obtain ⟨fs6', m, p', c1, c2, c3, c4, c5⟩ := copyAll_exec out _ hne sched cancelled _ _ _ _ hrew hrew2
  rw [c1] at h6
  simp only [Res.ok.injEq, Prod.mk.injEq, true_and] at h6
  subst h6
  have hB : zeros16 <+: zeros16 ++ A ++ List.take m (List.drop 0 ([] ++ B)) := by
    rw [List.append_assoc]; exact List.prefix_append _ _
  have hrem : (FsOp.remove (out ++ ".loc.tmp")).run fs6' out = fs6' out := by
    simp only [FsOp.run, set_other _ _ hne]
  refine Prog.always_bind (Prog.always_bind (always_OsOpen _ (hall _ ⟨_, c2, hB⟩)) ?_) ?_
  · intro _ fs6 h6
    rw [exec_OsOpen_some c3] at h6
    simp only [Res.ok.injEq, Prod.mk.injEq, true_and] at h6
    subst h6
    exact Prog.always_emit _ (hall _ ⟨_, c2, hB⟩) (hall _ ⟨_, hrem ▸ c2, hB⟩) (by intros; contradiction)
  intro _ fs7 h7
  simp only [Prog.exec_bind, exec_OsOpen_some c3, Res.ok_bind, Prog.exec_emit, Res.ok.injEq, Prod.mk.injEq, true_and] at h7
  subst h7
  have hrw : (FsOp.rewind out).run ((FsOp.remove (out ++ ".loc.tmp")).run fs6') out =
      some ⟨zeros16 ++ A ++ List.take m (List.drop 0 ([] ++ B)), 0⟩ := by
    simp only [FsOp.run, set_same, set_other _ _ hne]
    rw [c2]; rfl
  refine Prog.always_bind (Prog.always_emit _ (hall _ ⟨_, hrem ▸ c2, hB⟩) (hall _ ⟨_, hrw, hB⟩)
    (by intros; contradiction)) ?_
  intro _ fs8 h8
  simp only [Prog.exec_emit, Res.ok.injEq, Prod.mk.injEq, true_and] at h8
  subst h8
  exact Prog.always_pure _ (hall _ ⟨_, hrw, hB⟩)

/-- Writing a 16-byte header over the zeros. -/
theorem header_write (A h : List UInt8) (hh : h.length = 16) (k : Nat) :
    (File.mk (zeros16 ++ A) 0).write (h.take k) =
      ⟨h.take k ++ zeros16.drop k ++ A, (h.take k).length⟩ := by
  unfold File.write
  have hz : zeros16.length = 16 := rfl
  simp only [List.take_zero, List.nil_append, Nat.zero_add]
  rcases Nat.lt_or_ge k 17 with hk | hk
  · have hl : (h.take k).length = k := by rw [List.length_take]; omega
    rw [hl, List.drop_append_of_le_length (by omega), List.append_assoc]
  · have hl : (h.take k).length = 16 := by rw [List.length_take]; omega
    rw [hl, List.drop_append_of_le_length (by omega)]
    rw [List.drop_of_length_le (show zeros16.length ≤ 16 by omega),
      List.drop_of_length_le (show zeros16.length ≤ k by omega)]
    simp

/-- Adding the header. -/
def withHeader {α : Type} (out : String) (p : Prog α) (h : α → List UInt8) : Prog Unit := do
  let a ← p
  Prog.emit (.write out (h a))

/-- The result of a complete run. -/
theorem withHeader_exec {α : Type} (out : String) (sched : Nat → Nat) (cancelled : Nat → Bool) (L : Prog α)
    (res : Res (α × List UInt8 × List UInt8)) (hL : LoopSpec out (out ++ ".loc.tmp") L res)
    (h : α → List UInt8) (hh : ∀ a, (h a).length = 16) (fs : FS) :
    (∀ a A B, res = .ok (a, A, B) → ∃ fs' m,
      (withHeader out (twoFile out sched cancelled L) h).exec fs = .ok ((), fs') ∧
      (∃ pos, fs' out = some ⟨h a ++ A ++ B.take m, pos⟩) ∧ fs' (out ++ ".loc.tmp") = none ∧
      (∀ g, g ≠ out → g ≠ out ++ ".loc.tmp" → fs' g = fs g) ∧
      ((∀ k, cancelled k = false) → B.length ≤ m) ∧ (cancelled 0 = true → m = 0)) ∧
    (res = .panic → (withHeader out (twoFile out sched cancelled L) h).exec fs = .panic) ∧
    (res = .hang → (withHeader out (twoFile out sched cancelled L) h).exec fs = .hang) := by
  obtain ⟨r1, r2, r3⟩ := twoFile_exec out sched cancelled L res hL fs
  unfold withHeader
  simp only [Prog.exec_bind, Prog.exec_emit]
  refine ⟨?_, ?_, ?_⟩
  · intro a A B hres
    obtain ⟨fs', m, h1, h2, h3, h4, h5⟩ := r1 a A B hres
    rw [h1]
    simp only [Res.ok_bind]
    refine ⟨_, m, rfl, ⟨16, ?_⟩, ?_, ?_, h5⟩
    · simp only [FsOp.run, set_same]
      rw [h2]
      simp only [Option.map_some]
      have := header_write (A ++ B.take m) (h a) (hh a) 16
      rw [List.take_of_length_le (Nat.le_of_eq (hh a)), hh a] at this
      rw [List.append_assoc, this]
      rw [List.drop_of_length_le (show zeros16.length ≤ 16 from Nat.le_refl _)]
      simp
    · simp only [FsOp.run]
      rw [set_other _ _ (Ne.symm (tmp_ne out))]
      exact h3
    · intro g g1 g2
      simp only [FsOp.run]
      rw [set_other _ _ g1, h4 g g1 g2]
  · intro hr; rw [r2 hr]; rfl
  · intro hr; rw [r3 hr]; rfl

/-- Every crash state: the output file untouched, without a header, or with at least one byte of the final
header on a complete file. -/
theorem withHeader_crash {α : Type} (out : String) (sched : Nat → Nat) (cancelled : Nat → Bool) (L : Prog α)
    (res : Res (α × List UInt8 × List UInt8)) (hL : LoopSpec out (out ++ ".loc.tmp") L res)
    (h : α → List UInt8) (hh : ∀ a, (h a).length = 16) (fs : FS) :
    Prog.Always (fun fs' => fs' out = fs out ∨ NoHeader out fs' ∨
      ∃ a A B m k pos, res = .ok (a, A, B) ∧ 1 ≤ k ∧ k ≤ 16 ∧
        fs' out = some ⟨(h a).take k ++ zeros16.drop k ++ A ++ B.take m, pos⟩)
      (withHeader out (twoFile out sched cancelled L) h) fs := by
  obtain ⟨r1, r2, r3⟩ := twoFile_exec out sched cancelled L res hL fs
  unfold withHeader
  refine Prog.always_bind (always_mono (twoFile_crash out sched cancelled L res hL fs) ?_) ?_
  · intro fs' h'
    rcases h' with h' | h'
    · exact Or.inl h'
    · exact Or.inr (Or.inl h')
  intro a fs1 h1
  have hok : ∃ a' A B, res = .ok (a', A, B) := by
    cases hres : res with
    | ok x => exact ⟨_, _, _, rfl⟩
    | panic => rw [r2 hres] at h1; cases h1
    | hang => rw [r3 hres] at h1; cases h1
  obtain ⟨a', A, B, hres⟩ := hok
  obtain ⟨fs1', m, g1, g2, g3, g4, g5⟩ := r1 a' A B hres
  rw [g1] at h1
  simp only [Res.ok.injEq, Prod.mk.injEq] at h1
  obtain ⟨rfl, rfl⟩ := h1
  have hpart : ∀ k, 1 ≤ k → k ≤ 16 → ∃ pos, (FsOp.write out ((h a').take k)).run fs1' out =
      some ⟨(h a').take k ++ zeros16.drop k ++ A ++ B.take m, pos⟩ := by
    intro k _ _
    refine ⟨((h a').take k).length, ?_⟩
    simp only [FsOp.run, set_same]
    rw [g2]
    simp only [Option.map_some]
    rw [List.append_assoc, header_write _ _ (hh a')]
    simp only [List.append_assoc]
  have hnone : NoHeader out fs1' := ⟨_, g2, Or.inr (by rw [List.append_assoc]; exact List.prefix_append _ _)⟩
  refine Prog.always_emit _ (Or.inr (Or.inl hnone)) ?_ ?_
  · obtain ⟨pos, hp⟩ := hpart 16 (by omega) (by omega)
    rw [List.take_of_length_le (Nat.le_of_eq (hh a'))] at hp
    refine Or.inr (Or.inr ⟨a', A, B, m, 16, pos, hres, by omega, by omega, ?_⟩)
    rw [List.take_of_length_le (Nat.le_of_eq (hh a'))]
    exact hp
  · intro f bs k heq
    injection heq with q1 q2
    subst q1 q2
    rcases Nat.lt_or_ge k 17 with hk | hk
    · rcases Nat.eq_zero_or_pos k with rfl | hk0
      · refine Or.inr (Or.inl ⟨⟨zeros16 ++ A ++ B.take m, 0⟩, ?_, Or.inr ?_⟩)
        · simp only [FsOp.run, set_same]
          rw [g2]
          simp [File.write]
        · rw [List.append_assoc]; exact List.prefix_append _ _
      · obtain ⟨pos, hp⟩ := hpart k hk0 (by omega)
        exact Or.inr (Or.inr ⟨a', A, B, m, k, pos, hres, hk0, by omega, hp⟩)
    · obtain ⟨pos, hp⟩ := hpart 16 (by omega) (by omega)
      refine Or.inr (Or.inr ⟨a', A, B, m, 16, pos, hres, by omega, by omega, ?_⟩)
      rw [List.take_of_length_le (show (h a').length ≤ k by rw [hh]; omega)]
      rw [List.take_of_length_le (Nat.le_of_eq (hh a'))] at hp ⊢
      exact hp

/-- The same in terms of the operations: after the header write has begun at least one byte is written. -/
theorem withHeader_crash_ops {α : Type} (out : String) (sched : Nat → Nat) (cancelled : Nat → Bool)
    (L : Prog α) (res : Res (α × List UInt8 × List UInt8)) (hL : LoopSpec out (out ++ ".loc.tmp") L res)
    (h : α → List UInt8) (fs fs' : FS)
    (hc : CrashState (withHeader out (twoFile out sched cancelled L) h fs).1 fs fs') :
    fs' out = fs out ∨ NoHeader out fs' ∨
    ∃ done hd k, withHeader out (twoFile out sched cancelled L) h fs = (done ++ [.write out hd], .ok ()) ∧
      1 ≤ k ∧ fs' = (FsOp.write out (hd.take k)).run (runOps done fs) := by
  have hbody := twoFile_crash out sched cancelled L res hL fs
  unfold withHeader at hc ⊢
  rw [Prog.bind_eq] at hc ⊢
  unfold Prog.bind at hc ⊢
  unfold Prog.Always at hbody
  rcases hp : twoFile out sched cancelled L fs with ⟨ops, r⟩
  rw [hp] at hc hbody
  have hbody : ∀ g, CrashState ops fs g → (g out = fs out ∨ NoHeader out g) := hbody
  cases r with
  | panic => exact (hbody _ hc).elim Or.inl (fun q => Or.inr (Or.inl q))
  | hang => exact (hbody _ hc).elim Or.inl (fun q => Or.inr (Or.inl q))
  | ok a =>
    dsimp only at hc ⊢
    rcases crashState_append hc with hc | hc
    · exact (hbody _ hc).elim Or.inl (fun q => Or.inr (Or.inl q))
    · have hend := hbody (runOps ops fs) ⟨ops, [], by simp, Or.inl rfl⟩
      obtain ⟨done, rest, hs, hc⟩ := hc
      have hs : [FsOp.write out (h a)] = done ++ rest := hs
      have hwhole : (FsOp.write out ((h a).take ((h a).length + 1))).run (runOps ops fs) =
          (FsOp.write out (h a)).run (runOps ops fs) := by
        rw [List.take_of_length_le (by omega)]
      cases done with
      | nil =>
        simp only [List.nil_append] at hs
        rcases hc with hc | ⟨f, bs, more, k, h3, h4⟩
        · rw [hc]
          simp only [runOps_nil]
          exact hend.elim Or.inl (fun q => Or.inr (Or.inl q))
        · rw [← hs] at h3
          simp only [List.cons.injEq, FsOp.write.injEq] at h3
          obtain ⟨⟨rfl, rfl⟩, _⟩ := h3
          rw [runOps_nil] at h4
          rcases Nat.eq_zero_or_pos k with rfl | hk
          · have heq : fs' out = runOps ops fs out := by
              rw [h4]
              simp only [FsOp.run, set_same, List.take_zero]
              rcases runOps ops fs out with _ | x
              · rfl
              · simp [File.write]
            rcases hend with q | ⟨x, q1, q2⟩
            · left; rw [heq]; exact q
            · right; left; exact ⟨x, by rw [heq]; exact q1, q2⟩
          · exact Or.inr (Or.inr ⟨ops, h a, k, rfl, hk, h4⟩)
      | cons d ds =>
        simp only [List.cons_append, List.cons.injEq] at hs
        obtain ⟨rfl, hs9⟩ := hs
        obtain ⟨rfl, rfl⟩ := List.append_eq_nil_iff.1 hs9.symm
        rcases hc with hc | ⟨_, _, _, _, h3, _⟩
        · exact Or.inr (Or.inr ⟨ops, h a, (h a).length + 1, rfl, by omega, by rw [hc, hwhole]; rfl⟩)
        · simp at h3

end Osm
