import Verif.Model.Fs

/-! # Running programs on files: results, crash states, and the copy loop -/

namespace Osm

@[simp] theorem set_same (fs : FS) (f : String) (x : Option File) : fs.set f x f = x := by simp [FS.set]
theorem set_other (fs : FS) {f g : String} (x : Option File) (h : g ≠ f) : fs.set f x g = fs g := by
  simp [FS.set, h]

@[simp] theorem runOps_nil (fs : FS) : runOps [] fs = fs := rfl
@[simp] theorem runOps_cons (op : FsOp) (ops : List FsOp) (fs : FS) :
    runOps (op :: ops) fs = runOps ops (op.run fs) := rfl
@[simp] theorem runOps_append (a b : List FsOp) (fs : FS) : runOps (a ++ b) fs = runOps b (runOps a fs) := by
  simp [runOps]

theorem write_end (d bs : List UInt8) : (File.mk d d.length).write bs = ⟨d ++ bs, (d ++ bs).length⟩ := by
  unfold File.write
  simp

namespace Prog

/-- The result of a program and the file system it leaves. -/
def exec {α : Type} (p : Prog α) (fs : FS) : Res (α × FS) :=
  match p fs with
  | (ops, .ok a) => .ok (a, runOps ops fs)
  | (_, .panic) => .panic
  | (_, .hang) => .hang

theorem bind_eq {α β : Type} (p : Prog α) (f : α → Prog β) (fs : FS) :
    (p >>= f) fs = Prog.bind p f fs := rfl

theorem exec_bind {α β : Type} (p : Prog α) (f : α → Prog β) (fs : FS) :
    (p >>= f).exec fs = p.exec fs >>= fun r => (f r.1).exec r.2 := by
  unfold exec
  rw [bind_eq]
  unfold Prog.bind
  rcases hp : p fs with ⟨ops, r⟩
  cases r with
  | ok a =>
    simp only [Res.ok_bind]
    rcases hq : f a (runOps ops fs) with ⟨ops', r'⟩
    cases r' <;> simp
  | panic => rfl
  | hang => rfl

@[simp] theorem exec_pure {α : Type} (a : α) (fs : FS) : (Prog.pure a).exec fs = .ok (a, fs) := rfl
@[simp] theorem exec_pure' {α : Type} (a : α) (fs : FS) : (Pure.pure a : Prog α).exec fs = .ok (a, fs) := rfl
@[simp] theorem exec_emit (op : FsOp) (fs : FS) : (Prog.emit op).exec fs = .ok ((), op.run fs) := rfl
theorem exec_lift {α : Type} (r : Res α) (fs : FS) :
    (Prog.lift r).exec fs = r >>= fun a => .ok (a, fs) := by
  cases r <;> rfl
theorem exec_rest (f : String) (fs : FS) (x : File) (h : fs f = some x) :
    (Prog.rest f).exec fs = .ok (x.data.drop x.pos, fs) := by
  unfold exec rest
  rw [h]
  rfl

/-- `P` holds at every crash point of the program, including its end. -/
def Always {α : Type} (P : FS → Prop) (p : Prog α) (fs : FS) : Prop :=
  ∀ fs', CrashState (p fs).1 fs fs' → P fs'

end Prog

theorem crashState_append {a b : List FsOp} {fs fs' : FS} (h : CrashState (a ++ b) fs fs') :
    CrashState a fs fs' ∨ CrashState b (runOps a fs) fs' := by
  obtain ⟨done, rest, hsplit, h⟩ := h
  rcases List.append_eq_append_iff.1 hsplit with ⟨c, h1, h2⟩ | ⟨c, h1, h2⟩
  · -- done = a ++ c, b = c ++ rest
    right
    refine ⟨c, rest, h2, ?_⟩
    rw [h1, runOps_append] at h
    exact h
  · -- a = done ++ c, rest = c ++ b
    cases c with
    | nil =>
      simp only [List.append_nil, List.nil_append] at h1 h2
      right
      refine ⟨[], b, rfl, ?_⟩
      rw [h1, runOps_nil]
      rw [h2] at h
      exact h
    | cons op c =>
      left
      refine ⟨done, op :: c, h1, ?_⟩
      rcases h with h | ⟨f, bs, more, k, h3, h4⟩
      · exact Or.inl h
      · rw [h2] at h3
        simp only [List.cons_append, List.cons.injEq] at h3
        exact Or.inr ⟨f, bs, c, k, by rw [h3.1], h4⟩

namespace Prog

theorem always_bind {α β : Type} {P : FS → Prop} {p : Prog α} {f : α → Prog β} {fs : FS}
    (h1 : Always P p fs) (h2 : ∀ a fs1, p.exec fs = .ok (a, fs1) → Always P (f a) fs1) :
    Always P (p >>= f) fs := by
  intro fs' h
  rw [bind_eq] at h
  unfold Prog.bind at h
  unfold exec at h2
  rcases hp : p fs with ⟨ops, r⟩
  unfold Always at h1
  rw [hp] at h h1 h2
  cases r with
  | ok a =>
    dsimp only at h
    rcases crashState_append h with h | h
    · exact h1 _ h
    · exact h2 a _ rfl fs' h
  | panic => exact h1 _ h
  | hang => exact h1 _ h

theorem always_pure {α : Type} {P : FS → Prop} (a : α) {fs : FS} (h : P fs) :
    Always P (Prog.pure a) fs := by
  rintro fs' ⟨done, rest, hs, h'⟩
  have : done = [] ∧ rest = [] := by simpa [Prog.pure] using hs.symm
  obtain ⟨rfl, rfl⟩ := this
  rcases h' with h' | ⟨_, _, _, _, h'', _⟩
  · rw [h']; exact h
  · simp at h''

theorem always_lift {α : Type} {P : FS → Prop} (r : Res α) {fs : FS} (h : P fs) :
    Always P (Prog.lift r) fs := by
  rintro fs' ⟨done, rest, hs, h'⟩
  have : done = [] ∧ rest = [] := by simpa [Prog.lift] using hs.symm
  obtain ⟨rfl, rfl⟩ := this
  rcases h' with h' | ⟨_, _, _, _, h'', _⟩
  · rw [h']; exact h
  · simp at h''

theorem always_rest {P : FS → Prop} (f : String) {fs : FS} (h : P fs) :
    Always P (Prog.rest f) fs := by
  rintro fs' ⟨done, rest, hs, h'⟩
  have : done = [] ∧ rest = [] := by simpa [Prog.rest] using hs.symm
  obtain ⟨rfl, rfl⟩ := this
  rcases h' with h' | ⟨_, _, _, _, h'', _⟩
  · rw [h']; exact h
  · simp at h''

theorem always_emit {P : FS → Prop} (op : FsOp) {fs : FS} (h : P fs) (h' : P (op.run fs))
    (hw : ∀ f bs k, op = .write f bs → P ((FsOp.write f (bs.take k)).run fs)) :
    Always P (Prog.emit op) fs := by
  rintro fs' ⟨done, rest, hs, h''⟩
  replace hs : [op] = done ++ rest := hs
  cases done with
  | nil =>
    simp only [List.nil_append] at hs
    rcases h'' with h'' | ⟨f, bs, more, k, h3, h4⟩
    · rw [h'']; exact h
    · rw [← hs] at h3
      simp only [List.cons.injEq] at h3
      rw [h4]
      exact hw f bs k h3.1
  | cons d ds =>
    rw [List.cons_append, List.cons.injEq] at hs
    obtain ⟨rfl, hs⟩ := hs
    obtain ⟨rfl, rfl⟩ := List.append_eq_nil_iff.1 hs.symm
    rcases h'' with h'' | ⟨_, _, _, _, h3, _⟩
    · rw [h'']; exact h'
    · simp at h3

end Prog

theorem exec_OsOpen (f : String) (fs : FS) : (OsOpen f).exec fs = if (fs f).isSome then .ok ((), fs) else .panic := by
  unfold Prog.exec OsOpen
  cases (fs f).isSome <;> rfl

theorem exec_OsOpen_some {f : String} {fs : FS} {x : File} (h : fs f = some x) : (OsOpen f).exec fs = .ok ((), fs) := by
  rw [exec_OsOpen, if_pos (by rw [h]; rfl)]

theorem always_OsOpen {P : FS → Prop} (f : String) {fs : FS} (h : P fs) : Prog.Always P (OsOpen f) fs := by
  rintro fs' ⟨done, rest, hs, h'⟩
  have : done = [] ∧ rest = [] := by simpa [OsOpen] using hs.symm
  obtain ⟨rfl, rfl⟩ := this
  rcases h' with h' | ⟨_, _, _, _, h'', _⟩
  · rw [h']; exact h
  · simp at h''

/-! ## Copying -/

/-- The copy loop appends what is left of the source, or a prefix of it if cancelled. -/
theorem copyLoop_exec (dst src : String) (hne : dst ≠ src) (sched : Nat → Nat) (cancelled : Nat → Bool) :
    ∀ (fuel k : Nat) (fs : FS) (d s : List UInt8) (p : Nat), fs dst = some ⟨d, d.length⟩ →
      fs src = some ⟨s, p⟩ → s.length - p < fuel →
      ∃ fs' m p', (copyLoop dst src sched cancelled fuel k).exec fs = .ok ((), fs') ∧
        fs' dst = some ⟨d ++ (s.drop p).take m, (d ++ (s.drop p).take m).length⟩ ∧
        fs' src = some ⟨s, p'⟩ ∧ (∀ g, g ≠ dst → g ≠ src → fs' g = fs g) ∧
        ((∀ k, cancelled k = false) → s.length - p ≤ m) ∧ (cancelled k = true → m = 0) := by
  intro fuel
  induction fuel with
  | zero => intro k fs d s p _ _ h; omega
  | succ fuel ih =>
    intro k fs d s p hd hs hf
    unfold copyLoop
    by_cases hc : cancelled k = true
    · rw [if_pos hc]
      refine ⟨fs, 0, p, rfl, by simp [hd], hs, fun g _ _ => rfl, fun h => ?_, fun _ => rfl⟩
      rw [h k] at hc
      cases hc
    · rw [if_neg hc]
      rw [Prog.exec_bind, Prog.exec_rest src fs _ hs]
      simp only [Res.ok_bind]
      generalize hn : min (max 1 (sched k)) (min (s.drop p).length 1048576) = n
      rw [Prog.exec_bind, Prog.exec_emit]
      simp only [Res.ok_bind]
      rw [Prog.exec_bind]
      unfold FWrite
      rw [Prog.exec_emit]
      simp only [Res.ok_bind]
      have hlen : (s.drop p).length = s.length - p := List.length_drop
      generalize hfs2 : (FsOp.write dst ((s.drop p).take n)).run ((FsOp.advance src n).run fs) = fs2
      have h2d : fs2 dst = some ⟨d ++ (s.drop p).take n, (d ++ (s.drop p).take n).length⟩ := by
        rw [← hfs2]
        simp only [FsOp.run, set_same]
        rw [set_other _ _ hne, hd]
        simp only [Option.map_some]
        rw [write_end]
      have h2s : fs2 src = some ⟨s, p + n⟩ := by
        rw [← hfs2]
        simp only [FsOp.run]
        rw [set_other _ _ (Ne.symm hne), set_same, hs]
        rfl
      have h2o : ∀ g, g ≠ dst → g ≠ src → fs2 g = fs g := by
        intro g h1 h2
        rw [← hfs2]
        simp only [FsOp.run]
        rw [set_other _ _ h1, set_other _ _ h2]
      by_cases hz : n = 0
      · rw [if_pos hz]
        refine ⟨fs2, n, p + n, rfl, h2d, h2s, h2o, fun _ => ?_, fun h => absurd h hc⟩
        omega
      · rw [if_neg hz]
        obtain ⟨fs', m, p', he, ed, es, eo, em, -⟩ := ih (k + 1) fs2 _ s (p + n) h2d h2s (by omega)
        refine ⟨fs', n + m, p', he, ?_, es, fun g h1 h2 => by rw [eo g h1 h2, h2o g h1 h2], fun h => ?_,
          fun h => absurd h hc⟩
        · rw [ed]
          have : (s.drop p).take n ++ (s.drop (p + n)).take m = (s.drop p).take (n + m) := by
            rw [List.take_add, List.drop_drop]
          rw [List.append_assoc, this]
        · have := em h
          omega

theorem copyAll_exec (dst src : String) (hne : dst ≠ src) (sched : Nat → Nat) (cancelled : Nat → Bool)
    (fs : FS) (d s : List UInt8) (p : Nat) (hd : fs dst = some ⟨d, d.length⟩) (hs : fs src = some ⟨s, p⟩) :
    ∃ fs' m p', (copyAll dst src sched cancelled).exec fs = .ok ((), fs') ∧
      fs' dst = some ⟨d ++ (s.drop p).take m, (d ++ (s.drop p).take m).length⟩ ∧
      fs' src = some ⟨s, p'⟩ ∧ (∀ g, g ≠ dst → g ≠ src → fs' g = fs g) ∧
      ((∀ k, cancelled k = false) → s.length - p ≤ m) ∧ (cancelled 0 = true → m = 0) := by
  unfold copyAll
  rw [Prog.exec_bind, Prog.exec_rest src fs _ hs]
  simp only [Res.ok_bind]
  exact copyLoop_exec dst src hne sched cancelled _ 0 fs d s p hd hs (by simp)

/-- A file which has kept the bytes `z` at its start. -/
def StartsWith (f : String) (z : List UInt8) (fs : FS) : Prop :=
  ∃ x : File, fs f = some x ∧ z <+: x.data

theorem startsWith_append {f : String} {z d : List UInt8} {fs : FS} (h : fs f = some ⟨d, d.length⟩)
    (hz : z <+: d) (g : String) (bs' : List UInt8) : StartsWith f z ((FsOp.write g bs').run fs) := by
  simp only [FsOp.run]
  by_cases hg : g = f
  · subst hg
    refine ⟨_, by rw [set_same, h]; rfl, ?_⟩
    dsimp only
    rw [write_end]
    exact List.IsPrefix.trans hz (List.prefix_append _ _)
  · exact ⟨⟨d, d.length⟩, by rw [set_other _ _ (Ne.symm hg)]; exact h, hz⟩

/-- At every point of the copy the destination keeps its start. -/
theorem copyLoop_always (dst src : String) (hne : dst ≠ src) (sched : Nat → Nat) (cancelled : Nat → Bool)
    (z : List UInt8) :
    ∀ (fuel k : Nat) (fs : FS) (d : List UInt8), fs dst = some ⟨d, d.length⟩ → z <+: d →
      Prog.Always (StartsWith dst z) (copyLoop dst src sched cancelled fuel k) fs := by
  intro fuel
  induction fuel with
  | zero => intro k fs d hd hz; exact Prog.always_lift _ ⟨_, hd, hz⟩
  | succ fuel ih =>
    intro k fs d hd hz
    unfold copyLoop
    have h0 : StartsWith dst z fs := ⟨_, hd, hz⟩
    by_cases hc : cancelled k = true
    · rw [if_pos hc]; exact Prog.always_pure _ h0
    · rw [if_neg hc]
      refine Prog.always_bind (Prog.always_rest _ h0) ?_
      intro rest fs1 h1
      have : fs1 = fs := by
        unfold Prog.exec Prog.rest at h1
        rcases hx : fs src with _ | x
        · rw [hx] at h1; cases h1
        · rw [hx] at h1
          simp only [Option.map_some, Res.ofOption_some, Res.ok.injEq, Prod.mk.injEq, runOps_nil] at h1
          exact h1.2.symm
      subst this
      have hadv : (FsOp.advance src (min (max 1 (sched k)) (min rest.length 1048576))).run fs1 dst =
          some ⟨d, d.length⟩ := by
        simp only [FsOp.run]
        rw [set_other _ _ hne, hd]
      refine Prog.always_bind (Prog.always_emit _ h0 ⟨_, hadv, hz⟩ (by intros; contradiction)) ?_
      intro _ fs2 h2
      rw [Prog.exec_emit] at h2
      simp only [Res.ok.injEq, Prod.mk.injEq, true_and] at h2
      rw [← h2]
      unfold FWrite
      refine Prog.always_bind (Prog.always_emit _ ⟨_, hadv, hz⟩ (startsWith_append hadv hz _ _) ?_) ?_
      · intro f bs k' _
        exact startsWith_append hadv hz _ _
      · intro _ fs3 h3
        rw [Prog.exec_emit] at h3
        simp only [Res.ok.injEq, Prod.mk.injEq, true_and] at h3
        have hd3 : fs3 dst = some ⟨d ++ rest.take (min (max 1 (sched k)) (min rest.length 1048576)),
            (d ++ rest.take (min (max 1 (sched k)) (min rest.length 1048576))).length⟩ := by
          rw [← h3]
          simp only [FsOp.run, set_same]
          simp only [FsOp.run] at hadv
          rw [hadv]
          simp only [Option.map_some]
          rw [write_end]
        have hz3 := List.IsPrefix.trans hz (List.prefix_append d
          (rest.take (min (max 1 (sched k)) (min rest.length 1048576))))
        split
        · exact Prog.always_pure _ ⟨_, hd3, hz3⟩
        · exact ih _ _ _ hd3 hz3

theorem copyAll_always (dst src : String) (hne : dst ≠ src) (sched : Nat → Nat) (cancelled : Nat → Bool)
    (z : List UInt8) (fs : FS) (d : List UInt8) (hd : fs dst = some ⟨d, d.length⟩) (hz : z <+: d) :
    Prog.Always (StartsWith dst z) (copyAll dst src sched cancelled) fs := by
  unfold copyAll
  refine Prog.always_bind (Prog.always_rest _ ⟨_, hd, hz⟩) ?_
  intro rest fs1 h1
  have : fs1 = fs := by
    unfold Prog.exec Prog.rest at h1
    rcases hx : fs src with _ | x
    · rw [hx] at h1; cases h1
    · rw [hx] at h1
      simp only [Option.map_some, Res.ofOption_some, Res.ok.injEq, Prod.mk.injEq, runOps_nil] at h1
      exact h1.2.symm
  subst this
  exact copyLoop_always dst src hne sched cancelled z _ _ _ d hd hz

theorem tmp_ne (out : String) : out ≠ out ++ ".loc.tmp" := by
  intro h
  have := congrArg String.length h
  rw [String.length_append] at this
  have h8 : ".loc.tmp".length = 8 := by decide
  omega

/-! ## Words and bytes -/

theorem byte_bit (x s : UInt64) (hs : s.toNat ≤ 56) (i : Nat) :
    (((x >>> s).toUInt8.toUInt64) <<< s).toNat.testBit i =
      (decide (s.toNat ≤ i ∧ i < s.toNat + 8) && x.toNat.testBit i) := by
  rw [UInt64.toNat_shiftLeft, UInt8.toNat_toUInt64, UInt64.toNat_toUInt8, UInt64.toNat_shiftRight,
    Nat.mod_eq_of_lt (show s.toNat < 64 by omega), Nat.testBit_mod_two_pow, Nat.testBit_shiftLeft,
    Nat.testBit_mod_two_pow, Nat.testBit_shiftRight]
  by_cases h : s.toNat ≤ i
  · rw [show s.toNat + (i - s.toNat) = i by omega]
    by_cases h2 : i < s.toNat + 8
    · simp [h, h2, show i < 64 by omega, show i - s.toNat < 8 by omega]
    · simp [h2, show ¬ (i - s.toNat < 8) by omega]
  · simp [h]

theorem leWord_le64 (x : UInt64) :
    leWord x.toUInt8 (x >>> 8).toUInt8 (x >>> 16).toUInt8 (x >>> 24).toUInt8
      (x >>> 32).toUInt8 (x >>> 40).toUInt8 (x >>> 48).toUInt8 (x >>> 56).toUInt8 = x := by
  unfold leWord
  apply UInt64.toNat_inj.1
  apply Nat.eq_of_testBit_eq
  intro i
  have h0 := byte_bit x 0 (by decide) i
  rw [show x >>> 0 = x by apply UInt64.toNat_inj.1; rw [UInt64.toNat_shiftRight]; simp] at h0
  rw [show x.toUInt8.toUInt64 <<< 0 = x.toUInt8.toUInt64 by
    apply UInt64.toNat_inj.1; rw [UInt64.toNat_shiftLeft]; simp; omega] at h0
  simp only [UInt64.toNat_or, Nat.testBit_or, h0, byte_bit x 8 (by decide) i, byte_bit x 16 (by decide) i,
    byte_bit x 24 (by decide) i, byte_bit x 32 (by decide) i, byte_bit x 40 (by decide) i,
    byte_bit x 48 (by decide) i, byte_bit x 56 (by decide) i]
  have hx : x.toNat.testBit i = true → i < 64 := by
    intro h
    rcases Nat.lt_or_ge i 64 with h' | h'
    · exact h'
    · rw [Nat.testBit_lt_two_pow (Nat.lt_of_lt_of_le x.toNat_lt (Nat.pow_le_pow_right (by omega) h'))] at h
      cases h
  cases hb : x.toNat.testBit i
  · simp
  · have := hx hb
    simp only [Bool.and_true, Bool.or_eq_true, decide_eq_true_eq]
    simp only [UInt64.reduceToNat]
    omega

theorem wordsOf_short (t : List UInt8) (h : t.length < 8) : wordsOf t = [] := by
  unfold wordsOf
  split
  · simp only [List.length_cons] at h; omega
  · rfl

theorem wordsOf_bytesOf (ws : List UInt64) (t : List UInt8) (h : t.length < 8) :
    wordsOf (bytesOf ws ++ t) = ws := by
  induction ws with
  | nil => exact wordsOf_short _ h
  | cons w ws ih =>
    have : bytesOf (w :: ws) ++ t = le64 w ++ (bytesOf ws ++ t) := by simp [bytesOf]
    rw [this]
    unfold le64
    simp only [List.cons_append, List.nil_append]
    rw [wordsOf, leWord_le64, ih]

theorem bytesOf_append (a b : List UInt64) : bytesOf (a ++ b) = bytesOf a ++ bytesOf b := by
  simp [bytesOf]

theorem bytesOf_length (ws : List UInt64) : (bytesOf ws).length = 8 * ws.length := by
  induction ws with
  | nil => rfl
  | cons w ws ih =>
    rw [show bytesOf (w :: ws) = le64 w ++ bytesOf ws from rfl, List.length_append, ih]
    simp [le64]
    omega

end Osm
