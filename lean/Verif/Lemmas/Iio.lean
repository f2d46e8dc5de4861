import Verif.Lemmas.Fs

/-! # Piecewise writes -/

namespace Osm

theorem fWriteLoop_ok (env : Nat → WriteRet) : ∀ (fuel k : Nat) (buf : List UInt8),
    (fWriteLoop env fuel k buf).2 = .ok () → (fWriteLoop env fuel k buf).1.flatten = buf := by
  intro fuel
  induction fuel with
  | zero => intro k buf h; cases h
  | succ fuel ih =>
    intro k buf h
    rw [fWriteLoop] at h ⊢
    by_cases hl : buf.length > 0
    · rw [if_pos hl] at h ⊢
      dsimp only at h ⊢
      by_cases he : (env k).err = true
      · rw [if_pos he] at h; cases h
      · rw [if_neg he] at h ⊢
        by_cases hz : min (env k).n buf.length = 0
        · rw [if_pos hz] at h; cases h
        · rw [if_neg hz] at h ⊢
          dsimp only at h ⊢
          rw [List.flatten_cons, ih _ _ h, List.take_append_drop]
    · rw [if_neg hl]
      have : buf = [] := List.eq_nil_of_length_eq_zero (by omega)
      rw [this]; rfl

theorem fWriteLoop_prefix (env : Nat → WriteRet) : ∀ (fuel k : Nat) (buf : List UInt8),
    (fWriteLoop env fuel k buf).1.flatten <+: buf := by
  intro fuel
  induction fuel with
  | zero => intro k buf; exact List.nil_prefix
  | succ fuel ih =>
    intro k buf
    rw [fWriteLoop]
    by_cases hl : buf.length > 0
    · rw [if_pos hl]
      dsimp only
      by_cases he : (env k).err = true
      · rw [if_pos he]
        simp only [List.flatten_cons, List.flatten_nil, List.append_nil]
        exact List.take_prefix _ _
      · rw [if_neg he]
        by_cases hz : min (env k).n buf.length = 0
        · rw [if_pos hz]; exact List.nil_prefix
        · rw [if_neg hz]
          dsimp only
          rw [List.flatten_cons]
          conv => rhs; rw [← List.take_append_drop (min (env k).n buf.length) buf]
          exact (List.prefix_append_right_inj _).2 (ih _ _)
    · rw [if_neg hl]; exact List.nil_prefix

theorem fWriteLoop_no_hang (env : Nat → WriteRet) : ∀ (fuel k : Nat) (buf : List UInt8), buf.length < fuel →
    (fWriteLoop env fuel k buf).2 ≠ .hang := by
  intro fuel
  induction fuel with
  | zero => intro k buf h; omega
  | succ fuel ih =>
    intro k buf h
    rw [fWriteLoop]
    by_cases hl : buf.length > 0
    · rw [if_pos hl]
      dsimp only
      by_cases he : (env k).err = true
      · rw [if_pos he]; intro h; cases h
      · rw [if_neg he]
        by_cases hz : min (env k).n buf.length = 0
        · rw [if_pos hz]; intro h; cases h
        · rw [if_neg hz]
          exact ih _ _ (by rw [List.length_drop]; omega)
    · rw [if_neg hl]; intro h; cases h

/-- How much the calls from `k` on accept, `j` of them. -/
def accepted (env : Nat → WriteRet) (k : Nat) : Nat → Nat
  | 0 => 0
  | j + 1 => (env k).n + accepted env (k + 1) j

theorem accepted_range (env : Nat → WriteRet) : ∀ (j k : Nat),
    accepted env k j = ((List.range' k j).map fun i => (env i).n).sum := by
  intro j
  induction j with
  | zero => intro k; rfl
  | succ j ih => intro k; rw [accepted, ih, List.range'_succ, List.map_cons, List.sum_cons]

theorem fWriteLoop_panic (env : Nat → WriteRet) : ∀ (fuel k : Nat) (buf : List UInt8), buf.length < fuel →
    ((fWriteLoop env fuel k buf).2 = .panic ↔
      ∃ j, ((env (k + j)).err = true ∨ (env (k + j)).n = 0) ∧ accepted env k j < buf.length) := by
  intro fuel
  induction fuel with
  | zero => intro k buf h; omega
  | succ fuel ih =>
    intro k buf h
    rw [fWriteLoop]
    by_cases hl : buf.length > 0
    · rw [if_pos hl]
      dsimp only
      by_cases he : (env k).err = true
      · rw [if_pos he]
        exact ⟨fun _ => ⟨0, Or.inl he, hl⟩, fun _ => rfl⟩
      · rw [if_neg he]
        by_cases hz : min (env k).n buf.length = 0
        · rw [if_pos hz]
          exact ⟨fun _ => ⟨0, Or.inr (by rw [Nat.add_zero]; omega), hl⟩, fun _ => rfl⟩
        · rw [if_neg hz]
          dsimp only
          rw [ih (k + 1) _ (by rw [List.length_drop]; omega), List.length_drop]
          constructor
          · rintro ⟨j, hj, ha⟩
            refine ⟨j + 1, ?_, ?_⟩
            · rw [show k + (j + 1) = k + 1 + j by omega]; exact hj
            · rw [accepted]; omega
          · rintro ⟨j, hj, ha⟩
            cases j with
            | zero =>
              rcases hj with hj | hj
              · exact absurd hj he
              · rw [Nat.add_zero] at hj; omega
            | succ j =>
              refine ⟨j, ?_, ?_⟩
              · rw [show k + 1 + j = k + (j + 1) by omega]; exact hj
              · rw [accepted] at ha; omega
    · rw [if_neg hl]
      constructor
      · intro h; cases h
      · rintro ⟨j, -, ha⟩; omega

/-! ## The effects -/

theorem write_write (x : File) (hx : x.pos ≤ x.data.length) (a b : List UInt8) :
    (x.write a).write b = x.write (a ++ b) := by
  unfold File.write
  dsimp only
  have h1 : (x.data.take x.pos ++ a).length = x.pos + a.length := by
    rw [List.length_append, List.length_take]; omega
  rw [File.mk.injEq]
  refine ⟨?_, by rw [List.length_append]; omega⟩
  rw [← h1, List.take_left, List.drop_length_add_append, List.drop_drop, h1, List.length_append]
  simp [Nat.add_assoc]

theorem write_pos (x : File) (hx : x.pos ≤ x.data.length) (a : List UInt8) :
    (x.write a).pos ≤ (x.write a).data.length := by
  unfold File.write
  dsimp only
  rw [List.length_append, List.length_append, List.length_take]
  omega

theorem write_nil (x : File) : x.write [] = x := by
  unfold File.write
  simp

theorem set_get (fs : FS) (f : String) : fs.set f (fs f) = fs := by
  funext g
  by_cases h : g = f
  · rw [h, set_same]
  · rw [set_other _ _ h]

theorem set_set (fs : FS) (f : String) (a b : Option File) : (fs.set f a).set f b = fs.set f b := by
  funext g
  by_cases h : g = f
  · rw [h, set_same, set_same]
  · rw [set_other _ _ h, set_other _ _ h, set_other _ _ h]

/-- Writing pieces one after the other is writing them all at once. -/
theorem run_pieces (f : String) : ∀ (ps : List (List UInt8)) (fs : FS) (x : File), fs f = some x →
    x.pos ≤ x.data.length → runOps (ps.map (.write f)) fs = (FsOp.write f ps.flatten).run fs := by
  intro ps
  induction ps with
  | nil =>
    intro fs x hx _
    simp only [List.map_nil, runOps_nil, List.flatten_nil, FsOp.run]
    rw [hx, Option.map_some, write_nil, ← hx, set_get]
  | cons p ps ih =>
    intro fs x hx hp
    rw [List.map_cons, runOps_cons, ih _ (x.write p) (by simp only [FsOp.run, set_same, hx]; rfl) (write_pos x hp p)]
    simp only [FsOp.run, set_same, hx, Option.map_some, List.flatten_cons]
    rw [set_set, write_write x hp]

/-- A crash between or within the pieces leaves a prefix of the whole written. -/
theorem crash_pieces (f : String) (ps : List (List UInt8)) (fs : FS) (x : File) (hx : fs f = some x)
    (hp : x.pos ≤ x.data.length) (fs' : FS) (h : CrashState (ps.map (.write f)) fs fs') :
    ∃ k, fs' = (FsOp.write f (ps.flatten.take k)).run fs := by
  obtain ⟨done, rest, hs, h⟩ := h
  obtain ⟨a, b, rfl, rfl, rfl⟩ := List.map_eq_append_iff.1 hs
  rcases h with h | ⟨g, bs, more, k, h1, h2⟩
  · refine ⟨a.flatten.length, ?_⟩
    rw [h, run_pieces f a fs x hx hp, List.flatten_append, List.take_left]
  · cases b with
    | nil => cases h1
    | cons p b =>
      rw [List.map_cons, List.cons.injEq, FsOp.write.injEq] at h1
      obtain ⟨⟨rfl, rfl⟩, -⟩ := h1
      refine ⟨a.flatten.length + min k p.length, ?_⟩
      rw [h2, run_pieces _ a fs x hx hp]
      have : (a ++ p :: b).flatten.take (a.flatten.length + min k p.length) = a.flatten ++ p.take k := by
        rw [List.flatten_append, List.take_length_add_append, List.flatten_cons,
          List.take_append_of_le_length (by omega), ← List.take_eq_take_min]
      rw [this]
      simp only [FsOp.run, set_same, hx, Option.map_some]
      rw [set_set, write_write x hp]

theorem fWrite_exec_ok (env : Nat → WriteRet) (f : String) (buf : List UInt8) (fs : FS) (x : File)
    (hx : fs f = some x) (hp : x.pos ≤ x.data.length) (r : Unit × FS) (h : (fWrite env f buf).exec fs = .ok r) :
    (FWrite f buf).exec fs = .ok r := by
  unfold Prog.exec fWrite at h
  dsimp only at h
  rcases hl : fWriteLoop env (buf.length + 1) 0 buf with ⟨ps, q⟩
  rw [hl] at h
  cases q with
  | panic => cases h
  | hang => cases h
  | ok u =>
    have hf := fWriteLoop_ok env (buf.length + 1) 0 buf (by rw [hl])
    rw [hl] at hf
    dsimp only at h hf
    rw [run_pieces f ps fs x hx hp, hf] at h
    unfold FWrite
    rw [Prog.exec_emit]
    exact h

end Osm
