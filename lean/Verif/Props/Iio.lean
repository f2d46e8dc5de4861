import Verif.Lemmas.Iio

/-! # Whole buffers are written (C64) -/

namespace Osm.Props
open Osm

/-- C64: if `FWrite` returns, then whatever short writes there were, the file has grown by exactly the bytes of the buffer,
and no other file has changed. -/
theorem C64_appends (env : Nat → WriteRet) (f : String) (buf : List UInt8) (fs : FS) (d : List UInt8)
    (hf : fs f = some ⟨d, d.length⟩) (fs' : FS) (h : (fWrite env f buf).exec fs = .ok ((), fs')) :
    fs' f = some ⟨d ++ buf, (d ++ buf).length⟩ ∧ ∀ g, g ≠ f → fs' g = fs g := by
  have h := fWrite_exec_ok env f buf fs _ hf (Nat.le_refl _) _ h
  unfold FWrite at h
  rw [Prog.exec_emit, Res.ok.injEq, Prod.mk.injEq] at h
  rw [← h.2]
  constructor
  · simp only [FsOp.run, set_same, hf, Option.map_some]
    rw [write_end]
  · intro g hg
    simp only [FsOp.run]
    exact set_other _ _ hg

/-- C64: in the middle of a file (rewriting the header) it overwrites exactly as many bytes as there are in the buffer. -/
theorem C64_overwrites (env : Nat → WriteRet) (f : String) (buf : List UInt8) (fs : FS) (a b c : List UInt8)
    (hl : b.length = buf.length) (hf : fs f = some ⟨a ++ b ++ c, a.length⟩) (fs' : FS)
    (h : (fWrite env f buf).exec fs = .ok ((), fs')) :
    fs' f = some ⟨a ++ buf ++ c, (a ++ buf).length⟩ ∧ ∀ g, g ≠ f → fs' g = fs g := by
  have h := fWrite_exec_ok env f buf fs _ hf (by simp) _ h
  unfold FWrite at h
  rw [Prog.exec_emit, Res.ok.injEq, Prod.mk.injEq] at h
  rw [← h.2]
  constructor
  · simp only [FsOp.run, set_same, hf, Option.map_some, File.write]
    rw [Option.some.injEq, File.mk.injEq]
    constructor
    · rw [List.append_assoc a b c, List.take_left, ← hl, List.drop_length_add_append, List.drop_left]
    · rw [List.length_append]
  · intro g hg
    simp only [FsOp.run]
    exact set_other _ _ hg

/-- C64: it returns or panics; it panics exactly if, before the calls of `Write` have accepted the whole buffer, one
reports an error or accepts nothing. -/
theorem C64_panics (env : Nat → WriteRet) (f : String) (buf : List UInt8) (fs : FS) :
    ((fWrite env f buf).exec fs = .panic ↔
      ∃ k, ((env k).err = true ∨ (env k).n = 0) ∧ ((List.range k).map fun i => (env i).n).sum < buf.length) ∧
    (fWrite env f buf).exec fs ≠ .hang := by
  have hp := fWriteLoop_panic env (buf.length + 1) 0 buf (by omega)
  have hh := fWriteLoop_no_hang env (buf.length + 1) 0 buf (by omega)
  simp only [Nat.zero_add, accepted_range] at hp
  simp only [List.range_eq_range']
  rw [← hp]
  unfold Prog.exec fWrite
  dsimp only
  rcases hl : fWriteLoop env (buf.length + 1) 0 buf with ⟨ps, q⟩
  rw [hl] at hh
  cases q with
  | ok u =>
    refine ⟨⟨fun h => ?_, fun h => ?_⟩, fun h => ?_⟩ <;> cases h
  | panic =>
    refine ⟨⟨fun _ => rfl, fun _ => rfl⟩, fun h => ?_⟩
    cases h
  | hang => exact absurd rfl hh

/-- C64: so it returns if every call makes progress, however little. -/
theorem C64_completes (env : Nat → WriteRet) (f : String) (buf : List UInt8) (fs : FS)
    (h : ∀ k, (env k).err = false ∧ (env k).n ≠ 0) : ∃ fs', (fWrite env f buf).exec fs = .ok ((), fs') := by
  obtain ⟨hp, hh⟩ := C64_panics env f buf fs
  cases he : (fWrite env f buf).exec fs with
  | ok r => exact ⟨r.2, rfl⟩
  | hang => exact absurd he hh
  | panic =>
    obtain ⟨k, hk, -⟩ := hp.1 he
    rw [(h k).1] at hk
    rcases hk with hk | hk
    · cases hk
    · exact absurd hk (h k).2

/-- C64: a crash or a panic at any point leaves the file with a prefix of the buffer appended. -/
theorem C64_crash (env : Nat → WriteRet) (f : String) (buf : List UInt8) (fs : FS) (d : List UInt8)
    (hf : fs f = some ⟨d, d.length⟩) (fs' : FS) (h : CrashState (fWrite env f buf fs).1 fs fs') :
    (∃ p, p <+: buf ∧ fs' f = some ⟨d ++ p, (d ++ p).length⟩) ∧ ∀ g, g ≠ f → fs' g = fs g := by
  obtain ⟨k, rfl⟩ := crash_pieces f _ fs _ hf (Nat.le_refl _) fs' h
  constructor
  · refine ⟨(fWriteLoop env (buf.length + 1) 0 buf).1.flatten.take k,
      (List.take_prefix _ _).trans (fWriteLoop_prefix env _ 0 buf), ?_⟩
    simp only [FsOp.run, set_same, hf, Option.map_some]
    rw [write_end]
  · intro g hg
    simp only [FsOp.run]
    exact set_other _ _ hg

/-- C64: writing words calls `Write` once: it returns exactly if that call wrote everything and reported no error, and then
the file has grown by the buffer; otherwise it panics with a prefix written. -/
theorem C64_once (r : WriteRet) (f : String) (buf : List UInt8) (fs : FS) (d : List UInt8)
    (hf : fs f = some ⟨d, d.length⟩) :
    ((∃ fs', (fWriteOnce r f buf).exec fs = .ok ((), fs')) ↔ r.err = false ∧ buf.length ≤ r.n) ∧
    (∀ fs', (fWriteOnce r f buf).exec fs = .ok ((), fs') →
      fs' f = some ⟨d ++ buf, (d ++ buf).length⟩ ∧ ∀ g, g ≠ f → fs' g = fs g) ∧
    (∀ fs', CrashState (fWriteOnce r f buf fs).1 fs fs' →
      (∃ p, p <+: buf ∧ fs' f = some ⟨d ++ p, (d ++ p).length⟩) ∧ ∀ g, g ≠ f → fs' g = fs g) := by
  refine ⟨?_, ?_, ?_⟩
  · unfold Prog.exec fWriteOnce
    dsimp only
    by_cases he : r.err = true
    · rw [if_pos he]
      constructor
      · rintro ⟨_, h⟩; cases h
      · rintro ⟨h, -⟩; rw [h] at he; cases he
    · rw [if_neg he]
      by_cases hn : min r.n buf.length ≠ buf.length
      · rw [if_pos hn]
        constructor
        · rintro ⟨_, h⟩; cases h
        · rintro ⟨-, h⟩; exact absurd (Nat.min_eq_right h) hn
      · rw [if_neg hn]
        refine ⟨fun _ => ⟨by simpa using he, by omega⟩, fun _ => ⟨_, rfl⟩⟩
  · intro fs' h
    unfold Prog.exec fWriteOnce at h
    dsimp only at h
    by_cases he : r.err = true
    · rw [if_pos he] at h; cases h
    · rw [if_neg he] at h
      by_cases hn : min r.n buf.length ≠ buf.length
      · rw [if_pos hn] at h; cases h
      · rw [if_neg hn] at h
        have hn : min r.n buf.length = buf.length := by omega
        rw [hn, List.take_length, Res.ok.injEq, Prod.mk.injEq, runOps_cons, runOps_nil] at h
        rw [← h.2]
        constructor
        · simp only [FsOp.run, set_same, hf, Option.map_some]
          rw [write_end]
        · intro g hg
          simp only [FsOp.run]
          exact set_other _ _ hg
  · intro fs' h
    obtain ⟨k, rfl⟩ := crash_pieces f [buf.take (min r.n buf.length)] fs _ hf (Nat.le_refl _) fs' h
    constructor
    · refine ⟨(buf.take (min r.n buf.length)).take k, ?_, ?_⟩
      · exact (List.take_prefix _ _).trans (List.take_prefix _ _)
      · simp only [FsOp.run, set_same, hf, Option.map_some]
        rw [write_end]
        simp
    · intro g hg
      simp only [FsOp.run]
      exact set_other _ _ hg

/-- C64: `FCopy` appends to the destination exactly the bytes by which it advances in the source, returns their number, and
returns 0 only at the end of the source (or if it was given no buffer). -/
theorem C64_copy (env : Nat → WriteRet) (want cap : Nat) (dst src : String) (hne : dst ≠ src) (fs : FS)
    (d s : List UInt8) (p : Nat) (hd : fs dst = some ⟨d, d.length⟩) (hs : fs src = some ⟨s, p⟩) (n : Nat) (fs' : FS)
    (h : (fCopy env want cap dst src).exec fs = .ok (n, fs')) :
    n ≤ cap ∧ p + n ≤ max p s.length ∧ (n = 0 ↔ s.length ≤ p ∨ cap = 0) ∧
    fs' dst = some ⟨d ++ (s.drop p).take n, d.length + n⟩ ∧ fs' src = some ⟨s, p + n⟩ ∧
    ∀ g, g ≠ dst → g ≠ src → fs' g = fs g := by
  unfold fCopy at h
  rw [Prog.exec_bind, Prog.exec_rest src fs _ hs] at h
  simp only [Res.ok_bind] at h
  have hlen : (s.drop p).length = s.length - p := List.length_drop
  generalize hn : min (max 1 want) (min (s.drop p).length cap) = m at h
  rw [Prog.exec_bind, Prog.exec_emit] at h
  simp only [Res.ok_bind] at h
  rw [Prog.exec_bind] at h
  obtain ⟨⟨u, fs2⟩, h1, h2⟩ := Res.bind_eq_ok.1 h
  rw [Prog.exec_pure, Res.ok.injEq, Prod.mk.injEq] at h2
  obtain ⟨rfl, rfl⟩ := h2
  dsimp only
  have hd2 : (FsOp.advance src m).run fs dst = some ⟨d, d.length⟩ := by
    simp only [FsOp.run]
    rw [set_other _ _ hne, hd]
  obtain ⟨hw, ho⟩ := C64_appends env dst _ _ d hd2 fs2 h1
  refine ⟨by omega, by omega, by omega, ?_, ?_, ?_⟩
  · rw [hw, Option.some.injEq, File.mk.injEq]
    refine ⟨rfl, ?_⟩
    rw [List.length_append, List.length_take, hlen]
    omega
  · rw [ho src (Ne.symm hne)]
    simp only [FsOp.run, set_same, hs, Option.map_some]
  · intro g h1 h2
    rw [ho g h1]
    simp only [FsOp.run]
    exact set_other _ _ h2

/-- C64: repeating it until it returns 0 appends all that is left of the source, for every schedule of short reads. -/
theorem C64_copy_all (dst src : String) (hne : dst ≠ src) (sched : Nat → Nat) (fs : FS) (d s : List UInt8) (p : Nat)
    (hd : fs dst = some ⟨d, d.length⟩) (hs : fs src = some ⟨s, p⟩) :
    ∃ fs', (copyAll dst src sched fun _ => false).exec fs = .ok ((), fs') ∧
      fs' dst = some ⟨d ++ s.drop p, (d ++ s.drop p).length⟩ ∧ ∀ g, g ≠ dst → g ≠ src → fs' g = fs g := by
  obtain ⟨fs', m, p', he, h1, h2, h3, h4, -⟩ := copyAll_exec dst src hne sched (fun _ => false) fs d s p hd hs
  refine ⟨fs', he, ?_, h3⟩
  have := h4 fun _ => rfl
  rw [h1, List.take_of_length_le (by rw [List.length_drop]; exact this)]

/-! ## Examples -/

/-- A file in which three bytes have been written. -/
def threeBytes : FS := fun g => if g = "a" then some ⟨[1, 2, 3], 3⟩ else none

/-- Writes of one byte, then two, then anything: the buffer arrives whole. -/
example : ∃ fs', (fWrite (fun k => ⟨k + 1, false⟩) "a" [4, 5, 6, 7]).exec threeBytes = .ok ((), fs') ∧
    fs' "a" = some ⟨[1, 2, 3, 4, 5, 6, 7], 7⟩ := by
  obtain ⟨fs', h⟩ := C64_completes (fun k => ⟨k + 1, false⟩) "a" [4, 5, 6, 7] threeBytes (fun k => ⟨rfl, by simp⟩)
  exact ⟨fs', h, (C64_appends _ "a" _ threeBytes [1, 2, 3] rfl fs' h).1⟩

/-- The third call accepts nothing: a panic, with what was written before left in the file. -/
example : (fWrite (fun k => ⟨2 - k, false⟩) "a" [4, 5, 6, 7]).exec threeBytes = .panic :=
  (C64_panics _ "a" _ _).1.2 ⟨2, Or.inr rfl, by decide⟩

end Osm.Props
