import Verif.Lemmas.Interrupt
import Verif.Lemmas.RelPasses
import Verif.Props.Programs

/-!
# C109: the files there are at once

At every moment of a run of rewritenodes or relindex (at every crash point, cancelled or not), however many passes it has.
-/

namespace Osm.Props
open Osm Osm.T Osm.Pbf Osm.Spec Osm.Interrupt

/-- The files that exist are those that existed before, and some in `S`. -/
def OnlyNew (before : FS) (S : String → Prop) (fs : FS) : Prop := ∀ g, (fs g).isSome → (before g).isSome ∨ S g

theorem onlyNew_mono {before fs : FS} {S S' : String → Prop} (h : OnlyNew before S fs) (hs : ∀ g, S g → S' g) :
    OnlyNew before S' fs := fun g hg => (h g hg).imp id (hs g)

/-- A program that works on one file. -/
theorem onlyNew_touches {α : Type} {before fs : FS} {S : String → Prop} {f : String} {p : Prog α} (h : OnlyNew before S fs)
    (ht : Touches (fun g => g = f) p) :
    Prog.Always (OnlyNew before fun g => S g ∨ g = f) p fs ∧
      ∀ a fs', p.exec fs = .ok (a, fs') → OnlyNew before (fun g => S g ∨ g = f) fs' := by
  constructor
  · intro fs' hc g hg
    by_cases hf : g = f
    · exact .inr (.inr hf)
    · rw [ht.crash fs fs' hc g hf] at hg
      exact (h g hg).imp id .inl
  · intro a fs' he g hg
    by_cases hf : g = f
    · exact .inr (.inr hf)
    · rw [ht.exec he g hf] at hg
      exact (h g hg).imp id .inl

/-- A file that is removed is gone. -/
theorem onlyNew_removed {before fs fs' : FS} {S : String → Prop} {f : String} {a : Unit} (h : OnlyNew before S fs)
    (he : (OsRemoveTry f).exec fs = .ok (a, fs')) : OnlyNew before (fun g => S g ∧ g ≠ f) fs' := by
  unfold OsRemoveTry at he
  rw [Prog.exec_emit] at he
  cases he
  intro g hg
  by_cases hf : g = f
  · subst hf
    simp [FsOp.run, FS.set] at hg
  · have : (FsOp.remove f).run fs g = fs g := by simp [FsOp.run, FS.set, hf]
    rw [this] at hg
    exact (h g hg).imp id fun h => ⟨h, hf⟩

/-- Of the files between the passes at most two, which follow each other. -/
def TwoPassFiles (N : Nat → Prop) (out : String) (before fs : FS) : Prop :=
  ∃ n p, N n ∧ OnlyNew before (fun g => g = out ∨ g = RelIndex.makePassFilename out p n ∨ g = RelIndex.makePassFilename out (p + 1) n) fs

/-! ### relindex -/

theorem relPasses_two (out : String) (ix : WayIndex.WayIdx) (n : Nat) (before : FS) : ∀ (left i : Nat) (fs : FS), i + left = n →
    OnlyNew before (fun g => g = out ∨ g = RelIndex.makePassFilename out i n) fs →
    Prog.Always (TwoPassFiles (· = n) out before) (RelIndex.runPasses out ix n left i) fs := by
  intro left
  induction left with
  | zero =>
    intro i fs _ h
    exact Prog.always_pure () ⟨n, i, rfl, onlyNew_mono h fun g hg => hg.imp id .inl⟩
  | succ left ih =>
    intro i fs hi h
    unfold RelIndex.runPasses
    obtain ⟨a1, a2⟩ := onlyNew_touches (f := if i + 1 < n then RelIndex.makePassFilename out (i + 1) n else out) h
      (touches_relRewrite (by rfl) (RelIndex.makePassFilename out i n) ix (Int64.ofNat i) (Int64.ofNat n))
    have two : ∀ {fs}, OnlyNew before (fun g => (g = out ∨ g = RelIndex.makePassFilename out i n) ∨
        g = if i + 1 < n then RelIndex.makePassFilename out (i + 1) n else out) fs → TwoPassFiles (· = n) out before fs := by
      intro fs h
      refine ⟨n, i, rfl, onlyNew_mono h fun g hg => ?_⟩
      rcases hg with (hg | hg) | hg
      · exact .inl hg
      · exact .inr (.inl hg)
      · split at hg
        · exact .inr (.inr hg)
        · exact .inl hg
    refine Prog.always_bind (fun fs' hc => two (a1 fs' hc)) fun _ fs1 e1 => ?_
    have h1 := a2 _ _ e1
    have hrem : Touches (fun g => g = RelIndex.makePassFilename out i n) (OsRemoveTry (RelIndex.makePassFilename out i n)) :=
      touches_emit (by rfl)
    refine Prog.always_bind (fun fs' hc => ?_) fun _ fs2 e2 => ?_
    · exact two (onlyNew_mono ((onlyNew_touches h1 hrem).1 fs' hc) fun g hg => hg.elim id fun hg => .inl (.inr hg))
    · have h2 := onlyNew_removed h1 e2
      refine ih (i + 1) fs2 (by omega) (onlyNew_mono h2 fun g hg => ?_)
      obtain ⟨(hg | hg) | hg, hne⟩ := hg
      · exact .inl hg
      · exact absurd hg hne
      · split at hg
        · exact .inr hg
        · exact .inl hg

/-- C109: relindex. -/
theorem C109_relindex (inflate : Inflate) (sched : Block → Sched) (cut : Option Nat) (passes : Nat) (inp wayIndex out : String)
    (fs fs' : FS) (hc : CrashState (relindex inflate sched cut passes inp wayIndex out fs).1 fs fs') :
    ∃ p, ∀ g, (fs' g).isSome → (fs g).isSome ∨ g = out ∨ g = RelIndex.makePassFilename out p passes ∨
      g = RelIndex.makePassFilename out (p + 1) passes := by
  have h0 : OnlyNew fs (fun g => g = out ∨ g = RelIndex.makePassFilename out 0 passes) fs := fun g hg => .inl hg
  have t0 : TwoPassFiles (· = passes) out fs fs := ⟨passes, 0, rfl, onlyNew_mono h0 fun g hg => hg.imp id .inl⟩
  have : Prog.Always (TwoPassFiles (· = passes) out fs) (relindex inflate sched cut passes inp wayIndex out) fs := by
    unfold relindex process
    refine Prog.always_bind (always_OsOpen _ t0) fun _ fs1 e1 => ?_
    obtain rfl : fs1 = fs := funext fun g => (touches_OsOpen (fun _ => False) _).exec e1 g id
    refine Prog.always_bind ?_ fun m fs0 e0 => ?_
    · exact fun fs' hc => by
        rw [show fs' = fs1 from funext fun g => (touches_MMapMap (fun _ => False) inp).crash fs1 fs' hc g id]
        exact t0
    obtain rfl : fs0 = fs1 := funext fun g => (touches_MMapMap (fun _ => False) inp).exec e0 g id
    refine Prog.always_bind (Prog.always_lift _ t0) fun _ fs2 e2 => ?_
    obtain rfl : fs2 = fs0 := funext fun g => (touches_lift (fun _ => False) _).exec e2 g id
    refine Prog.always_bind (Prog.always_lift _ t0) fun sent fs3 e3 => ?_
    obtain rfl : fs3 = fs2 := funext fun g => (touches_lift (fun _ => False) _).exec e3 g id
    unfold RelIndex.relindex
    have hinit : Touches (fun g => g = RelIndex.makePassFilename out 0 passes)
        (RelIndex.InitOutput (RelIndex.makePassFilename out 0 passes) sent) :=
      touches_bind (touches_emit (by rfl)) fun _ => touches_relBlocks (by rfl) _
    obtain ⟨a1, a2⟩ := onlyNew_touches h0 hinit
    have two : ∀ {g}, OnlyNew fs3 (fun g => (g = out ∨ g = RelIndex.makePassFilename out 0 passes) ∨
        g = RelIndex.makePassFilename out 0 passes) g → OnlyNew fs3 (fun g => g = out ∨ g = RelIndex.makePassFilename out 0 passes) g :=
      fun h => onlyNew_mono h fun g hg => hg.elim id .inr
    have two' : ∀ {g}, OnlyNew fs3 (fun g => g = out ∨ g = RelIndex.makePassFilename out 0 passes) g → TwoPassFiles (· = passes) out fs3 g :=
      fun h => ⟨passes, 0, rfl, onlyNew_mono h fun g hg => hg.imp id .inl⟩
    refine Prog.always_bind (fun fs' hc => two' (two (a1 fs' hc))) fun _ fs4 e4 => ?_
    have h4 := two (a2 _ _ e4)
    refine Prog.always_bind (always_OsOpen _ (two' h4)) fun _ fs5 e5 => ?_
    obtain rfl : fs5 = fs4 := funext fun g => (touches_OsOpen (fun _ => False) _).exec e5 g id
    refine Prog.always_bind ?_ fun m fs6 e6 => ?_
    · exact fun fs' hc => by
        rw [show fs' = fs5 from funext fun g => (touches_MMapMap (fun _ => False) wayIndex).crash fs5 fs' hc g id]
        exact two' h4
    obtain rfl : fs6 = fs5 := funext fun g => (touches_MMapMap (fun _ => False) _).exec e6 g id
    refine Prog.always_bind (Prog.always_lift _ (two' h4)) fun ix fs7 e7 => ?_
    obtain rfl : fs7 = fs6 := funext fun g => (touches_lift (fun _ => False) _).exec e7 g id
    exact relPasses_two out ix passes fs3 passes 0 fs7 (by omega) h4
  obtain ⟨_, p, rfl, h⟩ := this fs' hc
  exact ⟨p, h⟩

/-- A way index of three ways without points. -/
def threeWays : List UInt8 :=
  [3, 0, 0, 0, 0, 0, 0, 0, 0, 0, 0, 0, 0, 0, 0, 0, 0, 0, 0, 0, 2, 0, 0, 0, 3, 0, 0, 0, 4, 0, 0, 0, 6, 0, 0, 0, 6, 0, 0, 0,
   0, 0, 0, 0, 0, 0, 0, 0, 0]

/-- There can be two: a run with three passes, which ends normally, stopped when the first of them starts to write. At its
end only the output is left. -/
example : let fs : FS := fun f => if f = "in" then some ⟨tinyFile, 0⟩ else if f = "ix" then some ⟨threeWays, 0⟩ else none
    let run := relindex (fun _ => none) (fun _ => ⟨[], fun _ => ⟨1, false⟩⟩) none 3 "in" "ix" "out"
    (∃ fs', CrashState (run fs).1 fs fs' ∧ (fs' "out").isSome = false ∧ (fs' "out.pass_000_003").isSome ∧
      (fs' "out.pass_001_003").isSome) ∧
    ∃ fs', run.exec fs = .ok ((), fs') ∧ (fs' "out").isSome ∧ (fs' "out.pass_000_003").isSome = false ∧
      (fs' "out.pass_001_003").isSome = false := by
  intro fs run
  refine ⟨⟨_, ⟨(run fs).1.take 3, _, (List.take_append_drop 3 _).symm, .inl rfl⟩, ?_⟩, ?_⟩
  · decide +kernel
  · have h : (run fs).2 = .ok () := by decide +kernel
    refine ⟨runOps (run fs).1 fs, ?_, by decide +kernel⟩
    unfold Prog.exec
    rcases hp : run fs with ⟨ops, r⟩
    rw [hp] at h
    cases h
    rfl

/-! ### rewritenodes -/

theorem rewritePasses_two (inflate : Inflate) (scheds : Nat → Block → Sched) (cuts : Nat → Option Nat) (ix : NodeIndex.NodeIdx)
    (inp out : String) (n : Nat) (before : FS) : ∀ (left i : Nat) (fs : FS), i + left = n →
    OnlyNew before (fun g => g = out ∨ (2 ≤ i ∧ g = RelIndex.makePassFilename out (i - 1) n) ∨
      (1 ≤ i ∧ g = RelIndex.makePassFilename out i n)) fs →
    Prog.Always (TwoPassFiles (fun _ => True) out before) (rewritePasses inflate scheds cuts ix inp out n left i) fs ∧
    ∀ a fs', (rewritePasses inflate scheds cuts ix inp out n left i).exec fs = .ok (a, fs') →
      OnlyNew before (fun g => g = out ∨ (2 ≤ n ∧ g = RelIndex.makePassFilename out (n - 1) n) ∨
        (1 ≤ n ∧ g = RelIndex.makePassFilename out n n)) fs' := by
  have start : ∀ (i : Nat) {fs : FS}, OnlyNew before (fun g => g = out ∨ (2 ≤ i ∧ g = RelIndex.makePassFilename out (i - 1) n) ∨
      (1 ≤ i ∧ g = RelIndex.makePassFilename out i n)) fs → TwoPassFiles (fun _ => True) out before fs := by
    intro i fs h
    refine ⟨n, i - 1, trivial, onlyNew_mono h fun g hg => ?_⟩
    rcases hg with hg | ⟨_, hg⟩ | ⟨h1, hg⟩
    · exact .inl hg
    · exact .inr (.inl hg)
    · rw [show i - 1 + 1 = i by omega]
      exact .inr (.inr hg)
  intro left
  induction left with
  | zero =>
    intro i fs hi h
    have hi : i = n := hi
    refine ⟨Prog.always_pure () (start i h), fun a fs' he => ?_⟩
    cases he
    subst hi
    exact h
  | succ left ih =>
    intro i fs hi h
    have hrem : Touches (fun g => g = RelIndex.makePassFilename out (i - 1) n) (Rewrite.removeOld out n i) := by
      unfold Rewrite.removeOld
      split
      · exact touches_emit (by rfl)
      · exact touches_pure _ _
    have r1 : Prog.Always (TwoPassFiles (fun _ => True) out before) (Rewrite.removeOld out n i) fs := by
      unfold Rewrite.removeOld
      split
      · next h2 =>
        intro fs' hc
        refine start i (onlyNew_mono ((onlyNew_touches (f := RelIndex.makePassFilename out (i - 1) n) h (touches_emit (by rfl))).1
          fs' hc) fun g hg => hg.elim id fun hg => .inr (.inl ⟨by omega, hg⟩))
      · exact Prog.always_pure () (start i h)
    have r2 : ∀ a fs', (Rewrite.removeOld out n i).exec fs = .ok (a, fs') →
        OnlyNew before (fun g => g = out ∨ (1 ≤ i ∧ g = RelIndex.makePassFilename out i n)) fs' := by
      intro a fs' he
      unfold Rewrite.removeOld at he
      split at he
      · refine onlyNew_mono (onlyNew_removed h he) fun g hg => ?_
        obtain ⟨hg | ⟨_, hg⟩ | hg, hne⟩ := hg
        · exact .inl hg
        · exact absurd hg hne
        · exact .inr hg
      · next h2 =>
        cases he
        refine onlyNew_mono h fun g hg => ?_
        rcases hg with hg | ⟨h3, _⟩ | hg
        · exact .inl hg
        · exact absurd h3 (by omega)
        · exact .inr hg
    have mid : ∀ {fs : FS}, OnlyNew before (fun g => g = out ∨ (1 ≤ i ∧ g = RelIndex.makePassFilename out i n)) fs →
        TwoPassFiles (fun _ => True) out before fs := fun h => ⟨n, i, trivial, onlyNew_mono h fun g hg => hg.imp id fun hg => .inl hg.2⟩
    have next : ∀ {fs : FS}, OnlyNew before (fun g => (g = out ∨ (1 ≤ i ∧ g = RelIndex.makePassFilename out i n)) ∨
        g = Rewrite.passOutput out n i) fs →
        OnlyNew before (fun g => g = out ∨ (2 ≤ i + 1 ∧ g = RelIndex.makePassFilename out (i + 1 - 1) n) ∨
          (1 ≤ i + 1 ∧ g = RelIndex.makePassFilename out (i + 1) n)) fs := by
      intro fs h
      refine onlyNew_mono h fun g hg => ?_
      rcases hg with (hg | ⟨h1, hg⟩) | hg
      · exact .inl hg
      · exact .inr (.inl ⟨by omega, hg⟩)
      · unfold Rewrite.passOutput at hg
        split at hg
        · exact .inr (.inr ⟨by omega, hg⟩)
        · exact .inl hg
    have hpass : ∀ si, Touches (fun g => g = Rewrite.passOutput out n i)
        (rewritePass inflate (scheds i) (cuts i) si (Rewrite.passInput inp out n i) (Rewrite.passOutput out n i)) := fun si =>
      touches_bind (touches_OsOpen _ _) fun _ => touches_bind (touches_MMapMap _ _) fun _ => touches_bind (touches_lift _ _) fun _ =>
        touches_bind (touches_lift _ _) fun _ => touches_output (by rfl) _
    constructor
    · unfold rewritePasses
      refine Prog.always_bind r1 fun _ fs1 e1 => ?_
      have h1 := r2 _ _ e1
      refine Prog.always_bind (Prog.always_lift _ (mid h1)) fun si fs2 e2 => ?_
      obtain rfl : fs2 = fs1 := funext fun g => (touches_lift (fun _ => False) _).exec e2 g id
      obtain ⟨p1, p2⟩ := onlyNew_touches h1 (hpass si)
      exact Prog.always_bind (fun fs' hc => start (i + 1) (next (p1 fs' hc))) fun _ fs3 e3 =>
        (ih (i + 1) fs3 (by omega) (next (p2 _ _ e3))).1
    · intro a fs' he
      unfold rewritePasses at he
      rw [Prog.exec_bind] at he
      obtain ⟨⟨_, fs1⟩, e1, g1⟩ := Res.bind_eq_ok.1 he
      have h1 := r2 _ _ e1
      dsimp only at g1
      rw [Prog.exec_bind] at g1
      obtain ⟨⟨si, fs2⟩, e2, g2⟩ := Res.bind_eq_ok.1 g1
      dsimp only at g2
      obtain rfl : fs2 = fs1 := funext fun g => (touches_lift (fun _ => False) _).exec e2 g id
      rw [Prog.exec_bind] at g2
      obtain ⟨⟨_, fs3⟩, e3, g3⟩ := Res.bind_eq_ok.1 g2
      exact (ih (i + 1) fs3 (by omega) (next ((onlyNew_touches h1 (hpass si)).2 _ _ e3))).2 a fs' g3

/-- C109: rewritenodes. -/
theorem C109_rewritenodes (inflate : Inflate) (scheds : Nat → Block → Sched) (cuts : Nat → Option Nat) (memory : Option UInt64)
    (inp index out : String) (fs fs' : FS)
    (hc : CrashState (rewritenodes inflate scheds cuts memory inp index out fs).1 fs fs') :
    ∃ n p, ∀ g, (fs' g).isSome → (fs g).isSome ∨ g = out ∨ g = RelIndex.makePassFilename out p n ∨
      g = RelIndex.makePassFilename out (p + 1) n := by
  have t0 : TwoPassFiles (fun _ => True) out fs fs := ⟨0, 0, trivial, fun g hg => .inl hg⟩
  have : Prog.Always (TwoPassFiles (fun _ => True) out fs) (rewritenodes inflate scheds cuts memory inp index out) fs := by
    unfold rewritenodes
    refine Prog.always_bind (always_OsOpen _ t0) fun _ fs1 e1 => ?_
    obtain rfl : fs1 = fs := funext fun g => (touches_OsOpen (fun _ => False) _).exec e1 g id
    refine Prog.always_bind ?_ fun m fs2 e2 => ?_
    · exact fun fs' hc => by
        rw [show fs' = fs1 from funext fun g => (touches_MMapMap (fun _ => False) index).crash fs1 fs' hc g id]
        exact t0
    obtain rfl : fs2 = fs1 := funext fun g => (touches_MMapMap (fun _ => False) _).exec e2 g id
    refine Prog.always_bind (Prog.always_lift _ t0) fun ix fs3 e3 => ?_
    obtain rfl : fs3 = fs2 := funext fun g => (touches_lift (fun _ => False) _).exec e3 g id
    refine Prog.always_bind (Prog.always_lift _ t0) fun n fs4 e4 => ?_
    obtain rfl : fs4 = fs3 := funext fun g => (touches_lift (fun _ => False) _).exec e4 g id
    obtain ⟨p1, p2⟩ := rewritePasses_two inflate scheds cuts ix inp out n.toNat fs4 n.toNat 0 fs4 (by omega) fun g hg => .inl hg
    refine Prog.always_bind p1 fun _ fs5 e5 => ?_
    have h5 := p2 _ _ e5
    have two : ∀ {fs : FS}, OnlyNew fs4 (fun g => (g = out ∨ (2 ≤ n.toNat ∧ g = RelIndex.makePassFilename out (n.toNat - 1) n.toNat) ∨
        (1 ≤ n.toNat ∧ g = RelIndex.makePassFilename out n.toNat n.toNat)) ∨ g = RelIndex.makePassFilename out (n.toNat - 1) n.toNat) fs →
        TwoPassFiles (fun _ => True) out fs4 fs := by
      intro fs h
      refine ⟨n.toNat, n.toNat - 1, trivial, onlyNew_mono h fun g hg => ?_⟩
      rcases hg with (hg | ⟨_, hg⟩ | ⟨h1, hg⟩) | hg
      · exact .inl hg
      · exact .inr (.inl hg)
      · rw [show n.toNat - 1 + 1 = n.toNat by omega]
        exact .inr (.inr hg)
      · exact .inr (.inl hg)
    unfold Rewrite.removeLast
    split
    · exact fun fs' hc => two ((onlyNew_touches h5 (touches_OsRemove (by rfl))).1 fs' hc)
    · exact Prog.always_pure () (two (onlyNew_mono h5 fun _ => .inl))
  obtain ⟨n, p, -, h⟩ := this fs' hc
  exact ⟨n, p, h⟩

end Osm.Props
