import Verif.Lemmas.Restart
import Verif.Props.Repeat
import Verif.Props.Whole

/-!
# C101: a run after any number of interrupted runs

The files are as some undisturbed run would find them (`fs`); then any number of attempts to run the command are
interrupted, at any moment, cancelled, or end in a panic; then it is run again. That run ends as the undisturbed run would
have ended; if they complete then all files are the same afterwards: nothing of the attempts is left. Only the command's
input must not be among the files it writes.
-/

namespace Osm.Props
open Osm Osm.T Osm.Pbf Osm.Spec Osm.Interrupt Osm.Repeat Osm.Restart

/-- The attempts to run decompress. -/
def decompressAttempt (inflate : Inflate) (inp out : String) (a b : FS) : Prop :=
  Interrupted (fun h : How => decompress inflate h.sched h.cut inp out) a b ∨
  Died (V := Unit) (decompressOutput out) (fun _ => decompressOutput out) a b

theorem decompressAttempts_keep {inflate : Inflate} {inp out : String} {fs fs' : FS}
    (ha : Attempts (decompressAttempt inflate inp out) fs fs') {g : String} (hg : g ≠ out) : fs' g = fs g := by
  refine Attempts.keeps (fun a b h => h.elim (fun h => ?_) (fun h => ?_)) ha
  · exact keeps_interrupted (S := fun f => f = out) (fun v => touches_process _ _ _ fun xs => touches_decompressOutput (by rfl) xs) h hg
  · exact keeps_died (S := fun f => f = out) (fun xs => touches_decompressOutput (by rfl) xs) (fun _ xs => touches_decompressOutput (by rfl) xs) h hg

/-- C101: decompress. -/
theorem C101_decompress (inflate : Inflate) (inp out : String) (hne : inp ≠ out) (fs fs' : FS)
    (hb : ∀ x, fs inp = some x → AllBlocks (NotLonger inflate) x.data)
    (ha : Attempts (decompressAttempt inflate inp out) fs fs') (s1 s2 : Block → Sched) :
    SameEnd ((decompress inflate s1 none inp out).exec fs) ((decompress inflate s2 none inp out).exec fs') := by
  have ht : ∀ (s : Block → Sched), Touches (fun f => f = out) (decompress inflate s none inp out) := fun s =>
    touches_process _ _ _ fun xs => touches_decompressOutput (by rfl) xs
  have hd : SameData inp fs fs' := by
    unfold SameData
    rw [decompressAttempts_keep ha hne]
  have hs := C77_decompress inflate s1 s2 none inp out fs fs' hd hb
  refine sameEnd_of (S := fun f => f = out) hs ?_ ?_ (fun g hg => decompressAttempts_keep ha hg) ?_ ?_
  · intro a x h g hg
    exact keeps_exec (ht _) h hg
  · intro a x h g hg
    exact keeps_exec (ht _) h hg
  · intro _ _ _ g h1 h2
    exact absurd h1 h2
  · intro _ _ _ g h1 h2
    exact absurd h1 h2

/-- The attempts to run tagfilter. -/
def tagfilterAttempt (inflate : Inflate) (inp out : String) (a b : FS) : Prop :=
  Interrupted (fun h : How => tagfilter inflate h.sched h.cut inp out) a b ∨
  Died (V := Unit) (TagFilter.output out) (fun _ => TagFilter.output out) a b

theorem tagfilterAttempts_keep {inflate : Inflate} {inp out : String} {fs fs' : FS}
    (ha : Attempts (tagfilterAttempt inflate inp out) fs fs') {g : String} (hg : g ≠ out) : fs' g = fs g := by
  refine Attempts.keeps (fun a b h => h.elim (fun h => ?_) (fun h => ?_)) ha
  · exact keeps_interrupted (S := fun f => f = out) (fun v => touches_process _ _ _ fun xs => touches_filterOutput (by rfl) xs) h hg
  · exact keeps_died (S := fun f => f = out) (fun xs => touches_filterOutput (by rfl) xs) (fun _ xs => touches_filterOutput (by rfl) xs) h hg

/-- C101: tagfilter. -/
theorem C101_tagfilter (inflate : Inflate) (inp out : String) (hne : inp ≠ out) (fs fs' : FS)
    (hb : ∀ x, fs inp = some x → AllBlocks (Definite inflate readAll) x.data)
    (ha : Attempts (tagfilterAttempt inflate inp out) fs fs') (s1 s2 : Block → Sched) :
    SameEnd ((tagfilter inflate s1 none inp out).exec fs) ((tagfilter inflate s2 none inp out).exec fs') := by
  have ht : ∀ (s : Block → Sched), Touches (fun f => f = out) (tagfilter inflate s none inp out) := fun s =>
    touches_process _ _ _ fun xs => touches_filterOutput (by rfl) xs
  have hd : SameData inp fs fs' := by
    unfold SameData
    rw [tagfilterAttempts_keep ha hne]
  have hs := C77_tagfilter inflate s1 s2 none inp out fs fs' hd hb
  refine sameEnd_of (S := fun f => f = out) hs ?_ ?_ (fun g hg => tagfilterAttempts_keep ha hg) ?_ ?_
  · intro a x h g hg
    exact keeps_exec (ht _) h hg
  · intro a x h g hg
    exact keeps_exec (ht _) h hg
  · intro _ _ _ g h1 h2
    exact absurd h1 h2
  · intro _ _ _ g h1 h2
    exact absurd h1 h2

/-- The attempts to run nodeindex. -/
def nodeAttempt (inflate : Inflate) (inp out : String) (a b : FS) : Prop :=
  Interrupted (fun h : How => nodeindex inflate h.sched h.cut h.chunks h.stop inp out) a b ∨
  Died (nodeLoop out) (fun h : How => NodeIndexer.Output out h.chunks h.stop) a b

/-- The attempts to run wayindex. -/
def wayAttempt (inflate : Inflate) (shift : Int64) (inp out : String) (a b : FS) : Prop :=
  Interrupted (fun h : How => wayindex inflate h.sched h.cut h.chunks h.stop shift inp out) a b ∨
  Died (wayLoop out shift) (fun h : How => WayIndexer.Output out shift h.chunks h.stop) a b

theorem nodeAttempts_keep {inflate : Inflate} {inp out : String} {fs fs' : FS}
    (ha : Attempts (nodeAttempt inflate inp out) fs fs') {g : String} (h1 : g ≠ out) (h2 : g ≠ out ++ ".loc.tmp") :
    fs' g = fs g := by
  have hg : ¬ (g = out ∨ g = out ++ ".loc.tmp") := fun h => h.elim h1 h2
  refine Attempts.keeps (fun a b h => h.elim
    (fun h => keeps_interrupted (S := fun f => f = out ∨ f = out ++ ".loc.tmp")
      (fun v => touches_process _ _ _ fun xs => touches_nodeOutput (.inl rfl) (.inr rfl) _ _ xs) h hg)
    (fun h => keeps_died (S := fun f => f = out ∨ f = out ++ ".loc.tmp")
      (fun xs => touches_bind (touches_emit (.inl rfl)) fun _ => touches_bind (touches_emit (.inr rfl)) fun _ =>
        touches_bind (touches_emit (.inl rfl)) fun _ => touches_nodeBatches (.inl rfl) (.inr rfl) _ _ _)
      (fun v xs => touches_nodeOutput (.inl rfl) (.inr rfl) _ _ xs) h hg)) ha

theorem wayAttempts_keep {inflate : Inflate} {shift : Int64} {inp out : String} {fs fs' : FS}
    (ha : Attempts (wayAttempt inflate shift inp out) fs fs') {g : String} (h1 : g ≠ out) (h2 : g ≠ out ++ ".loc.tmp") :
    fs' g = fs g := by
  have hg : ¬ (g = out ∨ g = out ++ ".loc.tmp") := fun h => h.elim h1 h2
  refine Attempts.keeps (fun a b h => h.elim
    (fun h => keeps_interrupted (S := fun f => f = out ∨ f = out ++ ".loc.tmp")
      (fun v => touches_process _ _ _ fun xs => touches_wayOutput (.inl rfl) (.inr rfl) _ _ _ xs) h hg)
    (fun h => keeps_died (S := fun f => f = out ∨ f = out ++ ".loc.tmp")
      (fun xs => touches_bind (touches_emit (.inl rfl)) fun _ => touches_bind (touches_emit (.inr rfl)) fun _ =>
        touches_bind (touches_emit (.inl rfl)) fun _ => touches_wayBatches (.inl rfl) (.inr rfl) _ _ _ _)
      (fun v xs => touches_wayOutput (.inl rfl) (.inr rfl) _ _ _ xs) h hg)) ha

theorem process_exec_ok {α O : Type} {cut : Option Nat} {work : Block → Res O} {inp : String} {output : List O → Prog α}
    {fs fs' : FS} {a : α} (h : (process cut work inp output).exec fs = .ok (a, fs')) :
    ∃ xs, (output xs).exec fs = .ok (a, fs') := by
  unfold process at h
  rw [Prog.exec_bind] at h
  obtain ⟨⟨_, f1⟩, e1, h⟩ := Res.bind_eq_ok.1 h
  have e1' := RelIndex.only_OsOpen "" inp fs _ e1
  dsimp only at e1' h
  rw [e1', Prog.exec_bind] at h
  obtain ⟨⟨m, f2⟩, e2, h⟩ := Res.bind_eq_ok.1 h
  have e2' := RelIndex.only_MMapMap inp fs _ e2
  dsimp only at e2' h
  rw [e2', Prog.exec_bind, Prog.exec_lift] at h
  obtain ⟨⟨bs, f3⟩, e3, h⟩ := Res.bind_eq_ok.1 h
  obtain ⟨_, -, e3⟩ := Res.bind_eq_ok.1 e3
  obtain ⟨rfl, rfl⟩ := Prod.mk.inj (Res.ok.inj e3)
  dsimp only at h
  rw [Prog.exec_bind, Prog.exec_lift] at h
  obtain ⟨⟨xs, f4⟩, e4, h⟩ := Res.bind_eq_ok.1 h
  obtain ⟨_, -, e4⟩ := Res.bind_eq_ok.1 e4
  obtain ⟨rfl, rfl⟩ := Prod.mk.inj (Res.ok.inj e4)
  exact ⟨_, h⟩

theorem nodeindex_tmp {inflate : Inflate} {s : Block → Sched} {chunks : Nat → Nat} {inp out : String} {fs fs' : FS} {a : Unit}
    (h : (nodeindex inflate s none chunks never inp out).exec fs = .ok (a, fs')) : fs' (out ++ ".loc.tmp") = none := by
  obtain ⟨xs, h⟩ := process_exec_ok h
  rw [NodeIndexer.output_shape] at h
  obtain ⟨r1, r2, r3⟩ := withHeader_exec out chunks never _ _ (NodeIndexer.loopSpec out (out ++ ".loc.tmp") (tmp_ne out) xs 0 0)
    NodeIndexer.header NodeIndexer.header_length fs
  cases hb : NodeIndexer.batchBytes 0 0 xs with
  | panic => rw [r2 hb] at h; cases h
  | hang => rw [r3 hb] at h; cases h
  | ok v =>
    obtain ⟨x, A, B⟩ := v
    obtain ⟨f, m, e1, -, e2, -⟩ := r1 x A B hb
    rw [e1] at h
    obtain ⟨-, rfl⟩ := Prod.mk.inj (Res.ok.inj h)
    exact e2

theorem wayindex_tmp {inflate : Inflate} {s : Block → Sched} {chunks : Nat → Nat} {shift : Int64} {inp out : String} {fs fs' : FS}
    {a : Unit} (h : (wayindex inflate s none chunks never shift inp out).exec fs = .ok (a, fs')) : fs' (out ++ ".loc.tmp") = none := by
  obtain ⟨xs, h⟩ := process_exec_ok h
  rw [WayIndexer.output_shape] at h
  obtain ⟨r1, r2, r3⟩ := withHeader_exec out chunks never _ _
    (WayIndexer.loopSpec out (out ++ ".loc.tmp") (tmp_ne out) shift xs 0 0) (WayIndexer.header shift) (WayIndexer.header_length shift) fs
  cases hb : WayIndexer.batchBytes shift 0 0 xs with
  | panic => rw [r2 hb] at h; cases h
  | hang => rw [r3 hb] at h; cases h
  | ok v =>
    obtain ⟨x, A, B⟩ := v
    obtain ⟨f, m, e1, -, e2, -⟩ := r1 x A B hb
    rw [e1] at h
    obtain ⟨-, rfl⟩ := Prod.mk.inj (Res.ok.inj h)
    exact e2

/-- C101: nodeindex. -/
theorem C101_nodeindex (inflate : Inflate) (inp out : String) (h1 : inp ≠ out) (h2 : inp ≠ out ++ ".loc.tmp") (fs fs' : FS)
    (hb : ∀ x, fs inp = some x → AllBlocks (Definite inflate nodesDecoded) x.data)
    (ha : Attempts (nodeAttempt inflate inp out) fs fs') (s1 s2 : Block → Sched) (chunks1 chunks2 : Nat → Nat) :
    SameEnd ((nodeindex inflate s1 none chunks1 never inp out).exec fs)
      ((nodeindex inflate s2 none chunks2 never inp out).exec fs') := by
  have ht : ∀ (s : Block → Sched) c k, Touches (fun f => f = out ∨ f = out ++ ".loc.tmp") (nodeindex inflate s c k never inp out) :=
    fun s c k => touches_process _ _ _ fun xs => touches_nodeOutput (.inl rfl) (.inr rfl) _ _ xs
  refine sameEnd_of (C77_nodeindex inflate s1 s2 none chunks1 chunks2 inp out fs fs' ?_ hb)
    (fun a x h g hg => keeps_exec (ht _ _ _) h hg) (fun a x h g hg => keeps_exec (ht _ _ _) h hg)
    (fun g hg => nodeAttempts_keep ha (fun h => hg (.inl h)) (fun h => hg (.inr h)))
    (fun a x h g hg ho => ?_) (fun a x h g hg ho => ?_)
  · unfold SameData
    rw [nodeAttempts_keep ha h1 h2]
  · rw [hg.resolve_left ho]; exact nodeindex_tmp h
  · rw [hg.resolve_left ho]; exact nodeindex_tmp h

/-- C101: wayindex. -/
theorem C101_wayindex (inflate : Inflate) (shift : Int64) (inp out : String) (h1 : inp ≠ out) (h2 : inp ≠ out ++ ".loc.tmp")
    (fs fs' : FS) (hb : ∀ x, fs inp = some x → AllBlocks (Definite inflate waysDecoded) x.data)
    (ha : Attempts (wayAttempt inflate shift inp out) fs fs') (s1 s2 : Block → Sched) (chunks1 chunks2 : Nat → Nat) :
    SameEnd ((wayindex inflate s1 none chunks1 never shift inp out).exec fs)
      ((wayindex inflate s2 none chunks2 never shift inp out).exec fs') := by
  have ht : ∀ (s : Block → Sched) c k, Touches (fun f => f = out ∨ f = out ++ ".loc.tmp")
      (wayindex inflate s c k never shift inp out) :=
    fun s c k => touches_process _ _ _ fun xs => touches_wayOutput (.inl rfl) (.inr rfl) _ _ _ xs
  refine sameEnd_of (C77_wayindex inflate s1 s2 none chunks1 chunks2 shift inp out fs fs' ?_ hb)
    (fun a x h g hg => keeps_exec (ht _ _ _) h hg) (fun a x h g hg => keeps_exec (ht _ _ _) h hg)
    (fun g hg => wayAttempts_keep ha (fun h => hg (.inl h)) (fun h => hg (.inr h)))
    (fun a x h g hg ho => ?_) (fun a x h g hg ho => ?_)
  · unfold SameData
    rw [wayAttempts_keep ha h1 h2]
  · rw [hg.resolve_left ho]; exact wayindex_tmp h
  · rw [hg.resolve_left ho]; exact wayindex_tmp h

/-- The attempts to run relindex with `n` passes. -/
def relAttempt (inflate : Inflate) (n : Nat) (inp wayIndex out : String) (a b : FS) : Prop :=
  Interrupted (fun h : How => relindex inflate h.sched h.cut n inp wayIndex out) a b ∨
  Died (V := Unit) (RelIndex.InitOutput (RelIndex.makePassFilename out 0 n))
    (fun _ => RelIndex.InitOutput (RelIndex.makePassFilename out 0 n)) a b

theorem relAttempts_keep {inflate : Inflate} {n : Nat} (hn : 0 < n) {inp wayIndex out : String} {fs fs' : FS}
    (ha : Attempts (relAttempt inflate n inp wayIndex out) fs fs') {g : String} (h1 : g ≠ out)
    (h2 : ∀ p < n, g ≠ RelIndex.makePassFilename out p n) : fs' g = fs g := by
  have hg : ¬ (g = out ∨ ∃ p, p < n ∧ g = RelIndex.makePassFilename out p n) := fun h => h.elim h1 fun ⟨p, hp, h⟩ => h2 p hp h
  have hi : ∀ xs, Touches (fun f => f = out ∨ ∃ p, p < n ∧ f = RelIndex.makePassFilename out p n)
      (RelIndex.InitOutput (RelIndex.makePassFilename out 0 n) xs) := fun xs =>
    touches_bind (touches_emit (.inr ⟨0, hn, rfl⟩)) fun _ => touches_relBlocks (.inr ⟨0, hn, rfl⟩) _
  exact Attempts.keeps (fun a b h => h.elim
    (fun h => keeps_interrupted (S := fun f => f = out ∨ ∃ p, p < n ∧ f = RelIndex.makePassFilename out p n)
      (fun v => touches_process _ _ _ fun xs => touches_relindex_lt (.inl rfl) hn (fun p hp => .inr ⟨p, hp, rfl⟩) _ xs) h hg)
    (fun h => keeps_died hi (fun _ => hi) h hg)) ha

/-- C101: relindex with at least one pass; the attempts have been made with the same number of passes. -/
theorem C101_relindex (inflate : Inflate) (n : Nat) (hn : 0 < n) (inp wayIndex out : String) (h1 : inp ≠ out)
    (h2 : wayIndex ≠ out) (h3 : ∀ p < n, inp ≠ RelIndex.makePassFilename out p n)
    (h4 : ∀ p < n, wayIndex ≠ RelIndex.makePassFilename out p n) (fs fs' : FS)
    (hb : ∀ x, fs inp = some x → AllBlocks (Definite inflate relationsDecoded) x.data)
    (ha : Attempts (relAttempt inflate n inp wayIndex out) fs fs') (s1 s2 : Block → Sched) :
    SameEnd ((relindex inflate s1 none n inp wayIndex out).exec fs)
      ((relindex inflate s2 none n inp wayIndex out).exec fs') := by
  have ht : ∀ (s : Block → Sched) c, Touches (fun f => f = out ∨ ∃ p, p < n ∧ f = RelIndex.makePassFilename out p n)
      (relindex inflate s c n inp wayIndex out) := fun s c =>
    touches_process _ _ _ fun xs => touches_relindex_lt (.inl rfl) hn (fun p hp => .inr ⟨p, hp, rfl⟩) _ xs
  have hgone : ∀ (s : Block → Sched) a f0 x, (relindex inflate s none n inp wayIndex out).exec f0 = .ok (a, x) →
      ∀ g, (g = out ∨ ∃ p, p < n ∧ g = RelIndex.makePassFilename out p n) → g ≠ out → x g = none := by
    intro s a f0 x h g hg ho
    obtain ⟨xs, h⟩ := process_exec_ok h
    obtain ⟨p, hp, rfl⟩ := hg.resolve_left ho
    exact (C45_any_run out wayIndex n xs f0 x hn h).1 p hp
  refine sameEnd_of (C77_relindex inflate s1 s2 none n hn inp wayIndex out fs fs' ?_ ?_ hb)
    (fun a x h g hg => keeps_exec (ht _ _) h hg) (fun a x h g hg => keeps_exec (ht _ _) h hg)
    (fun g hg => relAttempts_keep hn ha (fun h => hg (.inl h)) (fun p hp h => hg (.inr ⟨p, hp, h⟩)))
    (fun a x h g hg ho => hgone _ _ _ _ h g hg ho) (fun a x h g hg ho => hgone _ _ _ _ h g hg ho)
  · unfold SameData
    rw [relAttempts_keep hn ha h1 h3]
  · unfold SameData
    rw [relAttempts_keep hn ha h2 h4]

/-- The attempts to run rewritenodes. Its passes are concurrent runs; one of them may die whatever the state of the files it
reads. -/
def rewriteAttempt (inflate : Inflate) (memory : Option UInt64) (inp index out : String) (a b : FS) : Prop :=
  Interrupted (fun h : (Nat → Block → Sched) × (Nat → Option Nat) => rewritenodes inflate h.1 h.2 memory inp index out) a b ∨
  ∃ n p, passesOf index memory a = .ok n ∧ p < n.toNat ∧ Died (V := Unit) (Rewrite.output (Rewrite.passOutput out n.toNat p))
    (fun _ => Rewrite.output (Rewrite.passOutput out n.toNat p)) a b

theorem rewriteAttempt_keep {inflate : Inflate} {memory : Option UInt64} {inp index out : String} {a b : FS}
    (h : rewriteAttempt inflate memory inp index out a b) {g : String} (h1 : g ≠ out)
    (h2 : ∀ n, passesOf index memory a = .ok n → ∀ p, 1 ≤ p → p < n.toNat → g ≠ RelIndex.makePassFilename out p n.toNat) :
    b g = a g := by
  rcases h with ⟨v, h⟩ | ⟨n, p, hn, hp, h⟩
  · exact rewrite_crash h h1 h2
  · have hg : g ≠ Rewrite.passOutput out n.toNat p := by
      unfold Rewrite.passOutput
      split
      · exact h2 n hn _ (by omega) (by assumption)
      · exact h1
    exact keeps_died (S := fun f => f = Rewrite.passOutput out n.toNat p) (fun xs => touches_output (by rfl) xs)
      (fun _ xs => touches_output (by rfl) xs) h hg

theorem rewriteAttempts_keep {inflate : Inflate} {memory : Option UInt64} {inp index out : String} {fs fs' : FS}
    (ha : Attempts (rewriteAttempt inflate memory inp index out) fs fs') (hi1 : index ≠ out)
    (hi2 : ∀ n, passesOf index memory fs = .ok n → ∀ p, 1 ≤ p → p < n.toNat → index ≠ RelIndex.makePassFilename out p n.toNat)
    {g : String} (h1 : g ≠ out)
    (h2 : ∀ n, passesOf index memory fs = .ok n → ∀ p, 1 ≤ p → p < n.toNat → g ≠ RelIndex.makePassFilename out p n.toNat) :
    fs' g = fs g := by
  refine Attempts.keeps_of (P := fun a => a index = fs index) (fun a b hP h => ?_) (fun a b hP h => ?_) rfl ha
  · exact rewriteAttempt_keep h h1 (by rw [passesOf_congr hP]; exact h2)
  · rw [rewriteAttempt_keep h hi1 (by rw [passesOf_congr hP]; exact hi2), hP]

/-- C101: rewritenodes, with the hypotheses of C77. `n`: the number of passes that it makes. -/
theorem C101_rewritenodes (inflate : Inflate) (memory : Option UInt64) (inp index out : String) (fs fs' : FS)
    {file : List UInt8} (hin : Holds fs inp file) (hl : file.length < 2 ^ 63) {cs : List Content}
    (hc : FileHas inflate waysDecoded file cs) (hsm : SmallFile cs)
    {ixFile : List UInt8} (hix : Holds fs index ixFile) {ix : NodeIndex.NodeIdx} (hload : NodeIndex.NewNodeIndex ixFile = .ok ix)
    (hwf : WellFormed ix.elements ix.locations) {n : UInt64} (hn : NodeIndex.passCount ix memory = .ok n)
    (h1 : inp ≠ out) (h2 : index ≠ out)
    (h3 : ∀ p, 1 ≤ p → p < n.toNat → RelIndex.makePassFilename out p n.toNat ∉ [inp, index])
    (ha : Attempts (rewriteAttempt inflate memory inp index out) fs fs')
    (s1 s2 : Nat → Block → Sched) (hs1 : ∀ i b, (s1 i b).pooled.length < 2 ^ 63) (hs2 : ∀ i b, (s2 i b).pooled.length < 2 ^ 63) :
    SameEnd ((rewritenodes inflate s1 (fun _ => none) memory inp index out).exec fs)
      ((rewritenodes inflate s2 (fun _ => none) memory inp index out).exec fs') := by
  have hne : ixFile ≠ [] := by
    rintro rfl
    have h0 : NodeIndex.NewNodeIndex [] = .panic := rfl
    rw [h0] at hload
    cases hload
  have hpn : passesOf index memory fs = .ok n := by
    obtain ⟨pos, hix⟩ := hix
    unfold passesOf
    rw [hix]
    dsimp only
    rw [if_neg hne, hload, Res.ok_bind, hn]
  have only : ∀ m, passesOf index memory fs = .ok m → m = n := fun m h => Res.ok.inj (h.symm.trans hpn)
  have hi2 : ∀ m, passesOf index memory fs = .ok m → ∀ p, 1 ≤ p → p < m.toNat → index ≠ RelIndex.makePassFilename out p m.toNat := by
    intro m hm p a b e
    rw [only m hm] at b e
    exact h3 p a b (by simp [e])
  have keep : ∀ g, ¬ (g = out ∨ ∃ p, 1 ≤ p ∧ p < n.toNat ∧ g = RelIndex.makePassFilename out p n.toNat) → fs' g = fs g := by
    intro g hg
    refine rewriteAttempts_keep ha h2 hi2 (fun h => hg (.inl h)) fun m hm p a b e => ?_
    rw [only m hm] at b e
    exact hg (.inr ⟨p, a, b, e⟩)
  have kinp : fs' inp = fs inp := keep inp fun h => h.elim h1 fun ⟨p, a, b, e⟩ => h3 p a b (by simp [e])
  have kix : fs' index = fs index := keep index fun h => h.elim h2 fun ⟨p, a, b, e⟩ => h3 p a b (by simp [e])
  have hs := C77_rewritenodes inflate s1 s2 hs1 hs2 (fun _ => none) memory inp index out fs fs' (by unfold SameData; rw [kinp])
    (by unfold SameData; rw [kix]) hin hl hc hsm hix (fun ix' h => by
      rw [hload] at h
      obtain rfl := Res.ok.inj h
      exact hwf)
  have any : ∀ (s : Nat → Block → Sched) (f0 : FS) a x, f0 index = fs index →
      (rewritenodes inflate s (fun _ => none) memory inp index out).exec f0 = .ok (a, x) →
      (∀ p, 1 ≤ p → p < n.toNat → x (RelIndex.makePassFilename out p n.toNat) = none) ∧
      ∀ g, g ≠ out → (∀ p, 1 ≤ p → p < n.toNat → g ≠ RelIndex.makePassFilename out p n.toNat) → x g = f0 g := by
    intro s f0 a x h0 h
    rw [C74_not_cancelled_rewrite] at h
    obtain ⟨ixFile', ix', m, ⟨pos', e1⟩, e2, e3, e4⟩ := C48_any_run inflate s memory inp index out f0 x h
    obtain ⟨pos, hix⟩ := hix
    rw [h0, hix] at e1
    obtain ⟨rfl, rfl⟩ := File.mk.inj (Option.some.inj e1)
    rw [hload] at e2
    obtain rfl := Res.ok.inj e2
    rw [hn] at e3
    obtain rfl := Res.ok.inj e3
    exact e4
  refine sameEnd_of (S := fun g => g = out ∨ ∃ p, 1 ≤ p ∧ p < n.toNat ∧ g = RelIndex.makePassFilename out p n.toNat) hs ?_ ?_
    keep ?_ ?_
  · intro a x h g hg
    exact (any s1 fs a x rfl h).2 g (fun h => hg (.inl h)) fun p a b e => hg (.inr ⟨p, a, b, e⟩)
  · intro a x h g hg
    exact (any s2 fs' a x kix h).2 g (fun h => hg (.inl h)) fun p a b e => hg (.inr ⟨p, a, b, e⟩)
  · intro a x h g hg ho
    obtain ⟨p, b, c, rfl⟩ := hg.resolve_left ho
    exact (any s1 fs a x rfl h).1 p b c
  · intro a x h g hg ho
    obtain ⟨p, b, c, rfl⟩ := hg.resolve_left ho
    exact (any s2 fs' a x kix h).1 p b c

/-- C101: relindex after attempts with any numbers of passes: the result is the same (but pass files of attempts with
another number of passes are not removed). -/
theorem C101_relindex_other_passes (inflate : Inflate) (n : Nat) (hn : 0 < n) (inp wayIndex out : String) (h1 : inp ≠ out)
    (h2 : wayIndex ≠ out) (h3 : ∀ p m, RelIndex.makePassFilename out p m ∉ [inp, wayIndex]) (fs fs' : FS)
    (hb : ∀ x, fs inp = some x → AllBlocks (Definite inflate relationsDecoded) x.data)
    (ha : Attempts (fun a b => ∃ m, 0 < m ∧ relAttempt inflate m inp wayIndex out a b) fs fs') (s1 s2 : Block → Sched) :
    SameRun out ((relindex inflate s1 none n inp wayIndex out).exec fs)
      ((relindex inflate s2 none n inp wayIndex out).exec fs') := by
  have keep : ∀ g, g ≠ out → (∀ p m, g ≠ RelIndex.makePassFilename out p m) → fs' g = fs g := fun g hg hp =>
    Attempts.keeps (fun a b ⟨m, hm, h⟩ => relAttempts_keep hm (.more _ _ _ h (.none _)) hg fun p _ => hp p m) ha
  refine C77_relindex inflate s1 s2 none n hn inp wayIndex out fs fs' ?_ ?_ hb
  · unfold SameData
    rw [keep inp h1 fun p m e => h3 p m (by simp [e])]
  · unfold SameData
    rw [keep wayIndex h2 fun p m e => h3 p m (by simp [e])]

/-- C101: the same for rewritenodes after attempts with any memory targets. -/
theorem C101_rewritenodes_other_memory (inflate : Inflate) (memory : Option UInt64) (inp index out : String) (fs fs' : FS)
    {file : List UInt8} (hin : Holds fs inp file) (hl : file.length < 2 ^ 63) {cs : List Content}
    (hc : FileHas inflate waysDecoded file cs) (hsm : SmallFile cs)
    {ixFile : List UInt8} (hix : Holds fs index ixFile)
    (hwf : ∀ ix, NodeIndex.NewNodeIndex ixFile = .ok ix → WellFormed ix.elements ix.locations)
    (h1 : inp ≠ out) (h2 : index ≠ out) (h3 : ∀ p m, RelIndex.makePassFilename out p m ∉ [inp, index])
    (ha : Attempts (fun a b => ∃ m, rewriteAttempt inflate m inp index out a b) fs fs')
    (s1 s2 : Nat → Block → Sched) (hs1 : ∀ i b, (s1 i b).pooled.length < 2 ^ 63) (hs2 : ∀ i b, (s2 i b).pooled.length < 2 ^ 63) :
    SameRun out ((rewritenodes inflate s1 (fun _ => none) memory inp index out).exec fs)
      ((rewritenodes inflate s2 (fun _ => none) memory inp index out).exec fs') := by
  have keep : ∀ g, g ≠ out → (∀ p m, g ≠ RelIndex.makePassFilename out p m) → fs' g = fs g := fun g hg hp =>
    Attempts.keeps (fun a b ⟨m, h⟩ => rewriteAttempt_keep h hg fun n _ p _ _ => hp p n.toNat) ha
  exact C77_rewritenodes inflate s1 s2 hs1 hs2 (fun _ => none) memory inp index out fs fs'
    (by unfold SameData; rw [keep inp h1 fun p m e => h3 p m (by simp [e])])
    (by unfold SameData; rw [keep index h2 fun p m e => h3 p m (by simp [e])]) hin hl hc hsm hix hwf

/-! ## All four commands -/

/-- C101: the four commands of C69 one after the other, each of them after any number of interrupted attempts: each
completes, and the relation index is the right one. -/
theorem C101_end_to_end (inflate : Inflate) {file : List UInt8} {blocks : List (Option PrimitiveBlock)}
    (hs : SoundSource inflate file blocks) (hl : file.length < 2 ^ 63) (hi : Indexable blocks) (hn0 : allNodes blocks ≠ [])
    (hsmall : ∀ cs, FileHas inflate waysDecoded file cs → SmallFile cs)
    {f : Int64 → Int64} (hf : Locates blocks f)
    {shift : Int64} (hw : WaysIndexable shift ((allWays blocks).map (relocate f))) (hw0 : allWays blocks ≠ [])
    (hr : RelationsOk (pathOf blocks f) (allRelations blocks)) (hr0 : allRelations blocks ≠ [])
    {n : Nat} (hn : 1 ≤ n) (hn2 : n ≤ 2 ^ shift.toInt.toNat)
    {src nix rew wix rix : String} (names : Names n src nix rew wix rix)
    (sched1 sched3 sched4 : Block → Sched) (scheds2 : Nat → Block → Sched)
    (hs2 : ∀ i b, (scheds2 i b).pooled.length < 2 ^ 63)
    (chunks1 chunks3 : Nat → Nat) (fs : FS) (hin : Holds fs src file)
    (fs0 : FS) (h0 : Attempts (nodeAttempt inflate src nix) fs fs0) :
    ∃ fs1, (nodeindex inflate sched1 none chunks1 never src nix).exec fs0 = .ok ((), fs1) ∧
    ∀ fs1', Attempts (rewriteAttempt inflate none src nix rew) fs1 fs1' →
    ∃ fs2, (rewritenodes inflate scheds2 (fun _ => none) none src nix rew).exec fs1' = .ok ((), fs2) ∧
    ∀ fs2', Attempts (wayAttempt inflate shift rew wix) fs2 fs2' →
    ∃ fs3, (wayindex inflate sched3 none chunks3 never shift rew wix).exec fs2' = .ok ((), fs3) ∧
    ∀ fs3', Attempts (relAttempt inflate n src wix rix) fs3 fs3' →
    ∃ fs4, (relindex inflate sched4 none n src wix rix).exec fs3' = .ok ((), fs4) ∧
      Holds fs4 rix (Int64SliceAsByteSlice ((allRelations blocks).flatMap (relationEntry (pathOf blocks f)))) := by
  obtain ⟨hnd, hpn⟩ := names
  simp only [List.nodup_cons, List.mem_cons, List.not_mem_nil, or_false, not_or, List.nodup_nil, and_true,
    not_false_eq_true] at hnd
  obtain ⟨⟨d1, d2, d3, d4, d5, d6⟩, ⟨d7, d8, d9, d10, d11⟩, ⟨d12, d13, d14, d15⟩, ⟨d16, d17, d18⟩, ⟨d19, d20⟩, d21⟩ := hnd
  obtain ⟨pos, hin⟩ := hin
  have hin0 : Holds fs0 src file := ⟨pos, (nodeAttempts_keep h0 d1 d2).trans hin⟩
  -- nodeindex
  obtain ⟨fs1, ixFile, ix, a1, a2, a3, a4, a5, a6, a7, a8, a9⟩ := nodeindex_ok sched1 chunks1 (sound_is_source hs) hi src nix fs0 hin0
  have hin1 : fs1 src = some ⟨file, pos⟩ := (a9 src d1 d2).trans ((nodeAttempts_keep h0 d1 d2).trans hin)
  have hloc := locate_source hi hf a4 a8
  refine ⟨fs1, a1, fun fs1' h1 => ?_⟩
  -- rewritenodes
  have one : ∀ m, passesOf nix none fs1 = .ok m → m = 1 := by
    intro m hm
    unfold passesOf at hm
    obtain ⟨p, a2⟩ := a2
    rw [a2] at hm
    dsimp only at hm
    split at hm
    · cases hm
    · rw [a3, Res.ok_bind] at hm
      exact (Res.ok.inj hm).symm
  have keep1 : ∀ g, g ≠ rew → fs1' g = fs1 g := fun g hg =>
    rewriteAttempts_keep h1 d8 (fun m hm p q1 q2 => by rw [one m hm] at q2; exact absurd q2 (by simp; omega)) hg
      (fun m hm p q1 q2 => by rw [one m hm] at q2; exact absurd q2 (by simp; omega))
  have a2' : Holds fs1' nix ixFile := by
    obtain ⟨p, a2⟩ := a2
    exact ⟨p, (keep1 nix d8).trans a2⟩
  have hel : ix.elements ≠ [] := by
    intro h0
    obtain ⟨x, xs, hx⟩ := List.exists_cons_of_ne_nil hn0
    have hmem : x ∈ allNodes blocks := by rw [hx]; simp
    have hid := hi.ids x hmem
    have := NodeIndexer.i64_nat (x := x.2.id) (by omega)
    obtain ⟨e, he, _⟩ := (a8 x.2.id.toUInt64 (NodeIndexer.locVal x.1 x.2)).2
      ⟨x, hmem, by omega, (NodeIndexer.nodeLocation_eq x.1 x.2).1⟩
    rw [h0] at he
    simp at he
  obtain ⟨subs, p1, p2⟩ := C31_single_pass ix a4 a5 a6.2 hel
  obtain ⟨fs2, file2, b1, b2, b3, b4, _, b5⟩ := C46_whole inflate scheds2 hs2 a4 a7 none 1 rfl (by decide) p1 src nix rew
    hl hs hsmall fs1' ⟨pos, (keep1 src d3).trans hin1⟩ a2' a3
  rw [p2, hloc] at b4
  have hsrc2 : fs2 src = some ⟨file, pos⟩ :=
    (b5 src d3 fun p q1 q2 h => absurd q2 (by simp; omega)).trans ((keep1 src d3).trans hin1)
  refine ⟨fs2, by rw [C74_not_cancelled_rewrite]; exact b1, fun fs2' h2 => ?_⟩
  -- wayindex
  obtain ⟨bs2, t1, t2⟩ := sound_is_source b4
  have hw' : WaysIndexable shift (allWays (blocks.map (Option.map (mapRefs f)))) := by rw [allWays_mapRefs]; exact hw
  obtain ⟨batches, fs3, wfile, w1, w2, w3, w4, w5⟩ := wayOutput_ok shift _ hw' wix chunks3 fs2'
  have hwork := Programs.works_source sched3 Programs.wayReader (Programs.wayWork shift) (Programs.wayWork_agrees shift) t2
  rw [workAll_eq hw.range, w1] at hwork
  have b2' : Holds fs2' rew file2 := by
    obtain ⟨p, b2⟩ := b2
    exact ⟨p, (wayAttempts_keep h2 d16 d17).trans b2⟩
  have hwi : (Programs.wayindex inflate sched3 chunks3 shift rew wix).exec fs2' = .ok ((), fs3) := by
    unfold Programs.wayindex
    rw [Programs.process_exec _ _ _ t1 hwork fs2' b2']
    exact w2
  rw [allWays_mapRefs] at w4
  refine ⟨fs3, hwi, fun fs3' h3 => ?_⟩
  -- relindex
  obtain ⟨q1, q2⟩ := pathOf_ways hw
  have hans := entries_answers shift _ hw _ q1 q2
  have hne' : (allWays blocks).map (relocate f) ≠ [] := fun h => hw0 (List.map_eq_nil_iff.1 h)
  have hcover := C41_indexed shift _ hw hne' n hn hn2
  have hn63 : n < 2 ^ 63 := Nat.lt_of_le_of_lt hn2 (Nat.pow_lt_pow_right (by omega) (by have := hw.range; omega))
  have hpw : ∀ p < n, wix ≠ RelIndex.makePassFilename rix p n := fun p hp h => hpn p hp (by simp [← h])
  have hps : ∀ p < n, src ≠ RelIndex.makePassFilename rix p n := fun p hp h => hpn p hp (by simp [← h])
  have w3' : Holds fs3' wix wfile := by
    obtain ⟨p, w3⟩ := w3
    exact ⟨p, (relAttempts_keep (by omega) h3 d20 hpw).trans w3⟩
  obtain ⟨bs, s1, s2⟩ := sound_is_source hs
  obtain ⟨sent, fs4, r1, r2, r3⟩ := C44_content_partial (WayIndexer.entries_ordered shift _ hw) hans n hn hn63 hcover hr hr0
    rix wix ⟨d20, hpw⟩ fs3' w3' w4
  refine ⟨fs4, ?_, r3⟩
  show (Programs.relindex inflate sched4 n src wix rix).exec fs3' = _
  unfold Programs.relindex
  rw [Programs.process_exec _ _ _ s1 ((Programs.works_source sched4 Programs.relReader RelIndex.work Programs.relWork_agrees s2).trans r1) fs3']
  · exact r2
  · refine ⟨pos, ?_⟩
    rw [relAttempts_keep (by omega) h3 d6 hps, w5 _ d4 d5, wayAttempts_keep h2 d4 d5, hsrc2]

/-! ## Examples -/

/-- The hypotheses of `C101_end_to_end` hold for the file of C69 with two passes over the way index. -/
theorem tiny_ready {f : Int64 → Int64} (hf : Locates [none, some tinyBlock] f) :
    WaysIndexable 3 ((allWays [none, some tinyBlock]).map (relocate f)) ∧
    RelationsOk (pathOf [none, some tinyBlock] f) (allRelations [none, some tinyBlock]) := by
  have v2 := hf.node (tinyBlock, ⟨2, 20, 200⟩) (by decide +kernel)
  have v3 := hf.node (tinyBlock, ⟨3, 30, 300⟩) (by decide +kernel)
  have v5 := hf.node (tinyBlock, ⟨5, 50, 500⟩) (by decide +kernel)
  have v4 := hf.other 4 (by decide +kernel)
  have v9 := hf.other 9 (by decide +kernel)
  dsimp only at v2 v3 v5
  have w2 : f 2 = NodeIndexer.locVal tinyBlock ⟨2, 20, 200⟩ := by
    rw [(NodeIndexer.nodeLocation_eq tinyBlock ⟨2, 20, 200⟩).1] at v2; exact (Res.ok.inj v2).symm
  have w3 : f 3 = NodeIndexer.locVal tinyBlock ⟨3, 30, 300⟩ := by
    rw [(NodeIndexer.nodeLocation_eq tinyBlock ⟨3, 30, 300⟩).1] at v3; exact (Res.ok.inj v3).symm
  have w5 : f 5 = NodeIndexer.locVal tinyBlock ⟨5, 50, 500⟩ := by
    rw [(NodeIndexer.nodeLocation_eq tinyBlock ⟨5, 50, 500⟩).1] at v5; exact (Res.ok.inj v5).symm
  have hways : (allWays [none, some tinyBlock]).map (relocate f) =
      [⟨10, [], [], [f 2, f 3, f 4]⟩, ⟨11, [], [], [f 5, f 5, f 9]⟩] := rfl
  rw [w2, w3, w5, v4, v9] at hways
  refine ⟨?_, by decide +kernel, by decide +kernel, by decide +kernel, ?_⟩
  · rw [hways]
    exact ⟨by decide, by decide, by decide, by decide +kernel, by decide +kernel⟩
  · intro w
    unfold pathOf
    cases hfind : (allWays [none, some tinyBlock]).find? (fun x => x.ID == w) with
    | none => exact Nat.two_pow_pos 62
    | some x =>
      have := List.mem_of_find?_eq_some hfind
      have hx : x = ⟨10, [], [], [2, 3, 4]⟩ ∨ x = ⟨11, [], [], [5, 5, 9]⟩ := by
        revert this
        simp [allWays, sourceWays, tinyBlock]
      dsimp only
      have hl := (C40_refs_spec (relocate f x)).2.1.length_le
      rcases hx with rfl | rfl <;> (simp only [relocate, List.map_cons, List.map_nil, List.length_cons, List.length_nil] at hl ⊢; omega)

/-- A first attempt of nodeindex on it is interrupted as soon as the output has been created, over an old file; then
another one with half a header written. -/
theorem tiny_attempts (inflate : Inflate) (sched : Block → Sched) (chunks : Nat → Nat) (fs : FS) (hin : Holds fs "src" tinyFile) :
    ∃ fs0, Attempts (nodeAttempt inflate "src" "nix") fs fs0 ∧ Holds fs0 "nix" [0, 0, 0] ∧ Holds fs0 ("nix" ++ ".loc.tmp") [] := by
  have hx : ∃ xs, mapRes (Programs.blockWork inflate sched Programs.nodeReader NodeIndexer.work)
      (handed none [⟨0, ⟨[1, 2, 3], tinyFile.drop 20⟩, osmHeader⟩, ⟨1, ⟨[10, 66] ++ tinyPayload, []⟩, osmData⟩]) = .ok xs := by
    obtain ⟨fs', -, -, h, -⟩ := nodeindex_ok sched chunks (tiny_source inflate) tiny_indexable "src" "nix" fs hin
    have h : (nodeindex inflate sched none chunks never "src" "nix").exec fs = .ok ((), fs') := h
    unfold nodeindex process at h
    obtain ⟨pos, hin⟩ := hin
    rw [Prog.exec_bind, exec_OsOpen_some hin, Res.ok_bind, Prog.exec_bind, exec_MMapMap] at h
    dsimp only at h
    rw [hin] at h
    dsimp only at h
    rw [if_neg (by decide), Res.ok_bind, Prog.exec_bind, Prog.exec_lift] at h
    dsimp only at h
    rw [tiny_split, Res.ok_bind, Res.ok_bind, Prog.exec_bind, Prog.exec_lift] at h
    dsimp only at h
    obtain ⟨_, h, -⟩ := Res.bind_eq_ok.1 h
    obtain ⟨xs, h, -⟩ := Res.bind_eq_ok.1 h
    exact ⟨xs, h⟩
  obtain ⟨xs, hx⟩ := hx
  have hrun : ∀ fs, Holds fs "src" tinyFile → ∃ rest, (nodeindex inflate sched none chunks never "src" "nix" fs).1 =
      [.create "nix", .create ("nix" ++ ".loc.tmp"), .write "nix" zeros16] ++ rest := by
    intro fs hin
    unfold nodeindex
    rw [process_run none _ _ _ tiny_split hx fs hin]
    rw [NodeIndexer.output_shape]
    exact start_rest _ _ _ _ _ _
  obtain ⟨rest, h1⟩ := hrun fs hin
  have hin1 : Holds (runOps [.create "nix"] fs) "src" tinyFile := by
    obtain ⟨pos, hin⟩ := hin
    exact ⟨pos, (show runOps [.create "nix"] fs "src" = fs "src" from runOps_other _ _ _ (by simp [FsOp.file])).trans hin⟩
  obtain ⟨rest2, h2⟩ := hrun _ hin1
  refine ⟨(FsOp.write "nix" (zeros16.take 3)).run (runOps [.create "nix", .create ("nix" ++ ".loc.tmp")] (runOps [.create "nix"] fs)),
    .more _ (runOps [.create "nix"] fs) _ (.inl ⟨⟨sched, none, chunks, never⟩, [.create "nix"], _, h1, .inl rfl⟩)
    (.more _ _ _ (.inl ⟨⟨sched, none, chunks, never⟩, [.create "nix", .create ("nix" ++ ".loc.tmp")],
      .write "nix" zeros16 :: rest2, h2, .inr ⟨"nix", zeros16, rest2, 3, rfl, rfl⟩⟩) (.none _)), ?_, ?_⟩
  · exact ⟨3, rfl⟩
  · exact ⟨0, rfl⟩

/-- After them, nodeindex ends with the same files as if they had not been. -/
example (inflate : Inflate) (s1 s2 : Block → Sched) (chunks1 chunks2 : Nat → Nat) (fs : FS) (hin : Holds fs "src" tinyFile) :
    ∃ fs0 r1 r2, Holds fs0 "nix" [0, 0, 0] ∧ (nodeindex inflate s1 none chunks1 never "src" "nix").exec fs = .ok ((), r1) ∧
      (nodeindex inflate s2 none chunks2 never "src" "nix").exec fs0 = .ok ((), r2) ∧ ∀ g, SameData g r1 r2 := by
  obtain ⟨fs0, h1, h2, -⟩ := tiny_attempts inflate s1 chunks1 fs hin
  obtain ⟨r1, -, -, h3, -⟩ := nodeindex_ok s1 chunks1 (tiny_source inflate) tiny_indexable "src" "nix" fs hin
  have h3 : (nodeindex inflate s1 none chunks1 never "src" "nix").exec fs = .ok ((), r1) := h3
  have h4 := C101_nodeindex inflate "src" "nix" (by decide) (by decide) fs fs0 (fun x hx => by
    obtain ⟨pos, hin⟩ := hin
    rw [hin] at hx
    obtain rfl := Option.some.inj hx
    exact allDefinite (tiny_source inflate) _) h1 s1 s2 chunks1 chunks2
  rw [h3] at h4
  unfold SameEnd at h4
  generalize hy : (nodeindex inflate s2 none chunks2 never "src" "nix").exec fs0 = y at h4
  cases h4 with
  | ok a b hab => exact ⟨fs0, r1, b.2, h2, h3, by rw [hy], hab.2⟩

/-- And the four commands make the relation index, one of the others having been interrupted as well. -/
example (inflate : Inflate) (sched1 sched3 sched4 : Block → Sched) (scheds2 : Nat → Block → Sched)
    (hs2 : ∀ i b, (scheds2 i b).pooled.length < 2 ^ 63) (chunks1 chunks3 : Nat → Nat) (fs : FS) (hin : Holds fs "src" tinyFile) :
    ∃ fs0 fs1 fs2 fs3 fs4 f, Holds fs0 "nix" [0, 0, 0] ∧
      (nodeindex inflate sched1 none chunks1 never "src" "nix").exec fs0 = .ok ((), fs1) ∧
      (rewritenodes inflate scheds2 (fun _ => none) none "src" "nix" "rew").exec fs1 = .ok ((), fs2) ∧
      (wayindex inflate sched3 none chunks3 never 3 "rew" "wix").exec fs2 = .ok ((), fs3) ∧
      (relindex inflate sched4 none 2 "src" "wix" "rix").exec fs3 = .ok ((), fs4) ∧
      Holds fs4 "rix" (Int64SliceAsByteSlice ((allRelations [none, some tinyBlock]).flatMap
        (relationEntry (pathOf [none, some tinyBlock] f)))) := by
  obtain ⟨f, hf⟩ := C69_locates tiny_indexable
  obtain ⟨hw, hr⟩ := tiny_ready hf
  obtain ⟨fs0, h0, h0', -⟩ := tiny_attempts inflate sched1 chunks1 fs hin
  obtain ⟨fs1, e1, k1⟩ := C101_end_to_end inflate (tiny_sound inflate) (by decide +kernel) tiny_indexable (by decide +kernel)
    (tiny_small inflate) hf hw (by decide +kernel) hr (by decide +kernel) (n := 2) (by decide) (by decide) (src := "src")
    (nix := "nix") (rew := "rew") (wix := "wix") (rix := "rix") ⟨by decide +kernel, by decide +kernel⟩ sched1 sched3 sched4 scheds2
    hs2 chunks1 chunks3 fs hin fs0 h0
  obtain ⟨fs2, e2, k2⟩ := k1 fs1 (.none _)
  obtain ⟨fs3, e3, k3⟩ := k2 fs2 (.none _)
  obtain ⟨fs4, e4, k4⟩ := k3 fs3 (.none _)
  exact ⟨fs0, fs1, fs2, fs3, fs4, f, h0', e1, e2, e3, e4, k4⟩

end Osm.Props
