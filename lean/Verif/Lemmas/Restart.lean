import Verif.Lemmas.Repeat
import Verif.Spec.Restart

/-! # Lemmas about runs after interrupted runs (C101) -/

namespace Osm.Restart
open Osm Osm.T Osm.Pbf Osm.Spec Osm.Interrupt Osm.Repeat

/-- Attempts which touch only some files leave the others alone. -/
theorem Attempts.keeps {one : FS → FS → Prop} {g : String} (h1 : ∀ a b, one a b → b g = a g) {fs fs' : FS}
    (h : Attempts one fs fs') : fs' g = fs g := by
  induction h with
  | none => rfl
  | more fs fs1 fs2 ha _ ih => rw [ih, h1 _ _ ha]

/-- The same with what is known to be in some other files. -/
theorem Attempts.keeps_of {one : FS → FS → Prop} {P : FS → Prop} {g : String} (h1 : ∀ a b, P a → one a b → b g = a g)
    (hP : ∀ a b, P a → one a b → P b) {fs fs' : FS} (h0 : P fs) (h : Attempts one fs fs') : fs' g = fs g := by
  induction h with
  | none => rfl
  | more fs fs1 fs2 ha _ ih => rw [ih (hP _ _ h0 ha), h1 _ _ h0 ha]

theorem keeps_interrupted {V α : Type} {S : String → Prop} {cmd : V → Prog α} (h : ∀ v, Touches S (cmd v)) {fs fs' : FS}
    (hi : Interrupted cmd fs fs') {g : String} (hg : ¬ S g) : fs' g = fs g := by
  obtain ⟨v, hc⟩ := hi
  exact (h v).crash fs fs' hc g hg

theorem keeps_died {V O α β : Type} {S : String → Prop} {loop : List O → Prog α} {whole : V → List O → Prog β}
    (h1 : ∀ xs, Touches S (loop xs)) (h2 : ∀ v xs, Touches S (whole v xs)) {fs fs' : FS}
    (hi : Died loop whole fs fs') {g : String} (hg : ¬ S g) : fs' g = fs g := by
  obtain ⟨v, c, W, s, -, hd⟩ := hi
  unfold DiesIn at hd
  split at hd
  · exact (h2 v _).crash fs fs' hd g hg
  · exact (h1 _).crash fs fs' hd g hg

/-- What a complete run leaves in the files it does not touch. -/
theorem keeps_exec {α : Type} {S : String → Prop} {p : Prog α} (h : Touches S p) {fs fs' : FS} {a : α}
    (he : p.exec fs = .ok (a, fs')) {g : String} (hg : ¬ S g) : fs' g = fs g := by
  unfold Prog.exec at he
  rcases hp : p fs with ⟨ops, r⟩
  rw [hp] at he
  cases r with
  | panic => cases he
  | hang => cases he
  | ok b =>
    obtain ⟨-, rfl⟩ := Prod.mk.inj (Res.ok.inj he)
    refine h.crash fs _ ⟨ops, [], ?_, .inl rfl⟩ g hg
    rw [hp, List.append_nil]

/-- From the output to all files. -/
theorem sameEnd_of {α : Type} {S : String → Prop} {p q : Prog α} {out : String} {fs1 fs2 : FS}
    (h : SameRun out (p.exec fs1) (q.exec fs2))
    (hp : ∀ a fs', p.exec fs1 = .ok (a, fs') → ∀ g, ¬ S g → fs' g = fs1 g)
    (hq : ∀ a fs', q.exec fs2 = .ok (a, fs') → ∀ g, ¬ S g → fs' g = fs2 g)
    (hsame : ∀ g, ¬ S g → fs2 g = fs1 g)
    (h1 : ∀ a fs', p.exec fs1 = .ok (a, fs') → ∀ g, S g → g ≠ out → fs' g = none)
    (h2 : ∀ a fs', q.exec fs2 = .ok (a, fs') → ∀ g, S g → g ≠ out → fs' g = none) :
    SameEnd (p.exec fs1) (q.exec fs2) := by
  unfold SameRun at h
  unfold SameEnd
  generalize hx : p.exec fs1 = x at h
  generalize hy : q.exec fs2 = y at h
  cases h with
  | panic => exact .panic
  | hang => exact .hang
  | ok a b hab =>
    refine .ok a b ⟨hab.1, fun g => ?_⟩
    by_cases hg : S g
    · by_cases ho : g = out
      · rw [ho]; exact hab.2
      · show (a.2 g).map _ = (b.2 g).map _
        rw [h1 a.1 a.2 hx g hg ho, h2 b.1 b.2 hy g hg ho]
    · show (a.2 g).map _ = (b.2 g).map _
      rw [hp a.1 a.2 hx g hg, hq b.1 b.2 hy g hg, hsame g hg]

/-! ## What the commands touch, exactly -/

theorem touches_relPasses_lt {S : String → Prop} {out : String} {n : Nat} (h1 : S out)
    (h2 : ∀ p, p < n → S (RelIndex.makePassFilename out p n)) (ix : WayIndex.WayIdx) :
    ∀ left i, i + left ≤ n → Touches S (RelIndex.runPasses out ix n left i)
  | 0, _, _ => touches_pure _ _
  | left + 1, i, hi => by
    unfold RelIndex.runPasses
    refine touches_bind (touches_relRewrite ?_ _ _ _ _) fun _ => touches_bind (touches_emit (h2 _ (by omega))) fun _ =>
      touches_relPasses_lt h1 h2 ix left _ (by omega)
    split
    · exact h2 _ (by assumption)
    · exact h1

theorem touches_relindex_lt {S : String → Prop} {out : String} {n : Nat} (h1 : S out) (hn : 0 < n)
    (h2 : ∀ p, p < n → S (RelIndex.makePassFilename out p n)) (wayIndex : String) (bs : List (Option (List Int64))) :
    Touches S (RelIndex.relindex out wayIndex n bs) :=
  touches_bind (touches_bind (touches_emit (h2 _ hn)) fun _ => touches_relBlocks (h2 _ hn) _) fun _ =>
    touches_bind (touches_OsOpen _ _) fun _ => touches_bind (touches_MMapMap _ _) fun _ =>
    touches_bind (touches_lift _ _) fun _ => touches_relPasses_lt h1 h2 _ _ _ (by omega)

theorem touches_rewritePasses_lt {S : String → Prop} {out : String} {n : Nat} (h1 : S out)
    (h2 : ∀ p, 1 ≤ p → p < n → S (RelIndex.makePassFilename out p n)) (inflate : Inflate) (scheds : Nat → Block → Sched)
    (cuts : Nat → Option Nat) (ix : NodeIndex.NodeIdx) (inp : String) :
    ∀ left i, i + left ≤ n → Touches S (rewritePasses inflate scheds cuts ix inp out n left i)
  | 0, _, _ => touches_pure _ _
  | left + 1, i, hi => by
    unfold rewritePasses
    refine touches_bind ?_ fun _ => touches_bind (touches_lift _ _) fun _ => touches_bind (touches_process _ _ _ fun xs =>
      touches_output ?_ xs) fun _ => touches_rewritePasses_lt h1 h2 inflate scheds cuts ix inp left _ (by omega)
    · unfold Rewrite.removeOld
      split
      · exact touches_emit (h2 _ (by omega) (by omega))
      · exact touches_pure _ _
    · unfold Rewrite.passOutput
      split
      · exact h2 _ (by omega) (by assumption)
      · exact h1

theorem touches_removeLast {S : String → Prop} {out : String} {n : Nat}
    (h2 : ∀ p, 1 ≤ p → p < n → S (RelIndex.makePassFilename out p n)) : Touches S (Rewrite.removeLast out n) := by
  unfold Rewrite.removeLast
  split
  · exact touches_OsRemove (h2 _ (by omega) (by omega))
  · exact touches_pure _ _

/-- The number of passes which rewritenodes makes, if it gets that far. -/
def passesOf (index : String) (memory : Option UInt64) (fs : FS) : Res UInt64 :=
  match fs index with
  | none => .panic
  | some x => if x.data = [] then .panic else NodeIndex.NewNodeIndex x.data >>= fun ix => NodeIndex.passCount ix memory

theorem rewrite_ops (inflate : Inflate) (scheds : Nat → Block → Sched) (cuts : Nat → Option Nat)
    (memory : Option UInt64) (inp index out : String) (fs : FS) :
    (rewritenodes inflate scheds cuts memory inp index out fs).1 = [] ∨
    ∃ ix n, passesOf index memory fs = .ok n ∧ (rewritenodes inflate scheds cuts memory inp index out fs) =
      ((do
        rewritePasses inflate scheds cuts ix inp out n.toNat n.toNat 0
        Rewrite.removeLast out n.toNat : Prog Unit)) fs := by
  have bind_nil : ∀ {β γ : Type} (p : Prog β) (f : β → Prog γ) (a : β) (fs : FS), p fs = ([], .ok a) →
      (p >>= f) fs = f a fs := by
    intro β γ p f a fs h
    show Prog.bind p f fs = _
    unfold Prog.bind
    rw [h]
    rfl
  have bind_panic : ∀ {β γ : Type} (p : Prog β) (f : β → Prog γ) (fs : FS), p fs = ([], .panic) ∨ p fs = ([], .hang) →
      ((p >>= f) fs).1 = [] := by
    intro β γ p f fs h
    show (Prog.bind p f fs).1 = _
    unfold Prog.bind
    rcases h with h | h <;> rw [h]
  unfold rewritenodes passesOf
  cases hx : fs index with
  | none => exact .inl (bind_panic _ _ _ (.inl (by unfold OsOpen; rw [hx]; rfl)))
  | some x =>
    rw [bind_nil _ _ () fs (by unfold OsOpen; rw [hx]; rfl)]
    by_cases he : x.data = []
    · exact .inl (bind_panic _ _ _ (.inl (by unfold MMapMap; rw [hx]; dsimp only; rw [if_pos he])))
    rw [bind_nil _ _ x.data fs (by unfold MMapMap; rw [hx]; dsimp only; rw [if_neg he])]
    dsimp only
    rw [if_neg he]
    cases hl : NodeIndex.NewNodeIndex x.data with
    | panic => exact .inl (bind_panic _ _ _ (.inl rfl))
    | hang => exact .inl (bind_panic _ _ _ (.inr rfl))
    | ok ix =>
      rw [bind_nil _ _ ix fs rfl, Res.ok_bind]
      cases hn : NodeIndex.passCount ix memory with
      | panic => exact .inl (bind_panic _ _ _ (.inl rfl))
      | hang => exact .inl (bind_panic _ _ _ (.inr rfl))
      | ok n =>
        rw [bind_nil _ _ n fs rfl]
        exact .inr ⟨ix, n, rfl, rfl⟩

theorem rewrite_crash {inflate : Inflate} {scheds : Nat → Block → Sched} {cuts : Nat → Option Nat}
    {memory : Option UInt64} {inp index out : String} {fs fs' : FS}
    (hc : CrashState (rewritenodes inflate scheds cuts memory inp index out fs).1 fs fs') {g : String} (h1 : g ≠ out)
    (h2 : ∀ n, passesOf index memory fs = .ok n → ∀ p, 1 ≤ p → p < n.toNat → g ≠ RelIndex.makePassFilename out p n.toNat) :
    fs' g = fs g := by
  rcases rewrite_ops inflate scheds cuts memory inp index out fs with h | ⟨ix, n, hn, h⟩
  · rw [h] at hc
    obtain ⟨done, rest, e, hc⟩ := hc
    obtain ⟨rfl, rfl⟩ := List.append_eq_nil_iff.1 e.symm
    rcases hc with rfl | ⟨_, _, _, _, e, _⟩
    · rfl
    · cases e
  · rw [h] at hc
    exact (touches_bind (touches_rewritePasses_lt
      (S := fun f => f = out ∨ ∃ p, 1 ≤ p ∧ p < n.toNat ∧ f = RelIndex.makePassFilename out p n.toNat) (.inl rfl)
      (fun p a b => .inr ⟨p, a, b, rfl⟩) _ _ _ _ _ _ _ (by omega))
      fun _ => touches_removeLast fun p a b => .inr ⟨p, a, b, rfl⟩).crash fs fs' hc g
      (fun h => h.elim h1 fun ⟨p, a, b, h⟩ => h2 n hn p a b h)

theorem passesOf_congr {index : String} {memory : Option UInt64} {fs1 fs2 : FS} (h : fs2 index = fs1 index) :
    passesOf index memory fs2 = passesOf index memory fs1 := by
  unfold passesOf
  rw [h]

/-- The writers of the indexers begin with these operations. -/
theorem start_rest {α : Type} (out : String) (sched : Nat → Nat) (cancelled : Nat → Bool) (L : Prog α)
    (h : α → List UInt8) (fs : FS) : ∃ rest, (withHeader out (twoFile out sched cancelled L) h fs).1 =
      [.create out, .create (out ++ ".loc.tmp"), .write out zeros16] ++ rest := by
  have bind_rest : ∀ {β γ : Type} (p : Prog β) (f : β → Prog γ) (fs : FS), ∃ rest, ((p >>= f) fs).1 = (p fs).1 ++ rest := by
    intro β γ p f fs
    show ∃ rest, (Prog.bind p f fs).1 = _
    unfold Prog.bind
    rcases p fs with ⟨ops, r⟩
    cases r with
    | ok a => exact ⟨_, rfl⟩
    | panic => exact ⟨[], (List.append_nil _).symm⟩
    | hang => exact ⟨[], (List.append_nil _).symm⟩
  have cons : ∀ {γ : Type} (op : FsOp) (f : Unit → Prog γ) (fs : FS),
      ((Prog.emit op >>= f) fs).1 = op :: (f () (runOps [op] fs)).1 := fun _ _ _ => rfl
  unfold withHeader
  obtain ⟨r1, h1⟩ := bind_rest (twoFile out sched cancelled L) (fun a => Prog.emit (.write out (h a))) fs
  rw [h1]
  unfold twoFile OsCreate FWriteSliceI64
  rw [zeros16_eq, cons, cons, cons]
  exact ⟨_, rfl⟩

/-! ## Sources are definite -/

theorem definite_of_source {inflate : Inflate} {b : Block} {full : Option PrimitiveBlock} (h : SourceBlock inflate b full)
    (o : PBReader) : Definite inflate o b := by
  intro hk z size stream hr hz
  cases h with
  | other hne => exact absurd hk hne
  | data blob p full _ hb hp hf =>
    obtain ⟨blob', e1, e2⟩ := grows_blob (s := ⟨b.Data.bytes, []⟩) (t := b.Data) ⟨rfl, b.Data.spare, rfl⟩ _ hb
    rw [hr] at e1
    obtain rfl := Res.ok.inj e1
    have hp' := payload_trim e2 hp
    cases hp' with
    | zlib _ _ _ h1 h2 =>
      rw [hz] at h1
      obtain rfl := Option.some.inj h1
      obtain ⟨part, h3, -⟩ := readBlock_agrees o _ _ hf
      exact .inr (.inr ⟨h2.symm, part, h3⟩)

theorem source_blocks {inflate : Inflate} {bs : List Block} {fulls : List (Option PrimitiveBlock)}
    (h : Matches (SourceBlock inflate) bs fulls) : ∀ b ∈ bs, ∃ full, SourceBlock inflate b full := by
  induction h with
  | nil => intro b hb; cases hb
  | cons h _ ih =>
    intro b hb
    rcases List.mem_cons.1 hb with rfl | hb
    · exact ⟨_, h⟩
    · exact ih b hb

theorem allDefinite {inflate : Inflate} {file : List UInt8} {fulls : List (Option PrimitiveBlock)}
    (h : Source inflate file fulls) (o : PBReader) : AllBlocks (Definite inflate o) file := by
  intro bs hs b hb
  obtain ⟨bs', h1, h2⟩ := h
  rw [hs] at h1
  obtain rfl := Res.ok.inj h1
  obtain ⟨full, h3⟩ := source_blocks h2 b hb
  exact definite_of_source h3 o

end Osm.Restart
