import Verif.Lemmas.Extract
import Verif.Lemmas.Count
import Verif.Spec.Find

/-! # The search -/

namespace Osm.Find
open Osm Osm.T Osm.Pbf Osm.Spec

theorem isIn_eq : ∀ (ids : List UInt64) (id : UInt64), isIn ids id = ids.contains id
  | [], _ => rfl
  | x :: ids, id => by
    unfold isIn
    rw [isIn_eq ids id, List.contains_cons]
    by_cases h : x = id
    · subst h; simp
    · rw [if_neg h]
      have : (id == x) = false := by rw [beq_eq_false_iff_ne]; exact fun e => h e.symm
      rw [this]; rfl

theorem printNodes_eq (ids : List UInt64) : ∀ ns, printNodes ids ns = requested ids (ns.map .node)
  | [] => rfl
  | n :: ns => by
    unfold printNodes requested
    rw [isIn_eq, printNodes_eq ids ns, List.map_cons, List.filter_cons]
    rfl

theorem printWays_eq (ids : List UInt64) : ∀ ws, printWays ids ws = requested ids (ws.map .way)
  | [] => rfl
  | n :: ns => by
    unfold printWays requested
    rw [isIn_eq, printWays_eq ids ns, List.map_cons, List.filter_cons]
    rfl

theorem printRelations_eq (ids : List UInt64) : ∀ rs, printRelations ids rs = requested ids (rs.map .relation)
  | [] => rfl
  | n :: ns => by
    unfold printRelations requested
    rw [isIn_eq, printRelations_eq ids ns, List.map_cons, List.filter_cons]
    rfl

theorem find_content (inflate : Inflate) (sched : Pbf.Block → Sched) (hsched : ∀ b, (sched b).pooled.length < 2 ^ 63)
    (ids : List UInt64) {b : Pbf.Block} (hf : b.Data.Fits) {c : Content}
    (hc : HasContent inflate Find.reader b.Kind b.Data.bytes c) (hs : ∀ pb, c = .data pb → Sound pb) :
    ∃ es, ContentEntities c es ∧ findBlock inflate sched ids b = .ok (requested ids es) := by
  unfold findBlock
  cases c with
  | other k bs => rw [if_pos hc.2.2]; exact ⟨[], rfl, rfl⟩
  | data c =>
    obtain ⟨h1, h2⟩ := hc
    rw [if_neg (by rw [h1]; simp)]
    obtain ⟨raw, pb, r1, r2, r3⟩ := h2 b.Index b.Data.spare (sched b) hf (hsched b)
    obtain ⟨i, ⟨bs, sp⟩, kd⟩ := b
    dsimp only at h1 r1
    subst h1
    rw [r1, Res.ok_bind, r2, Res.ok_bind]
    have hb : BlockShape readAll pb := readBlock_shape _ _ _ r2
    rw [trim_readAll hb] at r3
    subst r3
    have hso := hs pb rfl
    obtain ⟨ns, n1, n2⟩ := toNodes_are hso
    obtain ⟨ws, w1, w2⟩ := toWays_are hso
    obtain ⟨rs, s1, s2⟩ := toRelations_are hso
    rw [n1, Res.ok_bind, w1, Res.ok_bind, s1, Res.ok_bind]
    refine ⟨_, ⟨ns, ws, rs, n2, w2, s2, rfl⟩, ?_⟩
    rw [printNodes_eq, printWays_eq, printRelations_eq]
    unfold requested
    rw [List.filter_append, List.filter_append]

theorem find_contents (inflate : Inflate) (sched : Pbf.Block → Sched) (hsched : ∀ b, (sched b).pooled.length < 2 ^ 63)
    (ids : List UInt64) : ∀ {bs : List Pbf.Block} {cs : List Content}, (∀ b ∈ bs, b.Data.Fits) →
      Matches (fun b c => HasContent inflate Find.reader b.Kind b.Data.bytes c) bs cs → SoundFile cs →
      ∃ ess, Each ContentEntities cs ess ∧ mapRes (findBlock inflate sched ids) bs = .ok (ess.map (requested ids)) := by
  intro bs cs hf h
  induction h with
  | nil => exact fun _ => ⟨[], trivial, rfl⟩
  | @cons b c bs cs h1 _ ih =>
    intro hs
    obtain ⟨es, e1, e2⟩ := find_content inflate sched hsched ids (hf b (by simp)) h1
      (fun pb hpb => hs pb (by rw [← hpb]; simp))
    obtain ⟨ess, e3, e4⟩ := ih (fun b hb => hf b (by simp [hb])) (fun pb hpb => hs pb (by simp [hpb]))
    refine ⟨es :: ess, ⟨e1, e3⟩, ?_⟩
    unfold mapRes
    rw [e2, Res.ok_bind, e4]
    rfl

theorem interleaved_perm {α : Type} {ls : List (List α)} {out : List α} (h : Interleaved ls out) : out.Perm ls.flatten := by
  induction h with
  | nil h =>
    rw [List.flatten_eq_nil_iff.2 h]
  | @cons l1 x xs l2 out _ ih =>
    have e1 : (l1 ++ (x :: xs) :: l2).flatten = l1.flatten ++ x :: (xs ++ l2.flatten) := by simp
    have e2 : (l1 ++ xs :: l2).flatten = l1.flatten ++ (xs ++ l2.flatten) := by simp
    rw [e1]
    rw [e2] at ih
    exact (ih.cons x).trans List.perm_middle.symm

theorem interleaved_sublist {α : Type} {ls : List (List α)} {out : List α} (h : Interleaved ls out) :
    ∀ l ∈ ls, List.Sublist l out := by
  induction h with
  | nil h => intro l hl; rw [h l hl]; exact List.Sublist.refl _
  | @cons l1 x xs l2 out _ ih =>
    intro l hl
    simp only [List.mem_append, List.mem_cons] at hl ih
    rcases hl with hl | rfl | hl
    · exact (ih l (Or.inl hl)).cons x
    · exact (ih xs (Or.inr (Or.inl rfl))).cons_cons x
    · exact (ih l (Or.inr (Or.inr hl))).cons x

theorem interleaved_exists {α : Type} : ∀ (n : Nat) (ls : List (List α)), ls.flatten.length = n → ∃ out, Interleaved ls out
  | 0, ls, h => ⟨[], .nil (by
      have := List.eq_nil_of_length_eq_zero h
      exact List.flatten_eq_nil_iff.1 this)⟩
  | n + 1, ls, h => by
    have : ∃ l ∈ ls, l ≠ [] := by
      apply Classical.byContradiction
      intro hn
      have : ls.flatten = [] := List.flatten_eq_nil_iff.2 fun l hl => Classical.byContradiction fun h => hn ⟨l, hl, h⟩
      rw [this] at h
      cases h
    obtain ⟨l, hl, hne⟩ := this
    obtain ⟨l1, l2, rfl⟩ := List.append_of_mem hl
    cases l with
    | nil => exact absurd rfl hne
    | cons x xs =>
      obtain ⟨out, ho⟩ := interleaved_exists n (l1 ++ xs :: l2) (by
        simp only [List.flatten_append, List.length_append, List.flatten_cons, List.length_cons] at h ⊢
        omega)
      exact ⟨x :: out, .cons ho⟩

/-- The lists of the blocks a worker has received, and what all workers print. -/
theorem workers_print (f : Pbf.Block → Res (List Entity)) : ∀ (tooks : List (List Pbf.Block)) (os : List (List Entity)),
    mapRes f tooks.flatten = .ok os →
    ∃ oss : List (List (List Entity)), oss.flatten = os ∧
      mapRes (fun bs => do let os ← mapRes f bs; Res.ok os.flatten) tooks = .ok (oss.map List.flatten)
  | [], os, h => by
    cases h
    exact ⟨[], rfl, rfl⟩
  | t :: ts, os, h => by
    rw [List.flatten_cons] at h
    obtain ⟨o1, o2, h1, h2, h3⟩ := Pbf.mapRes_append_ok h
    obtain ⟨oss, e1, e2⟩ := workers_print f ts o2 h2
    refine ⟨o1 :: oss, ?_, ?_⟩
    · rw [List.flatten_cons, e1, h3]
    · unfold mapRes
      rw [h1]
      simp only [Res.ok_bind]
      rw [e2]
      rfl

end Osm.Find
