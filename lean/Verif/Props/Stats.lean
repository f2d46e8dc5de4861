import Verif.Lemmas.Stats
import Verif.Props.Rewrite

/-!
# C85: the statistics rewritenodes prints

They depend on the input file, the node index and the memory target only: not on the number of workers, on which worker
gets which block, or on the schedule.
-/

namespace Osm.Props
open Osm Osm.T Osm.Pbf Osm.Spec Osm.Rewrite Osm.NodeIndex

/-- Increments of a counter that are still to be made. -/
def todoOf (c : Counter) (s : Counting) : Nat := s.todo.flatten.count c

/-- The value of a counter. -/
def valueOf (s : Counting) : Counter → UInt64
  | .hitHint => s.hitHint
  | .hitDefault => s.hitDefault
  | .missDeferred => s.missDeferred
  | .missDefault => s.missDefault

theorem steps_value {s t : Counting} (h : Counting.Steps s t) (c : Counter) :
    valueOf t c + UInt64.ofNat (todoOf c t) = valueOf s c + UInt64.ofNat (todoOf c s) := by
  induction h with
  | refl => rfl
  | @step s t pre post d cs hs _ ih =>
    rw [ih]
    have e1 : todoOf c s = todoOf c { s.add d with todo := pre ++ cs :: post } + (if d = c then 1 else 0) := by
      unfold todoOf
      rw [hs]
      simp only [List.flatten_append, List.flatten_cons, List.count_append, List.cons_append, List.count_cons, beq_iff_eq]
      omega
    rw [e1, UInt64.ofNat_add]
    cases d <;> cases c <;> simp [valueOf, Counting.add] <;> grind

/-- The number printed for a counter. -/
def _root_.Osm.Spec.Printed.of (p : Printed) : Counter → UInt64
  | .hitHint => p.hitHint
  | .hitDefault => p.hitDefault
  | .missDeferred => p.missDeferred
  | .missDefault => p.missDefault

/-- C85: however the blocks of each pass are dealt to the workers, and however their increments interleave, each number
printed is the number of increments made in all blocks of all passes (modulo 2^64). -/
theorem C85_any_schedule {counts : List (List (List Counter))} {p : Printed} (h : MayPrint counts p) (c : Counter) :
    p.of c = UInt64.ofNat (total c counts) := by
  induction h with
  | start => cases c <;> rfl
  | @pass earlier p blocks dealt t _ hd hs ht ih =>
    have h1 := steps_value hs c
    have h2 : todoOf c t = 0 := by
      unfold todoOf
      have : t.todo.flatten = [] := by
        rw [List.flatten_eq_nil_iff]
        exact ht
      rw [this]
      rfl
    have h3 : todoOf c (p.counting (dealt.map List.flatten)) = blocks.flatten.count c := by
      unfold todoOf Printed.counting
      dsimp only
      rw [← List.flatten_flatten]
      exact hd.flatten.count_eq c
    have h4 : valueOf (p.counting (dealt.map List.flatten)) c = p.of c := by cases c <;> rfl
    have h5 : t.printed.of c = valueOf t c := by cases c <;> rfl
    rw [h2, h3, h4, ih] at h1
    rw [h5]
    have : total c (earlier ++ [blocks]) = total c earlier + blocks.flatten.count c := by
      unfold total
      simp
    rw [this, UInt64.ofNat_add, ← h1]
    simp

/-- C85: a whole run, with any memory target and any schedule. `rewritenodesC` is `rewritenodes` returning the
increments (`C85_same_run`). Every pass counts what `countsOf` says of the refs as the passes before have left them. -/
theorem C85_run (inflate : Inflate) (scheds : Nat → Block → Sched)
    (hsched : ∀ i b, (scheds i b).pooled.length < 2 ^ 63) {ix : NodeIdx} (wf : WellFormed ix.elements ix.locations)
    (hneg : NegativeLocs ix.locations) (memory : Option UInt64) (n : UInt64) (hn : passCount ix memory = .ok n)
    (hn0 : n ≠ 0) {subs : List SubIdx}
    (hsubs : mapRes (fun p => ix.SubIndex (UInt64.ofNat p) n) (List.range n.toNat) = .ok subs)
    (inp index out : String)
    {cs : List Content} {file ixFile : List UInt8} (hl : file.length < 2 ^ 63) (hc : FileHas inflate waysDecoded file cs)
    (hsm : SmallFile cs) (fs : FS) (hin : Holds fs inp file) (hix : Holds fs index ixFile)
    (hload : NewNodeIndex ixFile = .ok ix) :
    ∃ fs', (rewritenodes inflate scheds memory inp index out).exec fs = .ok ((), fs') ∧
      (rewritenodesC inflate scheds memory inp index out).exec fs = .ok (passesCounts ix.locations subs cs, fs') := by
  obtain ⟨fs', file', r1, _⟩ := rewritenodes_ok inflate scheds hsched wf hneg memory n hn hn0 hsubs inp index out hl hc hsm fs
    hin hix hload
  obtain ⟨ys, r2⟩ := (rewritenodes_erases inflate scheds memory inp index out fs fs').1 r1
  refine ⟨fs', r1, ?_⟩
  rw [r2]
  unfold rewritenodesC at r2
  simp only [bind_ok, lift_ok, pure_ok] at r2
  obtain ⟨_, f1, e1, m, f2, e2, ix', f3, ⟨e3, hf3⟩, n', f4, ⟨e4, hf4⟩, c, f5, e5, _, f6, e6, rfl, rfl⟩ := r2
  subst hf3 hf4
  obtain ⟨pos, hix⟩ := hix
  have hixne : ixFile ≠ [] := by
    rintro rfl
    cases hload
  rw [exec_OsOpen_some hix] at e1
  cases e1
  rw [exec_MMapMap, hix] at e2
  dsimp only at e2
  rw [if_neg hixne] at e2
  cases e2
  rw [hload] at e3
  cases e3
  rw [hn] at e4
  cases e4
  obtain ⟨s1, s2⟩ := subs_of wf (n := n.toNat) (subs := subs) (by rw [UInt64.ofNat_toNat]; exact hsubs)
  rw [show runPassesC inflate scheds ix inp out n.toNat n.toNat 0 = runPassesC inflate scheds ix inp out n.toNat subs.length 0 by
    rw [s1]] at e5
  rw [runPassesC_counts inflate scheds hsched inp out (n := n.toNat) subs 0 _ _ file cs c
    (by intro p si hp; rw [Nat.zero_add]; exact s2 p si hp) (by omega)
    (by unfold passInput; rw [if_neg (by omega)]; exact hin) hl hc hsm e5]

/-- C85: counting does not change what the program does. -/
theorem C85_same_run (inflate : Inflate) (scheds : Nat → Block → Sched) (memory : Option UInt64)
    (inp index out : String) (fs fs' : FS) :
    (rewritenodes inflate scheds memory inp index out).exec fs = .ok ((), fs') ↔
      ∃ counts, (rewritenodesC inflate scheds memory inp index out).exec fs = .ok (counts, fs') :=
  rewritenodes_erases inflate scheds memory inp index out fs fs'

/-! ### What the numbers mean -/

theorem countsOf_length (es : List IndexElement) (top : Nat) : ∀ (rs : List Int64) (last : Nat),
    (countsOf es top last rs).length = (rs.filter fun r => decide (0 ≤ r.toInt)).length
  | [], _ => rfl
  | r :: rs, last => by
    unfold countsOf
    split
    · next h => rw [List.filter_cons_of_neg (by simp; omega)]; exact countsOf_length es top rs last
    · next h =>
      rw [List.filter_cons_of_pos (by simp; omega)]
      split
      · rw [List.length_cons, List.length_cons, countsOf_length es top rs last]
      · cases rangeOf es r.toInt.toNat with
        | none => dsimp only; rw [List.length_cons, List.length_cons, countsOf_length es top rs last]
        | some k => dsimp only; rw [List.length_cons, List.length_cons, countsOf_length es top rs k]

/-- C85: in a block, the deferred are the ids above the last range; the missing those up to it which no range has; the
hits of both kinds together those which some range has - located or not. -/
theorem C85_meaning (es : List IndexElement) (top : Nat) : ∀ (rs : List Int64) (last : Nat),
    (countsOf es top last rs).count .missDeferred =
      rs.countP (fun r => decide (0 ≤ r.toInt ∧ top < r.toInt.toNat)) ∧
    (countsOf es top last rs).count .missDefault =
      rs.countP (fun r => decide (0 ≤ r.toInt ∧ r.toInt.toNat ≤ top ∧ ∀ e ∈ es, ¬ (rFirst e ≤ r.toInt.toNat ∧
        r.toInt.toNat < rFirst e + rCount e))) ∧
    (countsOf es top last rs).count .hitHint + (countsOf es top last rs).count .hitDefault =
      rs.countP (fun r => decide (0 ≤ r.toInt ∧ r.toInt.toNat ≤ top ∧ ∃ e ∈ es, rFirst e ≤ r.toInt.toNat ∧
        r.toInt.toNat < rFirst e + rCount e))
  | [], _ => ⟨rfl, rfl, rfl⟩
  | r :: rs, last => by
    unfold countsOf
    split
    · next h =>
      obtain ⟨a, b, c⟩ := C85_meaning es top rs last
      rw [List.countP_cons_of_neg (fun h' => by have h' := of_decide_eq_true h'; omega),
        List.countP_cons_of_neg (fun h' => by have h' := of_decide_eq_true h'; have h1 := h'.1; have h2 := h'.2.1; omega),
        List.countP_cons_of_neg (fun h' => by have h' := of_decide_eq_true h'; have h1 := h'.1; have h2 := h'.2.1; omega)]
      exact ⟨a, b, c⟩
    · next h =>
      split
      · next ht =>
        obtain ⟨a, b, c⟩ := C85_meaning es top rs last
        rw [List.countP_cons_of_pos (by exact decide_eq_true ⟨by omega, ht⟩),
          List.countP_cons_of_neg (fun h' => by have h' := of_decide_eq_true h'; have h1 := h'.1; have h2 := h'.2.1; omega),
          List.countP_cons_of_neg (fun h' => by have h' := of_decide_eq_true h'; have h1 := h'.1; have h2 := h'.2.1; omega)]
        simp only [List.count_cons, beq_iff_eq, reduceCtorEq, if_false, if_true, Nat.add_zero]
        exact ⟨by omega, b, c⟩
      · next ht =>
        cases hk : rangeOf es r.toInt.toNat with
        | none =>
          obtain ⟨a, b, c⟩ := C85_meaning es top rs last
          unfold rangeOf at hk
          rw [List.findIdx?_eq_none_iff] at hk
          have hno : ∀ e ∈ es, ¬ (rFirst e ≤ r.toInt.toNat ∧ r.toInt.toNat < rFirst e + rCount e) :=
            fun e he => of_decide_eq_false (hk e he)
          rw [List.countP_cons_of_neg (fun h' => by have h' := of_decide_eq_true h'; omega),
            List.countP_cons_of_pos (by exact decide_eq_true ⟨by omega, by omega, hno⟩),
            List.countP_cons_of_neg (by
              rw [decide_eq_true_eq]
              rintro ⟨_, _, e, he, h'⟩
              exact hno e he h')]
          dsimp only
          simp only [List.count_cons, beq_iff_eq, reduceCtorEq, if_false, if_true, Nat.add_zero]
          exact ⟨a, by omega, c⟩
        | some k =>
          obtain ⟨a, b, c⟩ := C85_meaning es top rs k
          unfold rangeOf at hk
          obtain ⟨hk1, hk2, _⟩ := List.findIdx?_eq_some_iff_getElem.1 hk
          have hk2 := of_decide_eq_true hk2
          rw [List.countP_cons_of_neg (fun h' => by have h' := of_decide_eq_true h'; omega),
            List.countP_cons_of_neg (by
              rw [decide_eq_true_eq]
              rintro ⟨_, _, h'⟩
              exact h' _ (List.getElem_mem hk1) hk2),
            List.countP_cons_of_pos (by exact decide_eq_true ⟨by omega, by omega, _, List.getElem_mem hk1, hk2⟩)]
          dsimp only
          by_cases e : k = last
          · rw [if_pos e]
            simp only [List.count_cons, beq_iff_eq, reduceCtorEq, if_false, if_true, Nat.add_zero]
            exact ⟨a, b, by omega⟩
          · rw [if_neg e]
            simp only [List.count_cons, beq_iff_eq, reduceCtorEq, if_false, if_true, Nat.add_zero]
            exact ⟨a, b, by omega⟩

theorem length_counters (l : List Counter) :
    l.length = l.count .hitHint + l.count .hitDefault + l.count .missDefault + l.count .missDeferred := by
  induction l with
  | nil => rfl
  | cons c l ih => cases c <;> simp [List.count_cons, ih] <;> omega

theorem counts_length (es : List IndexElement) (top : Nat) (cs : List Content) :
    (cs.map (·.counts es top)).flatten.length = lookups cs := by
  unfold lookups
  induction cs with
  | nil => rfl
  | cons c cs ih =>
    rw [List.map_cons, List.flatten_cons, List.length_append, ih, List.map_cons, List.sum_cons]
    congr 1
    cases c with
    | other => rfl
    | data b => exact countsOf_length _ _ _ _

/-- C85: the four numbers together are the lookups of all passes. -/
theorem C85_sum (locs : List Int64) (subs : List SubIdx) : ∀ cs : List Content,
    total .hitHint (passesCounts locs subs cs) + total .hitDefault (passesCounts locs subs cs) +
      total .missDefault (passesCounts locs subs cs) + total .missDeferred (passesCounts locs subs cs) =
      passesLookups locs subs cs := by
  intro cs
  unfold total
  rw [← length_counters]
  induction subs generalizing cs with
  | nil => rfl
  | cons si subs ih =>
    unfold passesCounts passesLookups
    rw [List.flatten_cons, List.flatten_append, List.length_append, ih, counts_length]

/-- C85, C30: the printed numbers are the same in any two runs. -/
theorem C85_deterministic {counts : List (List (List Counter))} {p q : Printed} (hp : MayPrint counts p)
    (hq : MayPrint counts q) : p = q := by
  have h := fun c => (C85_any_schedule hp c).trans (C85_any_schedule hq c).symm
  obtain ⟨a, b, c, d⟩ := p
  obtain ⟨a', b', c', d'⟩ := q
  have h1 := h .hitHint
  have h2 := h .hitDefault
  have h3 := h .missDefault
  have h4 := h .missDeferred
  simp only [Printed.of] at h1 h2 h3 h4
  subst h1 h2 h3 h4
  rfl

/-- C85: and there is always something to print: one worker that takes every block in turn is one way to deal them. -/
theorem C85_prints (counts : List (List (List Counter))) : ∃ p, MayPrint counts p := by
  suffices h : ∀ rest : List (List (List Counter)), ∃ p, MayPrint rest.reverse p by
    obtain ⟨p, hp⟩ := h counts.reverse
    rw [List.reverse_reverse] at hp
    exact ⟨p, hp⟩
  intro rest
  induction rest with
  | nil => exact ⟨_, .start⟩
  | cons blocks rest ih =>
    obtain ⟨p, hp⟩ := ih
    have run : ∀ (cs : List Counter) (s : Counting), s.todo = [cs] → ∃ t, Counting.Steps s t ∧ t.todo = [[]] := by
      intro cs
      induction cs with
      | nil => intro s hs; exact ⟨s, .refl s, hs⟩
      | cons c cs ih =>
        intro s hs
        obtain ⟨t, h1, h2⟩ := ih { s.add c with todo := [cs] } rfl
        exact ⟨t, .step (pre := []) (post := []) hs h1, h2⟩
    obtain ⟨t, h1, h2⟩ := run blocks.flatten (p.counting [blocks.flatten]) rfl
    rw [List.reverse_cons]
    exact ⟨t.printed, .pass (dealt := [blocks]) hp (by simp) h1 (by simp [h2])⟩

/-- The refs 5, 8, 6, 7, 10, 5, 99 with the ranges 5-7 and 10-11 of `exampleSub`: 6 is a hit although its slot is empty. -/
example : countsOf exampleSub.element exampleSub.Top.toNat 0 [5, 8, 6, 7, -3, 10, 5, 99] =
    [.hitHint, .missDefault, .hitHint, .hitHint, .hitDefault, .hitDefault, .missDeferred] ∧
    locate exampleSub.element exampleSub.locations 6 = 6 := by
  decide +kernel

/-- Two blocks, two workers, the second block's worker first. -/
example : MayPrint [[[.hitHint, .missDefault], [.hitDefault]]] ⟨1, 1, 1, 0⟩ :=
  .pass (earlier := []) (blocks := [[.hitHint, .missDefault], [.hitDefault]]) (dealt := [[[.hitHint, .missDefault]], [[.hitDefault]]])
    (t := ⟨1, 1, 0, 1, [[], []]⟩) .start (by simp)
    (.step (pre := [_]) (post := []) rfl (.step (pre := []) rfl (.step (pre := []) rfl (.refl _)))) (by decide)

/-- A whole run in two passes, on the file and the index of `C47_false`: id 1 is found in the first pass (range 1-131072, the
first), and 200000 is deferred in both. -/
example (inflate : Inflate) (scheds : Nat → Block → Sched) (hsched : ∀ i b, (scheds i b).pooled.length < 2 ^ 63) :
    ∃ file ixFile, ∀ (inp index out : String) (fs : FS), Holds fs inp file → Holds fs index ixFile →
      ∃ fs' counts, (rewritenodes inflate scheds (some 1) inp index out).exec fs = .ok ((), fs') ∧
        (rewritenodesC inflate scheds (some 1) inp index out).exec fs = .ok (counts, fs') ∧
        ∀ p, MayPrint counts p → p = ⟨1, 0, 0, 2⟩ := by
  obtain ⟨file, hl, hc⟩ := refsFile inflate
  obtain ⟨wf, hcomp, hneg⟩ := lopsided_wf
  obtain ⟨ixFile, hload⟩ : ∃ f, NewNodeIndex f = .ok lopsided :=
    ⟨_, NodeIndexer.load_file lopsided.elements lopsided.locations (by decide)⟩
  refine ⟨file, ixFile, fun inp index out fs hin hix => ?_⟩
  have hsm : SmallFile [.other osmHeader [1, 2, 3], .data (refsBlock [1, 200000, -4])] := by
    refine ⟨fun b hb => ?_, by simp⟩
    simp only [List.mem_cons, reduceCtorEq, Content.data.injEq, List.not_mem_nil, or_false, false_or] at hb
    subst hb
    exact ⟨by decide +kernel, by decide +kernel⟩
  have hL : lopsided.locations.length = 131073 := List.length_replicate
  obtain ⟨p1, a, b, p2, p3⟩ := lopsided_two
  have h0 : lopsided.SubIndex (UInt64.ofNat 0) 2 = .ok ⟨[⟨1, 131072⟩], lopsided.locations, 131072⟩ := by
    unfold NodeIdx.SubIndex
    rw [if_neg (by decide), hL]
    rfl
  have h1 : lopsided.SubIndex (UInt64.ofNat 1) 2 = .ok ⟨[], lopsided.locations, 131072⟩ := by
    unfold NodeIdx.SubIndex
    rw [if_neg (by decide), hL]
    rfl
  have p4 : mapRes (fun p => lopsided.SubIndex (UInt64.ofNat p) 2) (List.range (2 : UInt64).toNat) =
      .ok [⟨[⟨1, 131072⟩], lopsided.locations, 131072⟩, ⟨[], lopsided.locations, 131072⟩] := by
    show mapRes _ [0, 1] = _
    unfold mapRes
    rw [h0, Res.ok_bind]
    unfold mapRes
    rw [h1, Res.ok_bind]
    rfl
  obtain ⟨fs', r1, r2⟩ := C85_run inflate scheds hsched wf hneg (some 1) 2 p1 (by decide) p4 inp index out hl hc hsm fs hin hix hload
  refine ⟨fs', _, r1, r2, fun p hp => ?_⟩
  have hl1 : locate [⟨1, 131072⟩] lopsided.locations 1 = -5 := by
    unfold locate
    rw [if_pos (by decide), show (1 : Int64).toInt.toNat = 1 by decide, (knownLoc_lopsided 1).2.1 (by omega) (by omega)]
    rfl
  have hl2 : locate [⟨1, 131072⟩] lopsided.locations 200000 = 200000 := by
    unfold locate
    rw [if_pos (by decide), show (200000 : Int64).toInt.toNat = 200000 by decide, (knownLoc_lopsided 200000).1 (by omega)]
    rfl
  have hl3 : locate [⟨1, 131072⟩] lopsided.locations (-4) = -4 := locate_neg (by decide)
  have key : passesCounts lopsided.locations [⟨[⟨1, 131072⟩], lopsided.locations, 131072⟩, ⟨[], lopsided.locations, 131072⟩]
      [.other osmHeader [1, 2, 3], .data (refsBlock [1, 200000, -4])] =
      [[[], [.hitHint, .missDeferred]], [[], [.missDeferred]]] := by
    have e1 : ∀ f : Int64 → Int64, [Content.other osmHeader [1, 2, 3], .data (refsBlock [1, 200000, -4])].map (·.mapRefs f) =
        [.other osmHeader [1, 2, 3], .data (refsBlock [f 1, f 200000, f (-4)])] := fun _ => rfl
    unfold passesCounts passesCounts passesCounts
    rw [e1, hl1, hl2, hl3]
    dsimp only
    decide +kernel
  rw [key] at hp
  have h := C85_any_schedule hp
  obtain ⟨w, x, y, z⟩ := p
  have a1 := h .hitHint
  have a2 := h .hitDefault
  have a3 := h .missDefault
  have a4 := h .missDeferred
  simp only [Printed.of] at a1 a2 a3 a4
  rw [a1, a2, a3, a4]
  decide

end Osm.Props
