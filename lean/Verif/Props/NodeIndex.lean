import Verif.Lemmas.SubIndex

/-!
# C27–C32: the node index
-/

namespace Osm.Props
open Osm Osm.NodeIndex Osm.Spec

/-! ## C27 -/

/-- C27, except for a count of exactly 2^24: packing panics, or the packed word unpacks to that count and
that offset. What is missing: `C27_false_at_2_24`. -/
theorem C27_pack_partial (count offset : UInt64) (h24 : count.toNat ≠ 2 ^ 24) :
    NewCountOffset count offset = .panic ∨
    ∃ co, NewCountOffset count offset = .ok co ∧ coCount co = count ∧ coOffset co = offset := by
  unfold NewCountOffset
  have hO : OffsetMax.toNat = 2 ^ 40 := by decide
  have hC : CountMax.toNat = 2 ^ 24 := by decide
  by_cases h1 : offset ≥ OffsetMax
  · exact Or.inl (if_pos h1)
  rw [if_neg h1]
  by_cases h2 : count > CountMax
  · exact Or.inl (if_pos h2)
  rw [if_neg h2]
  refine Or.inr ⟨_, rfl, ?_⟩
  simp only [ge_iff_le, gt_iff_lt, UInt64.le_iff_toNat_le, UInt64.lt_iff_toNat_lt, hO, hC] at h1 h2
  have hval : ((offset <<< CountBits) ||| count).toNat = offset.toNat * 2 ^ 24 + count.toNat := by
    rw [UInt64.toNat_or, UInt64.toNat_shiftLeft]
    rw [show CountBits.toNat % 64 = 24 from by decide, Nat.shiftLeft_eq]
    rw [Nat.mod_eq_of_lt (by omega), ← Nat.shiftLeft_eq, ← Nat.shiftLeft_add_eq_or_of_lt (by omega)]
  constructor
  · apply UInt64.toNat_inj.1
    unfold coCount
    rw [UInt64.toNat_and, show CountMask.toNat = 2 ^ 24 - 1 from by decide,
      Nat.and_two_pow_sub_one_eq_mod, hval]
    omega
  · apply UInt64.toNat_inj.1
    unfold coOffset
    rw [UInt64.toNat_shiftRight, Nat.shiftRight_eq_div_pow, hval,
      show CountBits.toNat % 64 = 24 from by decide]
    omega

/-- C27: what is accepted: exactly the offsets below 2^40 with counts up to and including 2^24. -/
theorem C27_accepted (count offset : UInt64) :
    (∃ co, NewCountOffset count offset = .ok co) ↔ offset.toNat < 2 ^ 40 ∧ count.toNat ≤ 2 ^ 24 := by
  have hO : OffsetMax.toNat = 2 ^ 40 := by decide
  have hC : CountMax.toNat = 2 ^ 24 := by decide
  unfold NewCountOffset
  by_cases h1 : offset ≥ OffsetMax
  · rw [if_pos h1]
    simp only [ge_iff_le, UInt64.le_iff_toNat_le, hO] at h1
    simp; omega
  rw [if_neg h1]
  by_cases h2 : count > CountMax
  · rw [if_pos h2]
    simp only [gt_iff_lt, UInt64.lt_iff_toNat_lt, hC] at h2
    simp; omega
  rw [if_neg h2]
  simp only [ge_iff_le, gt_iff_lt, UInt64.le_iff_toNat_le, UInt64.lt_iff_toNat_lt, hO, hC] at h1 h2
  simp; omega

/-- C27 is false of the code at a count of 2^24: it is accepted, and unpacks to count 0 with a corrupted
offset. -/
theorem C27_false_at_2_24 : ∃ co, NewCountOffset (2 ^ 24) 4 = .ok co ∧ coCount co = 0 ∧ coOffset co = 5 :=
  ⟨_, rfl, by decide, by decide⟩

/-- C27: and so for every even offset. -/
theorem C27_false_for_all_even_offsets (o : UInt64) (h : o.toNat < 2 ^ 40) (he : o.toNat % 2 = 0) :
    ∃ co, NewCountOffset (2 ^ 24) o = .ok co ∧ coCount co = 0 ∧ (coOffset co).toNat = o.toNat + 1 := by
  have h24 : ((2 : UInt64) ^ 24).toNat = 2 ^ 24 := by decide
  unfold NewCountOffset
  have hO : OffsetMax.toNat = 2 ^ 40 := by decide
  have hC : CountMax.toNat = 2 ^ 24 := by decide
  rw [if_neg (by simp only [ge_iff_le, UInt64.le_iff_toNat_le, hO]; omega),
    if_neg (by simp only [gt_iff_lt, UInt64.lt_iff_toNat_lt, hC, h24]; omega)]
  have hval : ((o <<< CountBits) ||| 2 ^ 24).toNat = o.toNat * 2 ^ 24 + 2 ^ 24 := by
    rw [UInt64.toNat_or, UInt64.toNat_shiftLeft, h24]
    rw [show CountBits.toNat % 64 = 24 from by decide, Nat.shiftLeft_eq]
    rw [Nat.mod_eq_of_lt (by omega)]
    have : o.toNat * 2 ^ 24 = (o.toNat / 2) <<< 25 := by rw [Nat.shiftLeft_eq]; omega
    rw [this, ← Nat.shiftLeft_add_eq_or_of_lt (by omega)]
  refine ⟨_, rfl, ?_, ?_⟩
  · apply UInt64.toNat_inj.1
    unfold coCount
    rw [UInt64.toNat_and, show CountMask.toNat = 2 ^ 24 - 1 from by decide,
      Nat.and_two_pow_sub_one_eq_mod, hval, show (0 : UInt64).toNat = 0 from rfl]
    omega
  · unfold coOffset
    rw [UInt64.toNat_shiftRight, Nat.shiftRight_eq_div_pow, hval,
      show CountBits.toNat % 64 = 24 from by decide]
    omega

example : NewCountOffset 3 1099511627775 = .ok 0xffffffffff000003 ∧ coCount 0xffffffffff000003 = 3 := by
  decide

/-! ## C28 -/

/-- C28: on a well-formed sub-index every lookup with a non-negative hint returns; it is found exactly if
some range contains the id and the id's slot is non-zero, and then the location returned is that slot. -/
theorem C28_lookup_exact {si : SubIdx} (hw : WellFormedSub si) (id : UInt64) (hint : Int) (hh : 0 ≤ hint) :
    ∃ r, si.findNode id hint = .ok r ∧
      (∀ l, (r.ok = true ∧ r.loc = l) ↔ HasLoc si.element si.locations id.toNat l) ∧
      (r.ok = false → r.loc = 0) := by
  obtain ⟨r, h, h1, h2, -⟩ := findNode_ok hw id hint hh
  refine ⟨r, h, fun l => ⟨?_, fun hl => ?_⟩, fun hf => (h2 hf).1⟩
  · rintro ⟨a, rfl⟩
    exact h1 a
  · cases hr : r.ok
    · exact absurd hl ((h2 hr).2 l)
    · exact ⟨rfl, hasLoc_unique hw.1 (h1 hr) hl⟩

/-- C28: the answer does not depend on the hint. -/
theorem C28_hint_independent {si : SubIdx} (hw : WellFormedSub si) (id : UInt64) (h1 h2 : Int)
    (p1 : 0 ≤ h1) (p2 : 0 ≤ h2) (r1 r2 : Found) (e1 : si.findNode id h1 = .ok r1)
    (e2 : si.findNode id h2 = .ok r2) : r1.ok = r2.ok ∧ r1.loc = r2.loc := by
  obtain ⟨a, ha, ha1, ha2⟩ := C28_lookup_exact hw id h1 p1
  obtain ⟨b, hb, hb1, hb2⟩ := C28_lookup_exact hw id h2 p2
  rw [ha] at e1; rw [hb] at e2
  cases e1; cases e2
  cases hr : r1.ok
  · cases hr' : r2.ok
    · exact ⟨rfl, by rw [ha2 hr, hb2 hr']⟩
    · have := (ha1 r2.loc).2 ((hb1 r2.loc).1 ⟨hr', rfl⟩)
      rw [hr] at this
      simp at this
  · have := (hb1 r1.loc).2 ((ha1 r1.loc).1 ⟨hr, rfl⟩)
    exact ⟨this.1.symm, this.2.symm⟩

/-- C28: sub-indexes made from a well-formed index are well-formed, so the above applies to every pass. -/
theorem C28_passes_well_formed (ix : NodeIdx) (wf : WellFormed ix.elements ix.locations) (p n : UInt64)
    (si : SubIdx) (h : ix.SubIndex p n = .ok si) : WellFormedSub si :=
  (subIndex_wf ix wf p n si h).1

/-- A sub-index with ranges 5-7 and 10-11, where id 6 is an empty slot. -/
def exampleSub : SubIdx :=
  ⟨[⟨5, 3⟩, ⟨10, 0x3000002⟩], [-50, 0, -70, -100, -110], 11⟩

theorem exampleSub_wf : WellFormedSub exampleSub :=
  ⟨⟨by decide, by decide, by decide, by decide⟩, by unfold TopCovers; decide⟩

example : (∃ r, exampleSub.findNode 7 1 = .ok r ∧ r.ok = true ∧ r.loc = -70) ∧
    (∃ r, exampleSub.findNode 6 0 = .ok r ∧ r.ok = false) ∧
    HasLoc exampleSub.element exampleSub.locations 7 (-70) :=
  ⟨⟨_, rfl, rfl, rfl⟩, ⟨_, rfl, rfl⟩, ⟨⟨5, 3⟩, by decide, by unfold rHas; decide, by decide, by decide⟩⟩

/-! ## C29 -/

/-- C29, for any non-negative initial hint. -/
theorem C29_chaining_from {si : SubIdx} (hw : WellFormedSub si) (ids : List UInt64) :
    ∀ h : Int, 0 ≤ h → chain si h ids = fresh si ids := by
  induction ids with
  | nil => intro h _; rfl
  | cons id ids ih =>
    intro h hh
    obtain ⟨r, hr, _, _, hh', _⟩ := findNode_ok hw id h hh
    obtain ⟨r0, hr0, _⟩ := findNode_ok hw id 0 (by omega)
    obtain ⟨e1, e2⟩ := C28_hint_independent hw id h 0 hh (by omega) r r0 hr hr0
    have hn : 0 ≤ r.hint := by rcases hh' with h1 | h1 <;> omega
    unfold chain fresh mapRes
    rw [hr, hr0]
    simp only [Res.ok_bind]
    rw [ih r.hint hn, e1, e2]
    rfl

/-- C29: chaining hints from 0 gives every lookup the answer of a fresh lookup. -/
theorem C29_chaining {si : SubIdx} (hw : WellFormedSub si) (ids : List UInt64) :
    chain si 0 ids = fresh si ids := C29_chaining_from hw ids 0 (by omega)

/-- C29: and none of these lookups panics. -/
theorem C29_never_panics {si : SubIdx} (hw : WellFormedSub si) (ids : List UInt64) :
    ∃ answers, chain si 0 ids = .ok answers ∧ answers.length = ids.length := by
  rw [C29_chaining hw]
  induction ids with
  | nil => exact ⟨[], rfl, rfl⟩
  | cons id ids ih =>
    obtain ⟨as, ha, hl⟩ := ih
    obtain ⟨r, hr, _⟩ := findNode_ok hw id 0 (by omega)
    refine ⟨(r.loc, r.ok) :: as, ?_, by simp [hl]⟩
    unfold fresh at ha ⊢
    unfold mapRes
    rw [hr]
    simp only [Res.ok_bind]
    rw [ha]
    rfl

example : chain exampleSub 0 [11, 5, 8, 10] = .ok [(-110, true), (-50, true), (0, false), (-100, true)] := by
  decide

/-! ## C30 -/

theorem findBetween_counted (si : SubIdx) (id : UInt64) (hint : Int) (lo hi : Nat) (r : Found)
    (h : si.findBetween id hint lo hi = .ok r) : r.counted.length = 1 := by
  unfold SubIdx.findBetween at h
  obtain ⟨p, _, h⟩ := Res.bind_eq_ok.1 h
  split at h
  · cases h; rfl
  · split at h
    · cases h; rfl
    · obtain ⟨o, _, h⟩ := Res.bind_eq_ok.1 h
      obtain ⟨l, _, h⟩ := Res.bind_eq_ok.1 h
      cases h; rfl

/-- C30: every lookup that returns, on any sub-index whatever, performs exactly one counter increment. -/
theorem C30_one_increment (si : SubIdx) (id : UInt64) (hint : Int) (r : Found)
    (h : si.findNode id hint = .ok r) : r.counted.length = 1 := by
  unfold SubIdx.findNode at h
  split at h
  · cases h; rfl
  · split at h
    · split at h
      · cases h
      · obtain ⟨e, _, h⟩ := Res.bind_eq_ok.1 h
        split at h
        · exact findBetween_counted _ _ _ _ _ _ h
        · split at h
          · obtain ⟨o, _, h⟩ := Res.bind_eq_ok.1 h
            obtain ⟨l, _, h⟩ := Res.bind_eq_ok.1 h
            cases h; rfl
          · exact findBetween_counted _ _ _ _ _ _ h
    · exact findBetween_counted _ _ _ _ _ _ h

/-- The sum of the four counters (uint64). -/
def counterSum (s : Counting) : UInt64 := s.hitHint + s.hitDefault + s.missDeferred + s.missDefault

/-- Increments not yet performed. -/
def pending (s : Counting) : Nat := (s.todo.map List.length).sum

theorem counting_invariant {s t : Counting} (h : Counting.Steps s t) :
    counterSum t + UInt64.ofNat (pending t) = counterSum s + UInt64.ofNat (pending s) := by
  induction h with
  | refl => rfl
  | @step s t pre post c cs hs _ ih =>
    rw [ih]
    have e1 : pending s = pending { s.add c with todo := pre ++ cs :: post } + 1 := by
      unfold pending
      rw [hs]
      simp
      omega
    rw [e1, UInt64.ofNat_add]
    unfold counterSum
    cases c <;> simp only [Counting.add] <;> grind

theorem counted_total : ∀ (g : List (SubIdx × UInt64 × Int)) (r : List Found),
    mapRes (fun q => q.1.findNode q.2.1 q.2.2) g = .ok r → (r.flatMap (·.counted)).length = g.length := by
  intro g
  induction g with
  | nil => intro r hr; cases hr; rfl
  | cons q qs ih =>
    intro r hr
    unfold mapRes at hr
    obtain ⟨f, hf, hr⟩ := Res.bind_eq_ok.1 hr
    obtain ⟨fs, hfs, hr⟩ := Res.bind_eq_ok.1 hr
    cases hr
    simp only [List.flatMap_cons, List.length_append, List.length_cons]
    rw [ih fs hfs, C30_one_increment _ _ _ _ hf]
    omega

/-- C30: `goroutines` each perform their own lookups (any ids, hints and sub-indexes), the increments
interleaving in any order. Once none is left, the four counters have together grown by exactly the number
of lookups. -/
theorem C30_counters_sum (goroutines : List (List (SubIdx × UInt64 × Int)))
    (results : List (List Found))
    (h : mapRes (mapRes fun q => q.1.findNode q.2.1 q.2.2) goroutines = .ok results)
    (s t : Counting) (hs : s.todo = results.map fun rs => rs.flatMap (·.counted))
    (hst : Counting.Steps s t) (hdone : ∀ g ∈ t.todo, g = []) :
    counterSum t = counterSum s + UInt64.ofNat (goroutines.map List.length).sum := by
  have inv := counting_invariant hst
  have hp : pending t = 0 := by
    unfold pending
    rw [List.sum_eq_zero_iff_forall_eq_nat]
    intro x hx
    obtain ⟨g, hg, rfl⟩ := List.mem_map.1 hx
    rw [hdone g hg]; rfl
  have hq : pending s = (goroutines.map List.length).sum := by
    unfold pending
    rw [hs]
    clear hs hst hdone inv hp s t
    induction goroutines generalizing results with
    | nil => cases h; rfl
    | cons g gs ih =>
      unfold mapRes at h
      obtain ⟨r, hr, h⟩ := Res.bind_eq_ok.1 h
      obtain ⟨rs, hrs, h⟩ := Res.bind_eq_ok.1 h
      cases h
      simp only [List.map_cons, List.sum_cons]
      rw [ih rs hrs]
      congr 1
      exact counted_total g r hr
  rw [hp, hq] at inv
  rw [← inv]
  simp

/-- Two goroutines, three lookups. -/
example : ∃ results t, mapRes (mapRes fun q : SubIdx × UInt64 × Int => q.1.findNode q.2.1 q.2.2)
      [[(exampleSub, 7, 0), (exampleSub, 99, 0)], [(exampleSub, 10, 0)]] = .ok results ∧
    Counting.Steps ⟨0, 0, 0, 0, results.map fun rs => rs.flatMap (·.counted)⟩ t ∧
    t.todo = [[], []] ∧ counterSum t = 3 :=
  ⟨_, ⟨1, 1, 1, 0, [[], []]⟩, rfl,
    .step (pre := [_]) (post := []) rfl (.step (pre := []) rfl (.step (pre := []) rfl (.refl _))), rfl, rfl⟩

/-! ## C31 -/

/-- C31: exactly when the passes cover an index: iff the last range's slots reach past the end of the
last whole slice but do not start before it. C31 itself claims this always holds; see `C31_false`. -/
theorem C31_passes_cover_iff_partial (ix : NodeIdx) (hc : Complete ix) (hL : ix.locations.length < 2 ^ 63)
    (n : Nat) (hn : 1 ≤ n) (hn64 : n < 2 ^ 64) :
    PassesCover ix n ↔ ∃ last, ix.elements.getLast? = some last ∧
      ix.locations.length % n < rCount last ∧
      rCount last ≤ ix.locations.length / n + ix.locations.length % n :=
  passes_iff ix hc hL n hn hn64

/-- C31: one pass always covers a non-empty index. -/
theorem C31_single_pass (ix : NodeIdx) (wf : WellFormed ix.elements ix.locations) (hc : Complete ix)
    (hL : ix.locations.length < 2 ^ 63) (hne : ix.elements ≠ []) : PassesCover ix 1 := by
  rw [passes_iff ix hc hL 1 (by omega) (by omega)]
  refine ⟨ix.elements.getLast hne, List.getLast?_eq_some_getLast hne, ?_, ?_⟩
  · have := wf.nonempty _ (List.getLast_mem hne)
    omega
  · have := wf.slots _ (List.getLast_mem hne)
    omega

/-- C31: it holds when the pass count divides the number of locations and the last range fits a slice. -/
theorem C31_even_slices (ix : NodeIdx) (wf : WellFormed ix.elements ix.locations) (hc : Complete ix)
    (hL : ix.locations.length < 2 ^ 63) (hne : ix.elements ≠ []) (n : Nat) (hn : 1 ≤ n) (hn64 : n < 2 ^ 64)
    (hd : n ∣ ix.locations.length) (hlast : rCount (ix.elements.getLast hne) ≤ ix.locations.length / n) :
    PassesCover ix n := by
  rw [passes_iff ix hc hL n hn hn64]
  refine ⟨ix.elements.getLast hne, List.getLast?_eq_some_getLast hne, ?_, ?_⟩
  · have := wf.nonempty _ (List.getLast_mem hne)
    rw [Nat.mod_eq_zero_of_dvd hd]
    omega
  · omega

/-- Three ranges of one location each. -/
def example3 : NodeIdx := ⟨[⟨5, 1⟩, ⟨10, 0x1000001⟩, ⟨20, 0x2000001⟩], [-5, -10, -20]⟩

/-- C31 is false of the code: with three one-location ranges and two passes both passes exist, but the
last range is in neither, so the locations it holds are never found; and a range bigger than a slice makes
the last pass panic. -/
theorem C31_false :
    (WellFormed example3.elements example3.locations ∧ Complete example3) ∧
    (∃ a b, mapRes (fun p => example3.SubIndex (UInt64.ofNat p) 2) [0, 1] = .ok [a, b] ∧
      a.element ++ b.element = [⟨5, 1⟩, ⟨10, 0x1000001⟩]) ∧
    ¬ PassesCover example3 2 ∧
    (∃ big : NodeIdx, WellFormed big.elements big.locations ∧ Complete big ∧ big.SubIndex 1 2 = .panic) := by
  have hw : WellFormed example3.elements example3.locations ∧ Complete example3 :=
    ⟨⟨by decide, by decide, by decide, by decide⟩, by unfold Complete; decide⟩
  refine ⟨hw, ⟨⟨[⟨5, 1⟩], [-5, -10, -20], 5⟩, ⟨[⟨10, 0x1000001⟩], [-5, -10, -20], 10⟩, ?_⟩, ?_, ?_⟩
  · decide
  · rw [passes_iff example3 hw.2 (by decide) 2 (by omega) (by omega)]
    rintro ⟨last, h, h1, h2⟩
    have : last = ⟨20, 0x2000001⟩ := by
      simpa [example3] using h.symm
    subst this
    revert h1
    decide
  · exact ⟨⟨[⟨5, 4⟩], [-5, -6, -7, -8]⟩, ⟨by decide, by decide, by decide, by decide⟩,
      by unfold Complete; decide, by decide⟩

/-- The hypotheses are met by two ranges of two locations in two passes. -/
example : PassesCover ⟨[⟨5, 2⟩, ⟨10, 0x2000002⟩], [-5, -6, -10, -11]⟩ 2 :=
  C31_even_slices _ ⟨by decide, by decide, by decide, by decide⟩ (by unfold Complete; decide) (by decide)
    (by decide) 2 (by omega) (by omega) (by decide) (by decide)

/-! ## C32 -/

/-- C32: with the number of passes computed from a memory target (in MiB, at least one, and not so large
that its byte count overflows), the ranges of each pass apart from its last one cover at most that many
bytes of locations. -/
theorem C32_memory_target (ix : NodeIdx) (hc : Complete ix) (hL : ix.locations.length < 2 ^ 60)
    (m : UInt64) (hm1 : 1 ≤ m.toNat) (hm2 : m.toNat < 2 ^ 44) :
    ∃ n, passCount ix (some m) = .ok n ∧ 1 ≤ n.toNat ∧
      ∀ p : UInt64, p.toNat < n.toNat → ∀ si, ix.SubIndex p n = .ok si →
        8 * slotCount si.element.dropLast ≤ m.toNat * 1048576 := by
  have hT : (m * 1048576).toNat = m.toNat * 1048576 := by
    rw [UInt64.toNat_mul, show (1048576 : UInt64).toNat = 1048576 from rfl]
    omega
  have hR : (ix.LocationCount * 8).toNat = ix.locations.length * 8 := by
    rw [UInt64.toNat_mul, show (8 : UInt64).toNat = 8 from rfl]
    unfold NodeIdx.LocationCount
    rw [UInt64.toNat_ofNat']
    omega
  have hne : ¬ m * 1048576 = 0 := by
    intro h
    have := UInt64.toNat_inj.2 h
    rw [hT, show (0 : UInt64).toNat = 0 from rfl] at this
    omega
  have hq : ix.locations.length * 8 / (m.toNat * 1048576) ≤ ix.locations.length * 8 / 1 :=
    Nat.div_le_div_left (by omega) (by omega)
  have hN : (ix.LocationCount * 8 / (m * 1048576) + 1).toNat =
      ix.locations.length * 8 / (m.toNat * 1048576) + 1 := by
    rw [UInt64.toNat_add, UInt64.toNat_div, hR, hT, show (1 : UInt64).toNat = 1 from rfl]
    exact Nat.mod_eq_of_lt (by omega)
  refine ⟨ix.LocationCount * 8 / (m * 1048576) + 1, ?_, ?_, ?_⟩
  · unfold passCount
    dsimp only
    rw [if_neg hne]
  · rw [hN]; exact Nat.le_add_left 1 _
  · rw [hN]
    intro p hp si hsi
    have hs := pass_size ix hc (by omega) p.toNat (ix.locations.length * 8 / (m.toNat * 1048576) + 1) hp
      (by omega) si (by rw [UInt64.ofNat_toNat, ← hN, UInt64.ofNat_toNat]; exact hsi)
    refine Nat.le_trans (Nat.mul_le_mul_left 8 hs) ?_
    generalize hk : m.toNat * 1048576 = T at *
    generalize ix.locations.length = L at *
    have hTpos : 0 < T := by omega
    -- L / (8L/T + 1) * 8 ≤ T
    have h1 : L * 8 < T * (L * 8 / T + 1) := Nat.lt_mul_div_succ _ hTpos
    have h2 : L / (L * 8 / T + 1) * (L * 8 / T + 1) ≤ L := Nat.div_mul_le_self _ _
    have h3 : 8 * (L / (L * 8 / T + 1)) * (L * 8 / T + 1) < T * (L * 8 / T + 1) := by
      rw [Nat.mul_assoc]; omega
    exact Nat.le_of_lt (Nat.lt_of_mul_lt_mul_right h3)

/-- C32: without a target there is a single pass; with a target of 0 the program panics. -/
theorem C32_other_targets (ix : NodeIdx) : passCount ix none = .ok 1 ∧ passCount ix (some 0) = .panic :=
  ⟨rfl, rfl⟩

/-- The hypotheses are met, and the passes exist. -/
example : Complete ⟨[⟨5, 2⟩, ⟨10, 0x2000002⟩], [-5, -6, -10, -11]⟩ ∧
    passCount ⟨[⟨5, 2⟩, ⟨10, 0x2000002⟩], [-5, -6, -10, -11]⟩ (some 1) = .ok 1 ∧
    ∃ si, NodeIdx.SubIndex ⟨[⟨5, 2⟩, ⟨10, 0x2000002⟩], [-5, -6, -10, -11]⟩ 0 1 = .ok si :=
  ⟨by unfold Complete; decide, by decide, _, rfl⟩

end Osm.Props
