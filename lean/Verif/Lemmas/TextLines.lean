import Verif.Model.TextLines
import Verif.Spec.TextLines
import Verif.Lemmas.Text
import Verif.Lemmas.Progress

/-! # Lemmas about the lines on the screen -/

namespace Osm.TextLines
open Osm Osm.Text Osm.Spec.Text Osm.Timing Osm.Display
local notation "Text" => List Char

/-! ## A line can be read in only one way -/

/-- The characters of numbers and percentages. -/
abbrev marks : Text := "-0123456789.Na".toList

/-- After a number there is nothing, or words that begin with another character. -/
def starts : List Part → Bool
  | [] => true
  | .words (c :: _) :: _ => !marks.contains c
  | _ => false

def clear : List Part → Bool
  | [] => true
  | .words _ :: ps => clear ps
  | .number :: ps => starts ps && clear ps
  | .percentage :: ps => starts ps && clear ps

theorem percentage_of {t : Text} {z : Option Int} (h : Percentage t z) : Of "-0123456789.Na" t := by
  cases h with
  | tenths ha hb _ =>
    intro c hc
    have hs : ∀ c ∈ "0123456789".toList, c ∈ "-0123456789.Na".toList := by decide
    rw [List.mem_append, List.mem_cons] at hc
    rcases hc with hc | rfl | hc
    · exact hs c (ha.2 c hc)
    · decide
    · exact hs c (hb.2 c hc)
  | none => intro c hc; revert c; decide

theorem percentage_unique {t : Text} {y z : Option Int} (h : Percentage t y) (h' : Percentage t z) : y = z := by
  generalize ht : t = t' at h'
  cases h with
  | tenths ha hb _ =>
    cases h' with
    | tenths ha' hb' _ =>
      obtain ⟨rfl, rfl⟩ := split_at ht (Digits.no_point ha) (Digits.no_point ha')
      rfl
    | none =>
      have : '.' ∈ "NaN".toList := by rw [← ht]; simp
      exact absurd this (by decide)
  | none =>
    cases h' with
    | tenths ha' hb' _ =>
      have : '.' ∈ "NaN".toList := by rw [ht]; simp
      exact absurd this (by decide)
    | none => rfl

theorem follow {ps : List Part} (h : starts ps = true) : (∀ t zs, Fills ps t zs → t = []) ∨
    ∃ c, c ∉ marks ∧ ∀ t zs, Fills ps t zs → ∃ u, t = c :: u := by
  unfold starts at h
  split at h
  · exact .inl fun t zs hf => by cases hf; rfl
  · next c w ps =>
    refine .inr ⟨c, by simpa using h, fun t zs hf => ?_⟩
    cases hf
    exact ⟨_, rfl⟩
  · cases h

theorem hole {ps : List Part} (h : starts ps = true) {n n' t t' : Text} {zs zs' : List (Option Int)} (hn : Of "-0123456789.Na" n)
    (hn' : Of "-0123456789.Na" n') (hf : Fills ps t zs) (hf' : Fills ps t' zs') (he : n ++ t = n' ++ t') : n = n' ∧ t = t' := by
  rcases follow h with h | ⟨c, hc, h⟩
  · rw [h t zs hf, h t' zs' hf', List.append_nil, List.append_nil] at he
    exact ⟨he, by rw [h t zs hf, h t' zs' hf']⟩
  · obtain ⟨u, rfl⟩ := h t zs hf
    obtain ⟨u', rfl⟩ := h t' zs' hf'
    obtain ⟨rfl, rfl⟩ := split_at he (hn.not_mem hc) (hn'.not_mem hc)
    exact ⟨rfl, rfl⟩

theorem numeral_marks {n : Text} {z : Int} (h : Numeral n z) : Of "-0123456789.Na" n := Of.mono (Numeral.of h) (by decide)

theorem fills_unique {ps : List Part} (hc : clear ps = true) {t : Text} {zs zs' : List (Option Int)} (h : Fills ps t zs)
    (h' : Fills ps t zs') : zs = zs' := by
  induction h generalizing zs' with
  | nil => cases h'; rfl
  | @words w ps t zs h ih =>
    generalize ht : w ++ t = t' at h'
    cases h' with
    | words h' =>
      rw [← List.append_cancel_left ht] at h'
      exact ih hc h'
  | @number n z ps t zs hn h ih =>
    generalize ht : n ++ t = t' at h'
    cases h' with
    | number hn' h' =>
      rw [clear, Bool.and_eq_true] at hc
      obtain ⟨rfl, rfl⟩ := hole hc.1 (numeral_marks hn) (numeral_marks hn') h h' ht
      rw [Numeral.unique hn hn', ih hc.2 h']
  | @percentage n z ps t zs hn h ih =>
    generalize ht : n ++ t = t' at h'
    cases h' with
    | percentage hn' h' =>
      rw [clear, Bool.and_eq_true] at hc
      obtain ⟨rfl, rfl⟩ := hole hc.1 (percentage_of hn) (percentage_of hn') h h' ht
      rw [percentage_unique hn hn', ih hc.2 h']

/-- The texts differ at some place. -/
def differ (a b : Text) : Bool := (a.zip b).any fun p => p.1 != p.2

def apart : List Part → List Part → Bool
  | .words a :: ps, .words b :: qs => differ a b || (decide (a = b) && apart ps qs)
  | _, _ => false

theorem differ_ne {a b : Text} (h : differ a b = true) {s t : Text} : a ++ s ≠ b ++ t := by
  induction a generalizing b with
  | nil => simp [differ] at h
  | cons x a ih =>
    cases b with
    | nil => simp [differ] at h
    | cons y b =>
      intro he
      simp only [List.cons_append, List.cons.injEq] at he
      obtain ⟨rfl, he⟩ := he
      refine ih ?_ he
      simpa [differ] using h

theorem apart_ne : ∀ {ps qs : List Part}, apart ps qs = true → ∀ {t : Text} {zs zs' : List (Option Int)}, Fills ps t zs →
    Fills qs t zs' → False
  | .words a :: ps, .words b :: qs, h, t, zs, zs', hf, hf' => by
    rw [apart, Bool.or_eq_true, Bool.and_eq_true, decide_eq_true_eq] at h
    generalize ht : t = t' at hf'
    cases hf with
    | words hf =>
      cases hf' with
      | words hf' =>
        rcases h with h | ⟨rfl, h⟩
        · exact differ_ne h ht
        · rw [← List.append_cancel_left ht] at hf'
          exact apart_ne h hf hf'
  | [], _, h, _, _, _, _, _ => by simp [apart] at h
  | .number :: _, _, h, _, _, _, _, _ => by simp [apart] at h
  | .percentage :: _, _, h, _, _, _, _, _ => by simp [apart] at h
  | .words _ :: _, [], h, _, _, _, _, _ => by simp [apart] at h
  | .words _ :: _, .number :: _, h, _, _, _, _, _ => by simp [apart] at h
  | .words _ :: _, .percentage :: _, h, _, _, _, _, _ => by simp [apart] at h

/-- Forms that can be told apart. -/
structure Plain (fs : List Form) : Prop where
  clear : ∀ f ∈ fs, clear f.parts = true
  apart : fs.Pairwise fun f g => apart f.parts g.parts = true

theorem reads_unique {fs : List Form} (h : Plain fs) {t : Text} {w w' : What} {zs zs' : List (Option Int)} (hr : Reads fs t w zs)
    (hr' : Reads fs t w' zs') : w = w' ∧ zs = zs' := by
  cases hr with
  | @mk f _ _ hf hz =>
    cases hr' with
    | @mk g _ _ hg hz' =>
      obtain ⟨i, hi, rfl⟩ := List.getElem_of_mem hf
      obtain ⟨j, hj, rfl⟩ := List.getElem_of_mem hg
      have ha := List.pairwise_iff_getElem.1 h.apart
      rcases Nat.lt_trichotomy i j with hij | rfl | hij
      · exact (apart_ne (ha i j hi hj hij) hz hz').elim
      · exact ⟨rfl, fills_unique (h.clear _ hf) hz hz'⟩
      · exact (apart_ne (ha j i hj hi hij) hz' hz).elim

theorem plain_index : Plain indexWorkerForms := ⟨by decide, by decide⟩
theorem plain_decompress : Plain decompressWorkerForms := ⟨by decide, by decide⟩
theorem plain_tagfilter : Plain tagfilterWorkerForms := ⟨by decide, by decide⟩
theorem plain_rewrite : Plain rewriteWorkerForms := ⟨by decide, by decide⟩
theorem plain_blockWriter : Plain blockWriterForms := ⟨by decide, by decide⟩
theorem plain_relWriter : Plain relWriterForms := ⟨by decide, by decide⟩
theorem plain_tagfilterWriter : Plain tagfilterWriterForms := ⟨by decide, by decide⟩
theorem plain_indexWriter : Plain indexWriterForms := ⟨by decide, by decide⟩

theorem differ_self (a : Text) : differ a a = false := by
  induction a with
  | nil => rfl
  | cons x a ih => simpa [differ] using ih

theorem plain_file (pre : Text) : Plain (fileForms pre) := by
  constructor
  · unfold fileForms
    intro f hf
    simp only [List.mem_cons, List.not_mem_nil, or_false] at hf
    rcases hf with rfl | rfl | rfl | rfl <;> rfl
  · unfold fileForms
    simp only [List.pairwise_cons, List.mem_cons, List.not_mem_nil, or_false, forall_eq_or_imp, forall_eq, apart, differ_self,
      decide_true, Bool.true_and, Bool.false_or, IsEmpty.forall_iff, implies_true, List.Pairwise.nil, and_true]
    decide

/-! ## What is written -/

theorem fmtU_says (n : UInt64) : Numeral (fmtU n) n.toNat := fmtD_says _

theorem pointed1_says (n : Nat) : Percentage (pointed1 n) (some n) := by
  have h := Percentage.tenths (digits_toDigits (n / 10)) (b := [(n % 10).digitChar]) ⟨by simp, fun c hc => by
    rw [List.mem_singleton] at hc
    rw [hc]
    exact digitChar_mem10 _ (by omega)⟩ rfl
  rw [positional_append, positional_toDigits (by omega) (by omega), digitValue_digitChar _ (by omega)] at h
  rw [show 10 * (n / 10) + n % 10 = n by omega] at h
  exact h

/-- The percentage shown, in tenths. -/
def tenths (a m : UInt64) : Int := Progress.toNearest (Progress.rnd (100 * Progress.fileVal a.toNat m.toNat) * 10)

theorem tenths_nonneg (a m : UInt64) : 0 ≤ tenths a m :=
  Progress.toNearest_nonneg (mul_nonneg (Progress.rnd_nonneg (mul_nonneg (by norm_num) (Progress.fileVal_nonneg _ _))) (by norm_num))

theorem fmtPct_says (a m : UInt64) (hm : m ≠ 0) : Percentage (fmtPct (hundred (Progress.filePct a m))) (some (tenths a m)) := by
  rw [Progress.filePct_eq a m hm]
  have := pointed1_says (tenths a m).toNat
  rw [show (((tenths a m).toNat : Nat) : Int) = tenths a m by have := tenths_nonneg a m; omega] at this
  exact this

theorem fmtPct_zero : fmtPct (hundred (Progress.filePct 0 0)) = "NaN".toList := by
  have : Progress.filePct 0 0 = .nan := by
    unfold Progress.filePct
    simp [Progress.float, Progress.div, Progress.rnd]
  rw [this]
  rfl

/-- What a percentage says. -/
def pctSays (a m : UInt64) : Option Int := if m = 0 then none else some (tenths a m)

theorem pct_says {a m : UInt64} (h : a ≤ m) : Percentage (fmtPct (hundred (Progress.filePct a m))) (pctSays a m) := by
  unfold pctSays
  split
  · next hm =>
    subst hm
    have : a = 0 := by
      have := UInt64.le_iff_toNat_le.1 h
      exact UInt64.toNat_inj.1 (by simpa using this)
    subst this
    rw [fmtPct_zero]
    exact .none
  · next hm => exact fmtPct_says a m hm

/-- The numbers of a line. -/
def numbersOf (l : Line) : List (Option Int) := (l.block.toList ++ l.numbers).map fun n => some (n.toNat : Int)

theorem fills_plain (s : Text) : Fills [.words s] s [] := by
  have := Fills.words (w := s) Fills.nil
  rwa [List.append_nil] at this

theorem fills_block (s : Text) (n : UInt64) : Fills [.words s, .number] (s ++ fmtU n) [some (n.toNat : Int)] := by
  have := Fills.words (w := s) (Fills.number (fmtU_says n) Fills.nil)
  rwa [List.append_nil] at this

theorem index_reads {m : Nat → Mem} {l : Line} (h : indexWorkerLine m = some l) :
    ∃ t, indexWorkerText m = some t ∧ Reads indexWorkerForms t l.what (numbersOf l) := by
  unfold indexWorkerLine at h
  unfold indexWorkerText
  split at h <;> cases h <;> rename_i hs <;> rw [hs]
  · exact ⟨_, rfl, Reads.mk (f := plain _ _) (.head _) (fills_plain _)⟩
  · exact ⟨_, rfl, Reads.mk (f := withBlock _ _) (.tail _ (.head _)) (fills_block _ _)⟩
  · exact ⟨_, rfl, Reads.mk (f := withBlock _ _) (.tail _ (.tail _ (.head _))) (fills_block _ _)⟩
  · exact ⟨_, rfl, Reads.mk (f := withBlock _ _) (.tail _ (.tail _ (.tail _ (.head _)))) (fills_block _ _)⟩

theorem decompress_reads {m : Nat → Mem} {l : Line} (h : decompressWorkerLine m = some l) :
    ∃ t, decompressWorkerText m = some t ∧ Reads decompressWorkerForms t l.what (numbersOf l) := by
  unfold decompressWorkerLine at h
  unfold decompressWorkerText
  split at h <;> cases h <;> rename_i hs <;> rw [hs]
  · exact ⟨_, rfl, Reads.mk (f := plain _ _) (.head _) (fills_plain _)⟩
  · exact ⟨_, rfl, Reads.mk (f := withBlock _ _) (.tail _ (.head _)) (fills_block _ _)⟩
  · exact ⟨_, rfl, Reads.mk (f := withBlock _ _) (.tail _ (.tail _ (.head _))) (fills_block _ _)⟩
  · exact ⟨_, rfl, Reads.mk (f := withBlock _ _) (.tail _ (.tail _ (.tail _ (.head _)))) (fills_block _ _)⟩
  · exact ⟨_, rfl, Reads.mk (f := withBlock _ _) (.tail _ (.tail _ (.tail _ (.tail _ (.head _))))) (fills_block _ _)⟩

theorem fills_kept (s : Text) (m : Nat → Mem) :
    Fills [.words s, .number, .words ", ".toList, .number, .words " kept, ".toList, .number, .words " dropped".toList]
      (s ++ tagfilterNumbers m) [some ((m 1 .block).toNat : Int), some ((m 2 .kept).toNat : Int), some ((m 3 .dropped).toNat : Int)] := by
  have := Fills.words (w := s) (Fills.number (fmtU_says (m 1 .block)) (Fills.words (w := ", ".toList)
    (Fills.number (fmtU_says (m 2 .kept)) (Fills.words (w := " kept, ".toList) (Fills.number (fmtU_says (m 3 .dropped))
      (fills_plain " dropped".toList))))))
  unfold tagfilterNumbers
  simpa only [List.append_assoc] using this

theorem tagfilter_reads {m : Nat → Mem} {l : Line} (h : tagfilterWorkerLine m = some l) :
    ∃ t, tagfilterWorkerText m = some t ∧ Reads tagfilterWorkerForms t l.what (numbersOf l) := by
  unfold tagfilterWorkerLine at h
  unfold tagfilterWorkerText
  split at h <;> cases h <;> rename_i hs <;> rw [hs]
  · exact ⟨_, rfl, Reads.mk (f := plain _ _) (.head _) (fills_plain _)⟩
  · exact ⟨_, rfl, Reads.mk (f := withKept _ _) (.tail _ (.head _)) (fills_kept _ _)⟩
  · exact ⟨_, rfl, Reads.mk (f := withKept _ _) (.tail _ (.tail _ (.head _))) (fills_kept _ _)⟩
  · exact ⟨_, rfl, Reads.mk (f := withKept _ _) (.tail _ (.tail _ (.tail _ (.head _)))) (fills_kept _ _)⟩
  · exact ⟨_, rfl, Reads.mk (f := withKept _ _) (.tail _ (.tail _ (.tail _ (.tail _ (.head _))))) (fills_kept _ _)⟩

theorem fills_two (s s2 : Text) (a b : UInt64) {ps : List Part} {t : Text} {zs : List (Option Int)} (h : Fills ps t zs) :
    Fills (.words s :: .number :: .words s2 :: .number :: ps) (s ++ fmtU a ++ s2 ++ fmtU b ++ t)
      (some (a.toNat : Int) :: some (b.toNat : Int) :: zs) := by
  have := Fills.words (w := s) (Fills.number (fmtU_says a) (Fills.words (w := s2) (Fills.number (fmtU_says b) h)))
  simpa only [List.append_assoc] using this

theorem rewrite_reads {m : Nat → Mem} {l : Line} (h : rewriteWorkerLine m = some l) :
    ∃ t, rewriteWorkerText m = some t ∧ Reads rewriteWorkerForms t l.what (numbersOf l) := by
  unfold rewriteWorkerLine at h
  unfold rewriteWorkerText
  split at h <;> cases h <;> rename_i hs <;> rw [hs]
  · exact ⟨_, rfl, Reads.mk (f := plain _ _) (.head _) (fills_plain _)⟩
  · exact ⟨_, rfl, Reads.mk (f := withBlock _ _) (.tail _ (.head _)) (fills_block _ _)⟩
  · refine ⟨_, rfl, Reads.mk (f := ⟨.processing, _⟩) (.tail _ (.tail _ (.head _))) ?_⟩
    have := fills_two "Worker: working on block ".toList ", way ".toList (m 3 .block) (m 1 .way) (fills_block "/".toList (m 2 .ways))
    simp only [List.append_assoc] at this ⊢
    exact this
  · exact ⟨_, rfl, Reads.mk (f := withBlock _ _) (.tail _ (.tail _ (.tail _ (.head _)))) (fills_block _ _)⟩

theorem blockWriter_reads {m : Nat → Mem} {l : Line} (h : blockWriterLine m = some l) :
    (∃ t, blockWriterText m = some t ∧ Reads blockWriterForms t l.what (numbersOf l)) ∧
    ∃ t, relWriterText m = some t ∧ Reads relWriterForms t l.what (numbersOf l) := by
  unfold blockWriterLine at h
  unfold blockWriterText relWriterText
  split at h <;> cases h <;> rename_i hs <;> rw [hs]
  · exact ⟨⟨_, rfl, Reads.mk (f := plain _ _) (.head _) (fills_plain _)⟩, _, rfl, Reads.mk (f := plain _ _) (.head _) (fills_plain _)⟩
  · exact ⟨⟨_, rfl, Reads.mk (f := withBlock _ _) (.tail _ (.head _)) (fills_block _ _)⟩,
      _, rfl, Reads.mk (f := withBlock _ _) (.tail _ (.head _)) (fills_block _ _)⟩

theorem tagfilterWriter_reads {m : Nat → Mem} {l : Line} (h : tagfilterWriterLine m = some l) :
    ∃ t, tagfilterWriterText m = some t ∧ Reads tagfilterWriterForms t l.what (numbersOf l) := by
  unfold tagfilterWriterLine at h
  unfold tagfilterWriterText
  split at h <;> cases h <;> rename_i hs <;> rw [hs]
  · exact ⟨_, rfl, Reads.mk (f := ⟨.waiting, _⟩) (.head _) (fills_two _ _ _ _ (fills_plain _))⟩
  · exact ⟨_, rfl, Reads.mk (f := ⟨.writing, _⟩) (.tail _ (.head _)) (fills_two _ _ _ _ (fills_plain _))⟩

/-- The percentage in the line of an index writer. -/
def percentOf (l : Line) : List (Option Int) :=
  match l.what, l.numbers with
  | .copying, [a, m] => [pctSays a m]
  | _, _ => []

theorem indexWriter_reads {m : Nat → Mem} {l : Line} (h : indexWriterLine m = some l)
    (hle : l.what = .copying → m 1 .copied ≤ m 2 .total) :
    ∃ t, indexWriterText m = some t ∧ Reads indexWriterForms t l.what (numbersOf l ++ percentOf l) := by
  unfold indexWriterLine at h
  unfold indexWriterText
  split at h <;> cases h <;> rename_i hs <;> rw [hs]
  · exact ⟨_, rfl, Reads.mk (f := plain _ _) (.head _) (fills_plain _)⟩
  · exact ⟨_, rfl, Reads.mk (f := withBlock _ _) (.tail _ (.head _)) (fills_block _ _)⟩
  · exact ⟨_, rfl, Reads.mk (f := plain _ _) (.tail _ (.tail _ (.head _))) (fills_plain _)⟩
  · refine ⟨_, rfl, Reads.mk (f := ⟨.copying, _⟩) (.tail _ (.tail _ (.tail _ (.head _)))) ?_⟩
    have := fills_two "Writer: copying locations (".toList "/".toList (m 1 .copied) (m 2 .total)
      (Fills.words (w := ") ".toList) (Fills.percentage (pct_says (hle rfl)) (fills_plain "%".toList)))
    simp only [List.append_assoc] at this ⊢
    exact this
  · exact ⟨_, rfl, Reads.mk (f := plain _ _) (.tail _ (.tail _ (.tail _ (.tail _ (.head _))))) (fills_plain _)⟩

/-! ## Percentages -/

theorem B4 : Progress.B ^ 4 ≤ 1 + 1 / 2 ^ 49 := by unfold Progress.B; norm_num

theorem tenths_near {a m : UInt64} (hm : m ≠ 0) (h : a ≤ m) :
    |(tenths a m : Rat) - 1000 * Spec.fileShare a.toNat m.toNat| ≤ 1 / 2 + 1 / 2 ^ 39 := by
  have h0 : m.toNat ≠ 0 := fun h => hm (UInt64.toNat_inj.1 (by simpa using h))
  have hs := Progress.fileShare_le h0 (UInt64.le_iff_toNat_le.1 h)
  have hc := (((Progress.Close.refl (x := 100) (by norm_num)).mul (Progress.fileVal_close (a := a.toNat) h0)).rnd)
  obtain ⟨c1, c2, c3, c4⟩ := hc
  have hn := Progress.toNearest_near (Progress.rnd (100 * Progress.fileVal a.toNat m.toNat) * 10)
  have e : tenths a m = Progress.toNearest (Progress.rnd (100 * Progress.fileVal a.toNat m.toNat) * 10) := rfl
  rw [← e] at hn
  generalize tenths a m = k at *
  generalize Progress.rnd (100 * Progress.fileVal a.toNat m.toNat) = x at *
  generalize hy : Spec.fileShare a.toNat m.toNat = y at *
  have b := B4
  simp only [Nat.zero_add, Nat.reduceAdd] at c3 c4
  generalize Progress.B ^ 4 = B at *
  have hy0 : 0 ≤ y := by linarith
  rw [abs_le] at hn ⊢
  have u : x ≤ 100 * y + 100 / 2 ^ 49 := by nlinarith
  have hx : x ≤ 101 := by
    have : (100 : Rat) / 2 ^ 49 ≤ 1 := by norm_num
    linarith
  have v : 100 * y ≤ x + 101 / 2 ^ 49 := by
    have : x * B ≤ x * (1 + 1 / 2 ^ 49) := mul_le_mul_of_nonneg_left b c1
    nlinarith
  constructor
  · have : (101 : Rat) / 2 ^ 49 * 10 ≤ 1 / 2 ^ 39 := by norm_num
    linarith [hn.1, hn.2]
  · have : (100 : Rat) / 2 ^ 49 * 10 ≤ 1 / 2 ^ 39 := by norm_num
    linarith [hn.1, hn.2]

theorem tenths_mono {a a' m : UInt64} (h : a ≤ a') : tenths a m ≤ tenths a' m := by
  unfold tenths
  refine Progress.toNearest_mono (mul_le_mul_of_nonneg_right (Progress.rnd_mono (mul_le_mul_of_nonneg_left
    (Progress.fileVal_mono (UInt64.le_iff_toNat_le.1 h)) (by norm_num))) (by norm_num))

end Osm.TextLines
