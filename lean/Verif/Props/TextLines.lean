import Verif.Lemmas.TextLines
import Verif.Props.Display
import Verif.Props.Progress

/-!
# C98: the lines on the screen

C79 is about the things a line is made of, C98 about the line itself.
-/

namespace Osm.Props
open Osm Osm.Display Osm.Text Osm.TextLines Osm.Spec.Text
open _root_.Osm.Spec (Truthful Ordered seen received)
local notation "Text" => List Char

/-! ## Reading -/

/-- C98: each of the lines can be read in only one way. -/
theorem C98_unique {fs : List Form} (h : fs ∈ [indexWorkerForms, decompressWorkerForms, tagfilterWorkerForms, rewriteWorkerForms,
      blockWriterForms, relWriterForms, tagfilterWriterForms, indexWriterForms] ∨ ∃ pre, fs = fileForms pre)
    {t : Text} {w w' : What} {zs zs' : List (Option Int)} (hr : Reads fs t w zs) (hr' : Reads fs t w' zs') : w = w' ∧ zs = zs' := by
  refine reads_unique ?_ hr hr'
  rcases h with h | ⟨pre, rfl⟩
  · simp only [List.mem_cons, List.not_mem_nil, or_false] at h
    rcases h with rfl | rfl | rfl | rfl | rfl | rfl | rfl | rfl
    · exact plain_index
    · exact plain_decompress
    · exact plain_tagfilter
    · exact plain_rewrite
    · exact plain_blockWriter
    · exact plain_relWriter
    · exact plain_tagfilterWriter
    · exact plain_indexWriter
  · exact plain_file pre

/-- A line of a worker or a writer with a block. -/
theorem text_truthful {es : List Event} {line : (Nat → Mem) → Option Line} {text : (Nat → Mem) → Option Text} {fs : List Form}
    (hp : Plain fs) (ht : Truthful es line)
    (hr : ∀ m l, line m = some l → ∃ t, text m = some t ∧ Reads fs t l.what (numbersOf l))
    (hb : ∀ m l, line m = some l → l.block = none → l.numbers = []) : TruthfulText es text fs := by
  intro τ hτ
  obtain ⟨l, hl, i, hi, hn⟩ := ht τ hτ
  obtain ⟨t, h1, h2⟩ := hr _ _ hl
  refine ⟨t, h1, ⟨_, _, h2⟩, fun what zs h => ?_⟩
  obtain ⟨rfl, rfl⟩ := reads_unique hp h2 h
  refine ⟨i, hi, fun z hz => ?_⟩
  cases hbl : l.block with
  | none =>
    unfold numbersOf at hz
    rw [hbl, hb _ _ hl hbl] at hz
    cases hz
  | some n =>
    unfold numbersOf at hz
    rw [hbl] at hz
    cases hz
    obtain ⟨g, t, b, a1, a2, a3, rfl⟩ := hn n hbl
    exact ⟨g, t, b, a1, a2, a3, rfl⟩

/-- C98: the line of a worker of nodeindex, wayindex or relindex, of decompress, or of rewritenodes. -/
theorem C98_workers (bs : List In) : TruthfulText (indexWorker bs) indexWorkerText indexWorkerForms ∧
    TruthfulText (decompressWorker bs) decompressWorkerText decompressWorkerForms ∧
    TruthfulText (rewriteWorker bs) rewriteWorkerText rewriteWorkerForms := by
  refine ⟨text_truthful plain_index (C79_index_worker bs) (fun _ _ h => index_reads h) ?_,
    text_truthful plain_decompress (C79_decompress_worker bs) (fun _ _ h => decompress_reads h) ?_,
    text_truthful plain_rewrite (C79_rewrite_worker bs) (fun _ _ h => rewrite_reads h) ?_⟩
  · intro m l h hb
    unfold indexWorkerLine at h
    split at h <;> cases h <;> first | rfl | cases hb
  · intro m l h hb
    unfold decompressWorkerLine at h
    split at h <;> cases h <;> first | rfl | cases hb
  · intro m l h hb
    unfold rewriteWorkerLine at h
    split at h <;> cases h <;> first | rfl | cases hb

/-- C98: the line of the writer of decompress, rewritenodes or relindex. -/
theorem C98_writers (bs : List In) : TruthfulText (decompressWriter bs) blockWriterText blockWriterForms ∧
    TruthfulText (rewriteWriter bs) blockWriterText blockWriterForms ∧ TruthfulText (relWriter bs) relWriterText relWriterForms := by
  have hb : ∀ m l, blockWriterLine m = some l → l.block = none → l.numbers = [] := by
    intro m l h hb
    unfold blockWriterLine at h
    split at h <;> cases h <;> first | rfl | cases hb
  obtain ⟨h1, h2, h3, _⟩ := C79_writers bs
  exact ⟨text_truthful plain_blockWriter h1 (fun _ _ h => (blockWriter_reads h).1) hb,
    text_truthful plain_blockWriter h2 (fun _ _ h => (blockWriter_reads h).1) hb,
    text_truthful plain_relWriter h3 (fun _ _ h => (blockWriter_reads h).2) hb⟩

theorem received_fold {es : List Event} {b : In} {r : Option In} (h : es.foldl (fun r e => match e with
    | .receive b => some b
    | _ => r) r = some b) : r = some b ∨ Event.receive b ∈ es := by
  induction es generalizing r with
  | nil => exact .inl h
  | cons e es ih =>
    rw [List.foldl_cons] at h
    rcases ih h with h | h
    · cases e with
      | receive b' => cases h; exact .inr (.head _)
      | _ => exact .inl h
    · exact .inr (.tail _ h)

theorem received_mem {round : In → List Event} (hround : ∀ b b', Event.receive b' ∈ round b → b' = b) {bs : List In} {t : Nat} {b : In}
    (h : received ([.act .waiting none] ++ bs.flatMap round) t = some b) : b ∈ bs := by
  rcases received_fold h with h | h
  · cases h
  · replace h := List.mem_of_mem_take h
    rw [List.mem_append, List.mem_flatMap] at h
    rcases h with h | ⟨b', h1, h2⟩
    · simp at h
    · rw [hround b' b h2]
      exact h1

theorem rewriteRound_receives (b b' : In) (h : Event.receive b' ∈ rewriteRound b) : b' = b := by
  unfold rewriteRound at h
  split at h
  · simpa using h
  · simp only [SetBlock, SetCurrentState, SetStateWorking, NextWay] at h
    split at h
    · simpa using h
    · simpa [List.mem_flatten] using h

/-- C98: while a block of rewritenodes is worked on, the line says which, how many ways were begun and how many there are. -/
theorem C98_ways (bs : List In) (τ : Nat → Nat) (hτ : Ordered τ) (hu : Spec.Undisturbed (rewriteWorker bs) (τ 0) (τ 3)) (t : Text)
    (ht : rewriteWorkerText (seen (rewriteWorker bs) τ) = some t) (zs : List (Option Int))
    (hr : Reads rewriteWorkerForms t .processing zs) (hw : ∀ b ∈ bs, b.ways < 2 ^ 64) :
    ∃ (b : In) (begun : Nat), received (rewriteWorker bs) (τ 0) = some b ∧ zs = [some (b.index.toNat : Int), some (begun : Int), some (b.ways : Int)] ∧
      begun ≤ b.ways ∧ Spec.processed (rewriteWorker bs) (τ 1) ≤ begun ∧ begun ≤ Spec.processed (rewriteWorker bs) (τ 1) + 1 := by
  have key : ∃ l, rewriteWorkerLine (seen (rewriteWorker bs) τ) = some l := by
    obtain ⟨l, hl, _⟩ := C79_rewrite_worker bs τ hτ
    exact ⟨l, hl⟩
  obtain ⟨l, hl⟩ := key
  obtain ⟨t', h1, h2⟩ := rewrite_reads hl
  rw [ht] at h1
  obtain rfl := Option.some.inj h1
  obtain ⟨e1, rfl⟩ := reads_unique plain_rewrite h2 hr
  obtain ⟨b, n, a1, a2, a3, a4, a5, a6⟩ := C79_ways bs τ hτ hu l hl e1
  have hb := hw b (received_mem rewriteRound_receives a1)
  refine ⟨b, n, a1, ?_, a4, a5, a6⟩
  unfold numbersOf
  rw [a2, a3]
  have m1 : (UInt64.ofNat n).toNat = n := by simp; omega
  have m2 : (UInt64.ofNat b.ways).toNat = b.ways := by simp; omega
  simp [m1, m2]

/-- C98: the writer of tagfilter: waiting or writing, and how many blocks had nothing left in them. -/
theorem C98_tagfilter_writer (bs : List In) (τ : Nat → Nat) (hτ : Ordered τ) :
    ∃ t, tagfilterWriterText (seen (tagfilterWriter bs) τ) = some t ∧ (∃ what zs, Reads tagfilterWriterForms t what zs) ∧
      ∀ what zs, Reads tagfilterWriterForms t what zs → (∃ i, Spec.Says (tagfilterWriter bs) (τ 0) what i) ∧
        ∃ n m : UInt64, zs = [some (n.toNat : Int), some (m.toNat : Int)] ∧ Spec.Tallied Spec.fillerOf (tagfilterWriter bs) (τ 1) n := by
  obtain ⟨l, hl, i, hi, _⟩ := (C79_writers bs).2.2.2 τ hτ
  obtain ⟨t, h1, h2⟩ := tagfilterWriter_reads hl
  refine ⟨t, h1, ⟨_, _, h2⟩, fun what zs h => ?_⟩
  obtain ⟨rfl, rfl⟩ := reads_unique plain_tagfilterWriter h2 h
  obtain ⟨n, m, h3, h4⟩ := C79_tagfilter_filler bs τ l hl
  refine ⟨⟨i, hi⟩, n, m, ?_, h4⟩
  unfold numbersOf
  have hb : l.block = none := by
    unfold tagfilterWriterLine at hl
    split at hl <;> cases hl <;> rfl
  rw [hb, h3]
  rfl

/-- C98: the worker of tagfilter: unless it waits, the last two numbers are those of the nodes kept and dropped so far. -/
theorem C98_tagfilter_numbers (bs : List In) (τ : Nat → Nat) (t : Text)
    (ht : tagfilterWorkerText (seen (tagfilterWorker bs) τ) = some t) :
    (∃ what zs, Reads tagfilterWorkerForms t what zs) ∧ ∀ what zs, Reads tagfilterWorkerForms t what zs →
      (what = .waiting ∧ zs = []) ∨ ∃ block kept dropped : UInt64,
        zs = [some (block.toNat : Int), some (kept.toNat : Int), some (dropped.toNat : Int)] ∧
        Spec.Tallied Spec.keptOf (tagfilterWorker bs) (τ 2) kept ∧ Spec.Tallied Spec.droppedOf (tagfilterWorker bs) (τ 3) dropped := by
  have key : ∃ l, tagfilterWorkerLine (seen (tagfilterWorker bs) τ) = some l := by
    unfold tagfilterWorkerText at ht
    unfold tagfilterWorkerLine
    split at ht <;> first | (cases ht; done) | (rename_i hs; rw [hs]; exact ⟨_, rfl⟩)
  obtain ⟨l, hl⟩ := key
  obtain ⟨t', h1, h2⟩ := tagfilter_reads hl
  rw [ht] at h1
  obtain rfl := Option.some.inj h1
  refine ⟨⟨_, _, h2⟩, fun what zs h => ?_⟩
  obtain ⟨rfl, rfl⟩ := reads_unique plain_tagfilter h2 h
  by_cases hw : l.what = .waiting
  · refine .inl ⟨hw, ?_⟩
    unfold tagfilterWorkerLine at hl
    split at hl <;> cases hl <;> first | rfl | cases hw
  · obtain ⟨k, d, h3, h4, h5⟩ := C79_tagfilter_numbers bs τ l hl hw
    have hb : ∃ b, l.block = some b := by
      unfold tagfilterWorkerLine at hl
      split at hl <;> cases hl <;> first | exact ⟨_, rfl⟩ | exact absurd rfl hw
    obtain ⟨b, hb⟩ := hb
    refine .inr ⟨b, k, d, ?_, h4, h5⟩
    unfold numbersOf
    rw [hb, h3]
    rfl

/-! ## Percentages -/

theorem tenths_le {a m : UInt64} (hm : m ≠ 0) (h : a ≤ m) : tenths a m ≤ 1000 := by
  have hn := tenths_near hm h
  have hs := Progress.fileShare_le (toNat_ne hm) (UInt64.le_iff_toNat_le.1 h)
  rw [abs_le] at hn
  have h1 : (tenths a m : Rat) < 1001 := by
    have : (1 : Rat) / 2 ^ 39 < 1 / 2 := by norm_num
    linarith [hn.2]
  have : tenths a m < 1001 := by exact_mod_cast h1
  omega

theorem says_share {a m : UInt64} (h : a ≤ m) : SaysShare a.toNat m.toNat (pctSays a m) := by
  unfold pctSays
  constructor
  · intro hm
    rw [if_pos (UInt64.toNat_inj.1 (by simpa using hm))]
  · intro hm
    have hm' : m ≠ 0 := fun e => hm (by rw [e]; rfl)
    rw [if_neg hm']
    exact ⟨_, rfl, tenths_nonneg a m, tenths_le hm' h, tenths_near hm' h⟩

/-- C98: the writer of nodeindex or wayindex. While it copies, the line says how many bytes of how many are copied, and the share. -/
theorem C98_index_writers (bs : List In) (T : UInt64) (chunks : List Nat) (hc : chunks.sum ≤ T.toNat) (es : List Event)
    (he : es = nodeWriter bs T chunks ∨ es = wayWriter bs T chunks) (τ : Nat → Nat) (hτ : Ordered τ) :
    ∃ t, indexWriterText (seen es τ) = some t ∧ (∃ what zs, Reads indexWriterForms t what zs) ∧
      ∀ what zs, Reads indexWriterForms t what zs → (∃ i, Spec.Says es (τ 0) what i) ∧
        (what = .copying → ∃ (n : UInt64) (z : Option Int), zs = [some (n.toNat : Int), some (T.toNat : Int), z] ∧ n ≤ T ∧
          Spec.Copied es chunks (τ 1) n.toNat ∧ SaysShare n.toNat T.toNat z) := by
  have key : ∃ l, indexWriterLine (seen es τ) = some l ∧ (∃ i, Spec.Says es (τ 0) l.what i) ∧
      (l.what = .copying → ∃ n, l.numbers = [n, T] ∧ n ≤ T ∧ Spec.Copied es chunks (τ 1) n.toNat) := by
    have hp := C79_index_writers_partial bs T chunks τ
    have hl' : ∃ l, indexWriterLine (seen es τ) = some l ∧ ∃ i, Spec.Says es (τ 0) l.what i := by
      rcases he with rfl | rfl
      · exact hp.1
      · exact hp.2
    obtain ⟨l, hl, hi⟩ := hl'
    exact ⟨l, hl, hi, fun h => C79_copying T bs chunks hc es he τ hτ l h hl⟩
  obtain ⟨l, hl, hi, hn⟩ := key
  have hcase : l.what = .copying → l.block = none ∧ l.numbers = [seen es τ 1 .copied, seen es τ 2 .total] := by
    intro hw
    unfold indexWriterLine at hl
    split at hl <;> cases hl <;> first | (cases hw; done) | exact ⟨rfl, rfl⟩
  obtain ⟨t, h1, h2⟩ := indexWriter_reads hl (fun hw => by
    obtain ⟨n, e, hle, _⟩ := hn hw
    rw [(hcase hw).2] at e
    simp only [List.cons.injEq, and_true] at e
    rw [e.1, e.2]
    exact hle)
  refine ⟨t, h1, ⟨_, _, h2⟩, fun what zs h => ?_⟩
  obtain ⟨rfl, rfl⟩ := reads_unique plain_indexWriter h2 h
  refine ⟨hi, fun hw => ?_⟩
  obtain ⟨n, e, hle, hcp⟩ := hn hw
  refine ⟨n, pctSays n T, ?_, hle, hcp, says_share hle⟩
  unfold numbersOf percentOf
  rw [(hcase hw).1, e, hw]
  rfl

/-- C98: the line of the file that is read. -/
theorem C98_file (action filename : Text) (state at_ max : UInt64) (h : at_ ≤ max) (hs : state < 4) :
    ∃ t, fileText action filename state at_ max = some t ∧
      let fs := fileForms ("[".toList ++ action ++ "] Processing PBF ".toList ++ filename ++ ": ".toList)
      (∃ what zs, Reads fs t what zs) ∧ ∀ what zs, Reads fs t what zs →
        (state = 0 ∧ what = .waiting ∧ zs = [] ∨ state = 3 ∧ what = .finalizing ∧ zs = [] ∨
          ∃ z, zs = [some (at_.toNat : Int), some (max.toNat : Int), z] ∧ SaysShare at_.toNat max.toNat z ∧
            (state = 1 ∧ what = .decoding ∨ state = 2 ∧ what = .sending)) := by
  dsimp only
  have hs' : state = 0 ∨ state = 1 ∨ state = 2 ∨ state = 3 := by
    have := UInt64.lt_iff_toNat_lt.1 hs
    have e : state.toNat = 0 ∨ state.toNat = 1 ∨ state.toNat = 2 ∨ state.toNat = 3 := by
      have : (4 : UInt64).toNat = 4 := rfl
      omega
    rcases e with e | e | e | e
    · exact .inl (UInt64.toNat_inj.1 e)
    · exact .inr (.inl (UInt64.toNat_inj.1 e))
    · exact .inr (.inr (.inl (UInt64.toNat_inj.1 e)))
    · exact .inr (.inr (.inr (UInt64.toNat_inj.1 e)))
  unfold fileText
  dsimp only
  generalize "[".toList ++ action ++ "] Processing PBF ".toList ++ filename ++ ": ".toList = pre
  have two : ∀ s : Text, Fills [.words pre, .words (s ++ " ".toList), .number, .words "/".toList, .number, .words " ".toList,
      .percentage, .words "%".toList] (pre ++ (s ++ " ".toList ++ fmtU at_ ++ "/".toList ++ fmtU max ++ " ".toList ++
        fmtPct (hundred (Progress.filePct at_ max)) ++ "%".toList))
      [some (at_.toNat : Int), some (max.toNat : Int), pctSays at_ max] := by
    intro s
    have := Fills.words (w := pre) (fills_two (s ++ " ".toList) "/".toList at_ max
      (Fills.words (w := " ".toList) (Fills.percentage (pct_says h) (fills_plain "%".toList))))
    simp only [List.append_assoc] at this ⊢
    exact this
  rcases hs' with rfl | rfl | rfl | rfl
  · have hr : Reads (fileForms pre) (pre ++ "initializing".toList) .waiting [] :=
      Reads.mk (f := ⟨.waiting, _⟩) (.head _) (.words (fills_plain _))
    refine ⟨_, rfl, ⟨_, _, hr⟩, fun what zs hr' => ?_⟩
    obtain ⟨rfl, rfl⟩ := reads_unique (plain_file pre) hr hr'
    exact .inl ⟨rfl, rfl, rfl⟩
  · have hr := Reads.mk (fs := fileForms pre) (f := ⟨.decoding, _⟩) (.tail _ (.head _)) (two "loading block".toList)
    refine ⟨_, rfl, ⟨_, _, hr⟩, fun what zs hr' => ?_⟩
    obtain ⟨rfl, rfl⟩ := reads_unique (plain_file pre) hr hr'
    exact .inr (.inr ⟨_, rfl, says_share h, .inl ⟨rfl, rfl⟩⟩)
  · have hr := Reads.mk (fs := fileForms pre) (f := ⟨.sending, _⟩) (.tail _ (.tail _ (.head _))) (two "sending block".toList)
    refine ⟨_, rfl, ⟨_, _, hr⟩, fun what zs hr' => ?_⟩
    obtain ⟨rfl, rfl⟩ := reads_unique (plain_file pre) hr hr'
    exact .inr (.inr ⟨_, rfl, says_share h, .inr ⟨rfl, rfl⟩⟩)
  · have hr : Reads (fileForms pre) (pre ++ "shutting down".toList) .finalizing [] :=
      Reads.mk (f := ⟨.finalizing, _⟩) (.tail _ (.tail _ (.tail _ (.head _)))) (.words (fills_plain _))
    refine ⟨_, rfl, ⟨_, _, hr⟩, fun what zs hr' => ?_⟩
    obtain ⟨rfl, rfl⟩ := reads_unique (plain_file pre) hr hr'
    exact .inr (.inl ⟨rfl, rfl, rfl⟩)

/-- C98: the percentage does not go back, and says 100.0 at the end. -/
theorem C98_percentage_grows (a a' m : UInt64) (hm : m ≠ 0) (h : a ≤ a') (h' : a' ≤ m) :
    ∃ k k' : Int, Percentage (fmtPct (hundred (Progress.filePct a m))) (some k) ∧
      Percentage (fmtPct (hundred (Progress.filePct a' m))) (some k') ∧ k ≤ k' ∧ (a' = m → k' = 1000) := by
  refine ⟨_, _, fmtPct_says a m hm, fmtPct_says a' m hm, tenths_mono h, ?_⟩
  rintro rfl
  have h1 : Progress.fileVal a'.toNat a'.toNat = 1 := by
    unfold Progress.fileVal
    rw [div_self (Progress.fl_pos (toNat_ne hm)).ne', Progress.rnd_one]
  unfold tenths
  rw [h1]
  have h2 := Progress.rnd_int 100 (by norm_num) (by norm_num)
  have h3 := Progress.toNearest_int 1000
  push_cast at h2 h3
  rw [show (100 : Rat) * 1 = 100 by norm_num, h2, show (100 : Rat) * 10 = 1000 by norm_num, h3]

/-! ## On the screen -/

theorem bytes_percent {t : Text} (ha : ∀ c ∈ t, c.toNat < 256) : '%'.toUInt8 ∈ bytes t ↔ '%' ∈ t := by
  unfold bytes
  rw [List.mem_map]
  constructor
  · rintro ⟨c, hc, e⟩
    have h1 := ha c hc
    have h2 := congrArg UInt8.toNat e
    rw [UInt8.toNat_ofNat', Nat.mod_eq_of_lt h1] at h2
    have : c = '%' := Char.ext (UInt32.toNat_inj.1 h2)
    rwa [this] at hc
  · intro h
    exact ⟨_, h, rfl⟩

theorem fmtU_of (n : UInt64) : Of "-0123456789" (fmtU n) := Numeral.of (fmtU_says n)

/-- No character of the text is a percent sign, all are of one byte. -/
def Modest (t : Text) : Prop := ∀ c ∈ t, c.toNat < 256 ∧ c ≠ '%'

theorem Modest.append {a b : Text} (ha : Modest a) (hb : Modest b) : Modest (a ++ b) := fun c hc => by
  rcases List.mem_append.1 hc with h | h
  · exact ha c h
  · exact hb c h

theorem modest_fmtU (n : UInt64) : Modest (fmtU n) := fun c hc => by
  have : ∀ c ∈ "-0123456789".toList, c.toNat < 256 ∧ c ≠ '%' := by decide
  exact this c (fmtU_of n c hc)

theorem rewrite_modest (m : Nat → Mem) (t : Text) (h : rewriteWorkerText m = some t) : Modest t := by
  have k : ∀ s ∈ ["Worker: waiting for block".toList, "Worker: decoding block ".toList, "Worker: working on block ".toList, ", way ".toList,
      "/".toList, "Worker: sending block ".toList], ∀ c ∈ s, c.toNat < 256 ∧ c ≠ '%' := by decide
  unfold rewriteWorkerText at h
  split at h <;> cases h
  · exact k _ (by decide)
  · exact Modest.append (k _ (by decide)) (modest_fmtU _)
  · exact Modest.append (Modest.append (Modest.append (Modest.append (Modest.append (k _ (by decide)) (modest_fmtU _)) (k _ (by decide)))
      (modest_fmtU _)) (k _ (by decide))) (modest_fmtU _)
  · exact Modest.append (k _ (by decide)) (modest_fmtU _)

/-- C98: the line of a worker of rewritenodes is on the screen in full, whatever the bar and the width. -/
theorem C98_rewrite_shown (m : Nat → Mem) (t : Text) (h : rewriteWorkerText m = some t) (w : Nat) (hw : 0 < w) (other : Int)
    (pct : Timing.F64) : Spec.shownText (Progress.MarkupAsProgress other (bytes t) w pct) = Spec.filled (bytes t) w := by
  have hm := rewrite_modest m t h
  refine (C67_exact_iff _ w hw _).2 (.inr fun hc => ?_)
  exact (hm _ ((bytes_percent fun c hc => (hm c hc).1).1 hc)).2 rfl

/-- C98: a line with a percentage is on the screen in full exactly if the bar ends within it. -/
theorem C98_percentage_shown (t : Text) (hp : '%' ∈ t) (ha : ∀ c ∈ t, c.toNat < 256) (w : Nat) (hw : 0 < w) (hw' : w ≤ 2 ^ 53)
    (other : Int) (at_ max : UInt64) (hm : max ≠ 0) :
    Spec.shownText (Progress.fileMarkup other (bytes t) at_ max w) = Spec.filled (bytes t) w ↔
      Progress.columns other w (Progress.filePct at_ max) < Nat.max w t.length := by
  have hlen : (Spec.filled (bytes t) w).length = Nat.max w t.length := by
    unfold Spec.filled bytes
    simp only [List.length_append, List.length_replicate, List.length_map]
    show _ = Max.max _ _
    omega
  have h0 := (C86_file_bounds other at_ max w hw' hm).1
  unfold Progress.fileMarkup Progress.MarkupAsProgress
  rw [C67_exact_iff _ w hw, hlen, bytes_percent ha]
  constructor
  · rintro (h | h)
    · exact h.2
    · exact absurd hp h
  · exact fun h => .inl ⟨h0, h⟩

/-- C98: so at the end the percent sign is lost, unless the line is longer than the screen is wide. -/
theorem C98_lost_at_end (t : Text) (hp : '%' ∈ t) (ha : ∀ c ∈ t, c.toNat < 256) (w : Nat) (hw : 0 < w) (hw' : w ≤ 2 ^ 53)
    (other : Int) (max : UInt64) (hm : max ≠ 0) :
    Spec.shownText (Progress.fileMarkup other (bytes t) max max w) = Spec.filled (bytes t) w ↔
      w < t.length := by
  rw [C98_percentage_shown t hp ha w hw hw' other max max hm, C86_file_full_at_end other max w hw' hm]
  show ((w : Nat) : Int) < ((Max.max w t.length : Nat) : Int) ↔ _
  omega

/-! ## Cases -/

/-- Two ways of block 3, after 9 steps. -/
example : rewriteWorkerText (seen (rewriteWorker [{ data := true, index := 3, ways := 2 }]) fun _ => 9) =
    some "Worker: working on block 3, way 1/2".toList := by decide +kernel

/-- Copying 16 bytes, 8 at a time. -/
example : [6, 8].map (fun t => (indexWriterText (seen (nodeWriter [] 16 [8, 8]) fun _ => t)).map String.ofList) =
    [some "Writer: copying locations (8/16) 50.0%", some "Writer: copying locations (16/16) 100.0%"] := by decide +kernel

example : fileText "nodeindex".toList "a.pbf".toList 1 100 300 =
    some "[nodeindex] Processing PBF a.pbf: loading block 100/300 33.3%".toList := by decide +kernel

/-- An empty file. -/
example : fileText "nodeindex".toList "a.pbf".toList 2 0 0 =
    some "[nodeindex] Processing PBF a.pbf: sending block 0/0 NaN%".toList := by decide +kernel

/-- At the end the percent sign is lost. -/
example : Spec.shownText (Progress.fileMarkup 0 (bytes "loading block 3/3 100.0%".toList) 3 3 30) =
    bytes "loading block 3/3 100.0     ".toList := by decide +kernel

example : Spec.shownText (Progress.fileMarkup 0 (bytes "loading block 2/3 66.7%".toList) 2 3 30) =
    bytes "loading block 2/3 66.7%       ".toList := by decide +kernel

end Osm.Props
