import Verif.Lemmas.Display
import Verif.Lemmas.NodeOutput
import Verif.Lemmas.WayIndexer
import Verif.Props.WayIndex

/-! # C79: what the display says about a worker or writer is true -/

namespace Osm.Props
open Osm Osm.Display Osm.Spec

/-- Between two blocks. -/
def Rest (g : G) : Prop := g.owed = false ∧ g.mem .state = 0

theorem start_set {names : UInt64 → Option What} (h0 : names 0 = some .waiting) {blk : Bool} {rest : List Event}
    (h : ∀ g, Rest g → Ok names blk g rest) : Ok names blk G.init (SetCurrentState 0 ++ [.act .waiting none] ++ rest) := by
  refine ⟨⟨fun _ => rfl, by rw [h0]; rfl, fun _ h => absurd rfl h⟩, ⟨.inl h0, fun _ h => absurd rfl h⟩, h _ ⟨rfl, rfl⟩⟩

theorem start_plain {names : UInt64 → Option What} (h0 : names 0 = some .waiting) {blk : Bool} {rest : List Event}
    (h : ∀ g, Rest g → Ok names blk g rest) : Ok names blk G.init ([.act .waiting none] ++ rest) :=
  ⟨⟨.inl h0, fun _ h => absurd rfl h⟩, h _ ⟨rfl, rfl⟩⟩

theorem rounds {names : UInt64 → Option What} {blk : Bool} {f : In → List Event} (bs : List In)
    (hf : ∀ g b more, b ∈ bs → Rest g → (∀ g', Rest g' → Ok names blk g' more) → Ok names blk g (f b ++ more)) :
    ∀ g, Rest g → Ok names blk g (bs.flatMap f) := by
  have := ok_loop (names := names) (blk := blk) (P := Rest) (f := f) (rest := []) bs hf
    (fun g h => h.1)
  rw [List.append_nil] at this
  exact this

/-- What a switch over the state shows. -/
def Switch (names : UInt64 → Option What) (line : (Nat → Mem) → Option Line) : Prop :=
  ∀ m w, names (m 0 .state) = some w → ∃ l, line m = some l ∧ l.what = w ∧
    ∀ n, l.block = some n → m 0 .state ≠ 0 ∧ ∃ k, k ≤ 3 ∧ m k .block = n

/-! ## Workers -/

def indexNames (s : UInt64) : Option What :=
  if s = 0 then some .waiting else if s = 1 then some .decoding else if s = 2 then some .processing
  else if s = 3 then some .sending else none

theorem index_switch : Switch indexNames indexWorkerLine := by
  intro m w hw
  generalize hs : m 0 .state = s at hw
  unfold indexNames at hw
  unfold indexWorkerLine
  rw [hs]
  split at hw
  · rename_i e; subst e; cases hw; exact ⟨_, rfl, rfl, fun n hn => (nomatch hn)⟩
  iterate 3
    split at hw
    · rename_i e; subst e; cases hw
      exact ⟨_, rfl, rfl, fun n hn => ⟨by decide, 1, by decide, Option.some.inj hn⟩⟩
  cases hw

theorem index_round (g : G) (b : In) (more : List Event) (h : Rest g) (hm : ∀ g', Rest g' → Ok indexNames true g' more) :
    Ok indexNames true g (indexRound b ++ more) := by
  obtain ⟨h1, h2⟩ := h
  unfold indexRound
  cases hd : b.data with
  | false =>
    simp [Ok, allowed, good, step, apply, h1, h2, indexNames]
    exact hm _ ⟨rfl, h2⟩
  | true =>
    simp [SetBlock, SetCurrentState, Ok, allowed, good, current, step, apply, h1, h2, indexNames]
    exact hm _ ⟨rfl, rfl⟩

/-- C79: workers of nodeindex, wayindex and relindex. -/
theorem C79_index_worker (bs : List In) : Truthful (indexWorker bs) indexWorkerLine :=
  truthful rfl (start_set rfl (rounds bs fun g b more _ => index_round g b more)) index_switch

def decompressNames (s : UInt64) : Option What :=
  if s = 0 then some .waiting else if s = 1 then some .decoding else if s = 2 then some .decompressing
  else if s = 3 then some .encoding else if s = 4 then some .sending else none

theorem decompress_switch : Switch decompressNames decompressWorkerLine := by
  intro m w hw
  generalize hs : m 0 .state = s at hw
  unfold decompressNames at hw
  unfold decompressWorkerLine
  rw [hs]
  split at hw
  · rename_i e; subst e; cases hw; exact ⟨_, rfl, rfl, fun n hn => (nomatch hn)⟩
  iterate 4
    split at hw
    · rename_i e; subst e; cases hw
      exact ⟨_, rfl, rfl, fun n hn => ⟨by decide, 1, by decide, Option.some.inj hn⟩⟩
  cases hw

theorem decompress_round (g : G) (b : In) (more : List Event) (h : Rest g)
    (hm : ∀ g', Rest g' → Ok decompressNames true g' more) : Ok decompressNames true g (decompressRound b ++ more) := by
  obtain ⟨h1, h2⟩ := h
  unfold decompressRound
  simp [SetBlock, SetCurrentState, Ok, allowed, good, current, step, apply, h1, h2, decompressNames]
  exact hm _ ⟨rfl, rfl⟩

/-- C79: workers of decompress. -/
theorem C79_decompress_worker (bs : List In) : Truthful (decompressWorker bs) decompressWorkerLine :=
  truthful rfl (start_plain rfl (rounds bs fun g b more _ => decompress_round g b more)) decompress_switch

def tagfilterNames (s : UInt64) : Option What :=
  if s = 0 then some .waiting else if s = 1 then some .decoding else if s = 2 then some .processing
  else if s = 3 then some .encoding else if s = 4 then some .sending else none

theorem tagfilter_switch : Switch tagfilterNames tagfilterWorkerLine := by
  intro m w hw
  generalize hs : m 0 .state = s at hw
  unfold tagfilterNames at hw
  unfold tagfilterWorkerLine
  rw [hs]
  split at hw
  · rename_i e; subst e; cases hw; exact ⟨_, rfl, rfl, fun n hn => (nomatch hn)⟩
  iterate 4
    split at hw
    · rename_i e; subst e; cases hw
      exact ⟨_, rfl, rfl, fun n hn => ⟨by decide, 1, by decide, Option.some.inj hn⟩⟩
  cases hw

theorem tagfilter_round (g : G) (b : In) (more : List Event) (hd : b.data = true ∨ (b.index = g.mem .block)) (h : Rest g)
    (hm : ∀ g', Rest g' → Ok tagfilterNames true g' more) : Ok tagfilterNames true g (tagfilterRound b ++ more) := by
  obtain ⟨h1, h2⟩ := h
  unfold tagfilterRound sendBlock
  cases hdat : b.data with
  | false =>
    have hd : b.index = g.mem .block := by
      rcases hd with hd | hd
      · rw [hdat] at hd; cases hd
      · exact hd
    simp [SetCurrentState, Ok, allowed, good, current, step, apply, h1, h2, tagfilterNames, hd]
    exact hm _ ⟨rfl, rfl⟩
  | true =>
    cases b.remains
    all_goals
      simp [SetBlock, SetCurrentState, Ok, allowed, good, current, step, apply, h1, h2, tagfilterNames]
      exact hm _ ⟨rfl, rfl⟩

/-- C79: workers of tagfilter; only for files of which no block but the first is a header. -/
theorem C79_tagfilter_worker_partial (bs : List In) (hh : ∀ b ∈ bs.head?, b.data = false → b.index = 0)
    (ht : ∀ b ∈ bs.tail, b.data = true) : Truthful (tagfilterWorker bs) tagfilterWorkerLine := by
  refine truthful rfl ?_ tagfilter_switch
  unfold tagfilterWorker
  cases bs with
  | nil => exact start_plain rfl fun g h => h.1
  | cons b bs =>
    refine ⟨⟨.inl rfl, fun _ h => absurd rfl h⟩, ?_⟩
    rw [List.flatMap_cons]
    refine tagfilter_round _ b _ ?_ ⟨rfl, rfl⟩ (rounds bs fun g b' more hb => tagfilter_round g b' more (.inl (ht b' hb)))
    cases hd : b.data with
    | true => exact .inl rfl
    | false => exact .inr (hh b rfl hd)

def rewriteNames (s : UInt64) : Option What :=
  if s = 0 then some .waiting else if s = 1 then some .decoding else if s = 2 then some .processing
  else if s = 3 then some .sending else none

theorem rewrite_switch : Switch rewriteNames rewriteWorkerLine := by
  intro m w hw
  generalize hs : m 0 .state = s at hw
  unfold rewriteNames at hw
  unfold rewriteWorkerLine
  rw [hs]
  split at hw
  · rename_i e; subst e; cases hw; exact ⟨_, rfl, rfl, fun n hn => (nomatch hn)⟩
  split at hw
  · rename_i e; subst e; cases hw
    exact ⟨_, rfl, rfl, fun n hn => ⟨by decide, 1, by decide, Option.some.inj hn⟩⟩
  split at hw
  · rename_i e; subst e; cases hw
    exact ⟨_, rfl, rfl, fun n hn => ⟨by decide, 3, by decide, Option.some.inj hn⟩⟩
  split at hw
  · rename_i e; subst e; cases hw
    exact ⟨_, rfl, rfl, fun n hn => ⟨by decide, 1, by decide, Option.some.inj hn⟩⟩
  cases hw

theorem ways_ok (b : In) (more : List Event) (hm : ∀ g, g.owed = false → g.mem .state = 2 → g.mem .block = b.index →
      g.recv = some b → Ok rewriteNames true g more) :
    ∀ (n : Nat) (g : G), (n = 0 → g.owed = false) → g.mem .state = 2 → g.mem .block = b.index → g.recv = some b →
    Ok rewriteNames true g ((List.replicate n (NextWay ++ [.act .processing (some b.index)])).flatten ++ more) := by
  intro n
  induction n with
  | zero => intro g h1 h2 h3 h4; exact hm g (h1 rfl) h2 h3 h4
  | succ n ih =>
    intro g _ h2 h3 h4
    rw [List.replicate_succ, List.flatten_cons, List.append_assoc]
    refine ⟨trivial, ⟨.inl ?_, fun _ _ => ⟨b, h4, rfl⟩⟩, ih _ (fun _ => rfl) h2 h3 h4⟩
    show rewriteNames (g.mem .state) = _
    rw [h2]; rfl

theorem rewrite_round (g : G) (b : In) (more : List Event) (h : Rest g) (hm : ∀ g', Rest g' → Ok rewriteNames true g' more) :
    Ok rewriteNames true g (rewriteRound b ++ more) := by
  obtain ⟨h1, h2⟩ := h
  unfold rewriteRound
  cases hd : b.data with
  | false =>
    simp [Ok, allowed, good, step, apply, h1, h2, rewriteNames]
    exact hm _ ⟨rfl, h2⟩
  | true =>
    by_cases hw : b.ways = 0
    · rw [if_pos hw]
      simp [SetBlock, SetCurrentState, Ok, allowed, good, current, step, apply, h1, h2, rewriteNames]
      exact hm _ ⟨rfl, rfl⟩
    · rw [if_neg hw]
      have := fun g' => ways_ok b (SetCurrentState 3 ++ [.act .sending (some b.index)] ++
        SetCurrentState 0 ++ [.act .waiting none] ++ more) (fun g'' e1 e2 e3 e4 => by
          simp [SetCurrentState, Ok, allowed, good, current, step, apply, e3, e4, e1, rewriteNames]
          exact hm _ ⟨rfl, rfl⟩) b.ways g'
      simp only [Bool.not_true, Bool.false_eq_true, if_false, List.append_assoc] at this ⊢
      simp only [SetBlock, SetStateWorking, List.cons_append, List.nil_append]
      refine ⟨⟨h1, fun _ => h2⟩, ⟨h1, fun _ => ⟨h2, b, rfl, rfl⟩⟩, ⟨fun ho => ?_, rfl, fun _ _ => ⟨b, rfl, rfl⟩⟩,
        ⟨.inl rfl, fun _ _ => ⟨b, rfl, rfl⟩⟩, rfl, rfl, ⟨fun ho => (nomatch ho), rfl, fun _ _ => ⟨b, rfl, rfl⟩⟩, ?_⟩
      · exact absurd (show g.owed = true from ho) (by rw [h1]; decide)
      · exact this _ (fun h => absurd h hw) rfl rfl rfl

/-- C79: workers of rewritenodes. -/
theorem C79_rewrite_worker (bs : List In) : Truthful (rewriteWorker bs) rewriteWorkerLine :=
  truthful rfl (start_plain rfl (rounds bs fun g b more _ => rewrite_round g b more)) rewrite_switch

/-! ## Writers -/

def writerNames (s : UInt64) : Option What :=
  if s = 0 then some .waiting else if s = 1 then some .writing else none

theorem writer_switch : Switch writerNames blockWriterLine := by
  intro m w hw
  generalize hs : m 0 .state = s at hw
  unfold writerNames at hw
  unfold blockWriterLine
  rw [hs]
  split at hw
  · rename_i e; subst e; cases hw; exact ⟨_, rfl, rfl, fun n hn => (nomatch hn)⟩
  split at hw
  · rename_i e; subst e; cases hw
    exact ⟨_, rfl, rfl, fun n hn => ⟨by decide, 1, by decide, Option.some.inj hn⟩⟩
  cases hw

theorem tagfilterWriter_switch : Switch writerNames tagfilterWriterLine := by
  intro m w hw
  generalize hs : m 0 .state = s at hw
  unfold writerNames at hw
  unfold tagfilterWriterLine
  rw [hs]
  iterate 2
    split at hw
    · rename_i e; subst e; cases hw; exact ⟨_, rfl, rfl, fun n hn => (nomatch hn)⟩
  cases hw

theorem write_round (g : G) (b : In) (more : List Event) (h : Rest g) (hm : ∀ g', Rest g' → Ok writerNames true g' more) :
    Ok writerNames true g ([.receive b] ++ SetBlock b.index ++ [.act .writing (some b.index)] ++ SetCurrentState 0 ++
      [.act .waiting none] ++ more) := by
  obtain ⟨h1, h2⟩ := h
  simp [SetBlock, SetCurrentState, Ok, allowed, good, current, step, apply, h1, h2, writerNames]
  exact hm _ ⟨rfl, rfl⟩

/-- C79: the writers of decompress, rewritenodes, relindex and tagfilter. -/
theorem C79_writers (bs : List In) : Truthful (decompressWriter bs) blockWriterLine ∧
    Truthful (rewriteWriter bs) blockWriterLine ∧ Truthful (relWriter bs) blockWriterLine ∧
    Truthful (tagfilterWriter bs) tagfilterWriterLine := by
  refine ⟨truthful rfl (start_set rfl (rounds bs fun g b more _ => write_round g b more)) writer_switch,
    truthful rfl (start_plain rfl (rounds bs fun g b more _ => write_round g b more)) writer_switch,
    truthful rfl (start_set rfl (rounds bs fun g b more _ h hm => ?_)) writer_switch,
    truthful rfl (start_plain rfl (rounds bs fun g b more _ h hm => ?_)) tagfilterWriter_switch⟩
  · unfold relWriteRound
    cases hd : b.data with
    | false =>
      simp [Ok, allowed, good, step, apply, h.1, h.2, writerNames]
      exact hm _ ⟨rfl, h.2⟩
    | true => exact write_round g b more h hm
  · unfold tagfilterWriteRound
    cases hd : b.data with
    | false =>
      simp [Ok, allowed, good, step, apply, h.1, h.2, writerNames]
      exact hm _ ⟨rfl, h.2⟩
    | true => exact write_round g b more h hm

/-! ## The writers of the indexers -/

def indexWriterNames (s : UInt64) : Option What :=
  if s = 0 then some .waiting else if s = 1 then some .writing else if s = 2 then some .writingLocations
  else if s = 3 then some .copying else if s = 4 then some .finalizing else none

theorem chunks_ok (rest : List Event) (hr : ∀ g, g.owed = false → g.mem .state = 3 → Ok indexWriterNames false g rest) :
    ∀ (chunks : List Nat) (g : G), g.owed = false → g.mem .state = 3 →
    Ok indexWriterNames false g (chunks.flatMap (fun n => [.add .copied (UInt64.ofNat n), .act .copying none]) ++ rest) := by
  intro chunks
  induction chunks with
  | nil => exact hr
  | cons n ns ih =>
    intro g h1 h2
    rw [List.flatMap_cons, List.append_assoc]
    refine ⟨trivial, ⟨.inl ?_, fun h => (nomatch h)⟩, ih _ rfl h2⟩
    show indexWriterNames (g.mem .state) = _
    rw [h2]; rfl

theorem copy_ok (total : UInt64) (chunks : List Nat) (g : G) (h : Rest g) :
    Ok indexWriterNames false g (copyEvents total chunks) := by
  obtain ⟨h1, _⟩ := h
  unfold copyEvents
  have := chunks_ok (SetCurrentState 4 ++ [.act .finalizing none]) (fun g' e1 _ => by
    simp [SetCurrentState, Ok, allowed, good, step, apply, e1, indexWriterNames]) chunks
  simp only [List.append_assoc] at this ⊢
  simp only [SetStateCopyLocations, List.cons_append, List.nil_append]
  refine ⟨h1, ⟨fun ho => ?_, rfl, fun h => (nomatch h)⟩, ⟨.inl rfl, fun h => (nomatch h)⟩, this _ rfl rfl⟩
  exact absurd (show g.owed = true from ho) (by rw [h1]; decide)

theorem indexWriter_ok (total : UInt64) (chunks : List Nat) (bs : List In) :
    Ok indexWriterNames false G.init (nodeWriter bs total chunks) ∧
    Ok indexWriterNames false G.init (wayWriter bs total chunks) := by
  constructor
  · unfold nodeWriter
    rw [List.append_assoc]
    refine start_set rfl (ok_loop bs (fun g b more _ h hm => ?_) (copy_ok total chunks))
    obtain ⟨h1, h2⟩ := h
    unfold nodeWriteRound
    cases hd : b.data with
    | false =>
      simp [Ok, allowed, good, step, apply, h1, h2, indexWriterNames]
      exact hm _ ⟨rfl, h2⟩
    | true =>
      simp [SetBlock, SetCurrentState, Ok, allowed, good, step, apply, h1, h2, indexWriterNames]
      exact hm _ ⟨rfl, rfl⟩
  · unfold wayWriter
    rw [List.append_assoc]
    refine start_set rfl (ok_loop bs (fun g b more _ h hm => ?_) (copy_ok total chunks))
    obtain ⟨h1, h2⟩ := h
    unfold wayWriteRound
    cases hd : b.data with
    | false =>
      simp [Ok, allowed, good, step, apply, h1, h2, indexWriterNames]
      exact hm _ ⟨rfl, h2⟩
    | true =>
      simp [SetBlock, SetCurrentState, Ok, allowed, good, step, apply, h1, h2, indexWriterNames]
      exact hm _ ⟨rfl, rfl⟩

theorem indexWriter_says {es : List Event} (h : Ok indexWriterNames false G.init es) (τ : Nat → Nat) :
    ∃ l, indexWriterLine (seen es τ) = some l ∧ ∃ i, Says es (τ 0) l.what i := by
  obtain ⟨w, i, h1, h2, _⟩ := says (names := indexWriterNames) rfl h (τ 0)
  rw [← seen_eq] at h1
  generalize hs : seen es τ 0 .state = s at h1
  unfold indexWriterNames at h1
  unfold indexWriterLine
  rw [hs]
  iterate 5
    split at h1
    · rename_i e; subst e; cases h1; exact ⟨_, rfl, i, h2⟩
  cases h1

/-- C79: what the writers of nodeindex and wayindex are said to do is true, too; but see `C79_index_writer_number`. -/
theorem C79_index_writers_partial (bs : List In) (total : UInt64) (chunks : List Nat) (τ : Nat → Nat) :
    (∃ l, indexWriterLine (seen (nodeWriter bs total chunks) τ) = some l ∧
      ∃ i, Says (nodeWriter bs total chunks) (τ 0) l.what i) ∧
    (∃ l, indexWriterLine (seen (wayWriter bs total chunks) τ) = some l ∧
      ∃ i, Says (wayWriter bs total chunks) (τ 0) l.what i) :=
  ⟨indexWriter_says (indexWriter_ok total chunks bs).1 τ, indexWriter_says (indexWriter_ok total chunks bs).2 τ⟩

/-- What is missing: the number shown is not that of the block; writing block 7, which has 2 ranges, "block 2" is shown. -/
theorem C79_index_writer_number : ∃ (bs : List In) (t : Nat) (l : Line),
    (∀ total chunks, indexWriterLine (seen (nodeWriter bs total chunks) fun _ => t) = some l ∧
      Near (nodeWriter bs total chunks) t .writing (some 7)) ∧ l.what = .writing ∧ l.block = some 2 :=
  ⟨[{ data := true, index := 7, entries := 2 }], 5, ⟨.writing, some 2, []⟩, fun _ _ => ⟨rfl, .inr rfl⟩, rfl, rfl⟩

/-- What is missing for tagfilter: a header which is not the first block is sent as "block 3", the block before. -/
theorem C79_tagfilter_header : ∃ (bs : List In) (t : Nat) (l : Line),
    tagfilterWorkerLine (seen (tagfilterWorker bs) fun _ => t) = some l ∧
    Near (tagfilterWorker bs) t .sending (some 4) ∧ l.what = .sending ∧ l.block = some 3 :=
  ⟨[{ data := true, index := 3 }, { data := false, index := 4 }], 15, ⟨.sending, some 3, [0, 0]⟩, rfl, .inr rfl, rfl, rfl⟩

/-! ## Counting -/

/-- The value of a variable, the blocks received, what is still to be added. -/
structure K where
  val : UInt64
  got : List In
  pend : Nat

def kstep (v : Var) (f : In → Nat) (g : K) : Event → K
  | .receive b => { g with got := g.got ++ [b], pend := f b }
  | .add u x => if u = v then { g with val := g.val + x, pend := 0 } else g
  | _ => g

theorem kstep_add (v : Var) (f : In → Nat) (g : K) (u : Var) (x : UInt64) :
    kstep v f g (.add u x) = if u = v then { g with val := g.val + x, pend := 0 } else g := rfl

def kallowed (v : Var) (g : K) : Event → Prop
  | .receive _ => g.pend = 0
  | .store u _ => u ≠ v
  | .add u x => u = v → x = UInt64.ofNat g.pend
  | _ => True

def KOk (v : Var) (f : In → Nat) : K → List Event → Prop
  | _, [] => True
  | g, e :: es => kallowed v g e ∧ KOk v f (kstep v f g e) es

def KInv (f : In → Nat) (g : K) : Prop :=
  g.val + UInt64.ofNat g.pend = UInt64.ofNat (g.got.map f).sum ∧ (g.pend = 0 ∨ ∃ pre b, g.got = pre ++ [b] ∧ g.pend = f b)

theorem kinv_step {v : Var} {f : In → Nat} {g : K} {e : Event} (hI : KInv f g) (h : kallowed v g e) :
    KInv f (kstep v f g e) := by
  obtain ⟨h1, h2⟩ := hI
  cases e with
  | receive b =>
    have h : g.pend = 0 := h
    rw [h] at h1
    refine ⟨?_, .inr ⟨g.got, b, rfl, rfl⟩⟩
    show g.val + UInt64.ofNat (f b) = UInt64.ofNat ((g.got ++ [b]).map f).sum
    rw [List.map_append, List.sum_append, UInt64.ofNat_add, ← h1]
    simp
  | store u x => exact ⟨h1, h2⟩
  | add u x =>
    rw [kstep_add]
    by_cases hu : u = v
    · rw [if_pos hu]
      refine ⟨?_, .inl rfl⟩
      show g.val + x + UInt64.ofNat 0 = _
      rw [h hu, h1]; simp
    · rw [if_neg hu]; exact ⟨h1, h2⟩
  | act w i => exact ⟨h1, h2⟩

theorem krun {v : Var} {f : In → Nat} {es : List Event} : ∀ {g : K} {m : Mem}, KInv f g → KOk v f g es → m v = g.val →
    ∀ t, ∃ g', KInv f g' ∧ g'.val = (es.take t).foldl apply m v ∧ g'.got = g.got ++ allReceived es t := by
  induction es with
  | nil => intro g m hI _ hm t; exact ⟨g, hI, by rw [List.take_nil]; exact hm.symm, by simp [allReceived]⟩
  | cons e es ih =>
    intro g m hI h hm t
    cases t with
    | zero => exact ⟨g, hI, hm.symm, by simp [allReceived]⟩
    | succ t =>
      obtain ⟨g', i1, i2, i3⟩ := ih (m := apply m e) (kinv_step hI h.1) h.2 (by
        cases e with
        | receive b => exact hm
        | store u x =>
          have hu : u ≠ v := h.1
          show (if v = u then x else m v) = g.val
          rw [if_neg (Ne.symm hu)]; exact hm
        | add u x =>
          show (if v = u then m u + x else m v) = _
          rw [kstep_add]
          by_cases hu : u = v
          · subst hu; rw [if_pos rfl, if_pos rfl, hm]
          · rw [if_neg (Ne.symm hu), if_neg hu, hm]
        | act w i => exact hm) t
      refine ⟨g', i1, i2, ?_⟩
      rw [i3]
      cases e with
      | receive b => simp [allReceived, kstep]
      | store u x => simp [allReceived, kstep]
      | add u x =>
        rw [kstep_add]
        split <;> simp [allReceived]
      | act w i => simp [allReceived, kstep]

theorem tallied {v : Var} {f : In → Nat} {es : List Event} (h : KOk v f ⟨0, [], 0⟩ es) (t : Nat) :
    Tallied f es t (after (es.take t) v) := by
  obtain ⟨g, ⟨i1, i2⟩, i3, i4⟩ := krun (m := fun _ => 0) (g := ⟨0, [], 0⟩) ⟨rfl, .inl rfl⟩ h rfl t
  have i4 : g.got = allReceived es t := by rw [i4]; simp
  have i3 : after (es.take t) v = g.val := i3.symm
  unfold Tallied
  rw [i3, ← i4]
  rcases i2 with h0 | ⟨pre, b, h1, h2⟩
  · left; rw [← i1, h0]; simp
  · right
    rw [h1, h2] at i1
    rw [h1, List.dropLast_concat]
    rw [List.map_append, List.sum_append, UInt64.ofNat_add] at i1
    simp only [List.map_cons, List.map_nil, List.sum_cons, List.sum_nil, Nat.add_zero] at i1
    exact (UInt64.add_left_inj _).1 i1

theorem kok_loop {v : Var} {f : In → Nat} {r : In → List Event}
    (hr : ∀ g b more, g.pend = 0 → (∀ g', g'.pend = 0 → KOk v f g' more) → KOk v f g (r b ++ more)) :
    ∀ (bs : List In) (g : K), g.pend = 0 → KOk v f g (bs.flatMap r) := by
  intro bs
  induction bs with
  | nil => intro g _; trivial
  | cons b bs ih => intro g h; rw [List.flatMap_cons]; exact hr g b _ h ih

theorem tagfilter_kept (bs : List In) : KOk .kept keptOf ⟨0, [], 0⟩ (tagfilterWorker bs) := by
  refine ⟨trivial, kok_loop (fun g b more h hm => ?_) bs _ rfl⟩
  unfold tagfilterRound sendBlock
  cases hd : b.data with
  | false =>
    simp [SetCurrentState, KOk, kallowed, kstep, h, keptOf, hd]
    exact hm _ rfl
  | true =>
    cases b.remains
    all_goals
      simp [SetBlock, SetCurrentState, KOk, kallowed, kstep, h, keptOf, hd]
      exact hm _ rfl

theorem tagfilter_dropped (bs : List In) : KOk .dropped droppedOf ⟨0, [], 0⟩ (tagfilterWorker bs) := by
  refine ⟨trivial, kok_loop (fun g b more h hm => ?_) bs _ rfl⟩
  unfold tagfilterRound sendBlock
  cases hd : b.data with
  | false =>
    simp [SetCurrentState, KOk, kallowed, kstep, h, droppedOf, hd]
    exact hm _ rfl
  | true =>
    cases b.remains
    all_goals
      simp [SetBlock, SetCurrentState, KOk, kallowed, kstep, h, droppedOf, hd]
      exact hm _ rfl

/-- C79: the two numbers shown for a worker of tagfilter are the nodes kept and the nodes dropped of all blocks it received
so far, perhaps without those of the one at hand. -/
theorem C79_tagfilter_numbers (bs : List In) (τ : Nat → Nat) (l : Line)
    (hl : tagfilterWorkerLine (seen (tagfilterWorker bs) τ) = some l) (hw : l.what ≠ .waiting) :
    ∃ kept dropped, l.numbers = [kept, dropped] ∧ Tallied keptOf (tagfilterWorker bs) (τ 2) kept ∧
      Tallied droppedOf (tagfilterWorker bs) (τ 3) dropped := by
  refine ⟨_, _, ?_, tallied (tagfilter_kept bs) (τ 2), tallied (tagfilter_dropped bs) (τ 3)⟩
  unfold tagfilterWorkerLine at hl
  split at hl
  · cases hl; exact absurd rfl hw
  all_goals (cases hl; try rfl)

/-- C79: and the number of blocks dropped shown for its writer is that of the blocks it received without anything left in
them, perhaps without the one at hand. -/
theorem C79_tagfilter_filler (bs : List In) (τ : Nat → Nat) (l : Line)
    (hl : tagfilterWriterLine (seen (tagfilterWriter bs) τ) = some l) :
    ∃ n m, l.numbers = [n, m] ∧ Tallied fillerOf (tagfilterWriter bs) (τ 1) n := by
  have hok : KOk .filler fillerOf ⟨0, [], 0⟩ (tagfilterWriter bs) := by
    refine ⟨trivial, kok_loop (fun g b more h hm => ?_) bs _ rfl⟩
    unfold tagfilterWriteRound
    cases hd : b.data with
    | false =>
      simp [KOk, kallowed, kstep, h, fillerOf, hd]
      exact hm _ rfl
    | true =>
      simp [SetBlock, SetCurrentState, KOk, kallowed, kstep, h, fillerOf, hd]
      exact hm _ rfl
  refine ⟨seen (tagfilterWriter bs) τ 1 .filler, seen (tagfilterWriter bs) τ 2 .block, ?_, tallied hok (τ 1)⟩
  unfold tagfilterWriterLine at hl
  split at hl <;> cases hl <;> rfl

/-- A worker that kept 3 and dropped 4 nodes of its first block and is decoding its second. -/
example : tagfilterWorkerLine (seen (tagfilterWorker [{ data := true, index := 0, kept := 3, dropped := 4 },
    { data := true, index := 1, kept := 5 }]) fun _ => 17) = some ⟨.decoding, some 1, [3, 4]⟩ := rfl

/-! ## Ways -/

def WRest (g : W) : Prop := g.mem .state = 0

theorem ways_wok (b : In) (more : List Event) (hm : ∀ g, g.recv = some b → WOk g more) :
    ∀ (n : Nat) (g : W), g.worked = true → g.pend = false → g.recv = some b → g.done + n = b.ways →
    WOk g ((List.replicate n (NextWay ++ [.act .processing (some b.index)])).flatten ++ more) := by
  intro n
  induction n with
  | zero => intro g _ _ h3 _; exact hm g h3
  | succ n ih =>
    intro g h1 h2 h3 h4
    rw [List.replicate_succ, List.flatten_cons, List.append_assoc]
    refine ⟨⟨rfl, h1, h2, b, h3, by omega⟩, rfl, ih _ h1 rfl h3 ?_⟩
    show g.done + 1 + n = b.ways
    omega

theorem rewrite_wround (g : W) (b : In) (more : List Event) (h : WRest g) (hm : ∀ g', WRest g' → WOk g' more) :
    WOk g (rewriteRound b ++ more) := by
  have h : g.mem .state = 0 := h
  have hne : g.mem .state ≠ 2 := by rw [h]; decide
  unfold rewriteRound
  cases hd : b.data with
  | false => exact ⟨hne, trivial, trivial, hm _ h⟩
  | true =>
    by_cases hw : b.ways = 0
    · rw [if_pos hw]
      simp [SetBlock, SetCurrentState, WOk, wallowed, hne]
      exact hm _ rfl
    · rw [if_neg hw]
      have := fun g' => ways_wok b (SetCurrentState 3 ++ [.act .sending (some b.index)] ++
        SetCurrentState 0 ++ [.act .waiting none] ++ more) (fun g'' _ => by
          simp [SetCurrentState, WOk, wallowed]
          exact hm _ rfl) b.ways g'
      simp only [Bool.not_true, Bool.false_eq_true, if_false, List.append_assoc] at this ⊢
      simp only [SetBlock, SetStateWorking, List.cons_append, List.nil_append]
      refine ⟨hne, trivial, fun h => absurd h (by decide), trivial, rfl, rfl, fun _ => ⟨rfl, rfl, b, rfl, rfl⟩, ?_⟩
      exact this _ rfl rfl rfl (Nat.zero_add _)

theorem rewrite_wok (bs : List In) : WOk W.init (rewriteWorker bs) :=
  ⟨trivial, wok_loop (P := WRest) bs rewrite_wround _ rfl⟩

/-- C79: unless the worker of rewritenodes received another block during the redraw, the number of ways shown is that of the
block shown, and the number of the way lies between the ways dealt with and one more, and not above the number of ways. -/
theorem C79_ways (bs : List In) (τ : Nat → Nat) (hτ : Ordered τ) (hu : Undisturbed (rewriteWorker bs) (τ 0) (τ 3))
    (l : Line) (hl : rewriteWorkerLine (seen (rewriteWorker bs) τ) = some l) (hp : l.what = .processing) :
    ∃ b at', received (rewriteWorker bs) (τ 0) = some b ∧ l.block = some b.index ∧
      l.numbers = [UInt64.ofNat at', UInt64.ofNat b.ways] ∧ at' ≤ b.ways ∧
      processed (rewriteWorker bs) (τ 1) ≤ at' ∧ at' ≤ processed (rewriteWorker bs) (τ 1) + 1 := by
  have mem_eq : ∀ k, seen (rewriteWorker bs) τ k = (wrun W.init ((rewriteWorker bs).take (τ k))).mem := by
    intro k; unfold seen after; rw [wrun_mem]; rfl
  have hI := winv_run winv_init (rewrite_wok bs)
  obtain ⟨l', h1, i, _, h3⟩ := C79_rewrite_worker bs τ hτ
  rw [hl] at h1; cases h1
  have hst : seen (rewriteWorker bs) τ 0 .state = 2 ∧ l = ⟨.processing,
      some (seen (rewriteWorker bs) τ 3 .block),
      [seen (rewriteWorker bs) τ 1 .way, seen (rewriteWorker bs) τ 2 .ways]⟩ := by
    unfold rewriteWorkerLine at hl
    split at hl
    · cases hl; cases hp
    · cases hl; cases hp
    · rename_i h
      exact ⟨UInt64.toNat_inj.1 h, (Option.some.inj hl).symm⟩
    · cases hl; cases hp
    · cases hl
  obtain ⟨hst, hle⟩ := hst
  subst hle
  rw [mem_eq] at hst
  have hw := (hI (τ 0)).state hst
  obtain ⟨b, r1, _⟩ := (hI (τ 0)).worked hw
  have at_k : ∀ k, k ≤ 3 → (wrun W.init ((rewriteWorker bs).take (τ k))).recv = some b ∧
      (wrun W.init ((rewriteWorker bs).take (τ k))).worked = true := by
    intro k hk
    have hle := hτ 0 k (Nat.zero_le _)
    have hle3 := hτ k 3 hk
    have := stays (es := rewriteWorker bs) (t1 := τ 0) (τ k - τ 0) fun t b h1 h2 => hu t b h1 (by omega)
    rw [show τ 0 + (τ k - τ 0) = τ k from by omega] at this
    exact ⟨by rw [this.1]; exact r1, this.2 hw⟩
  have hrec : received (rewriteWorker bs) (τ 0) = some b := by
    rw [← r1, wrun_recv]; rfl
  obtain ⟨b1, p1, p2, p3, p4⟩ := (hI (τ 1)).worked (at_k 1 (by decide)).2
  rw [(at_k 1 (by decide)).1] at p1; cases p1
  obtain ⟨b2, q1, q2, _⟩ := (hI (τ 2)).worked (at_k 2 (by decide)).2
  rw [(at_k 2 (by decide)).1] at q1; cases q1
  have hdone : (wrun W.init ((rewriteWorker bs).take (τ 1))).done = processed (rewriteWorker bs) (τ 1) := by
    rw [wrun_done]; rfl
  refine ⟨b, _, hrec, ?_, ?_, p4, ?_, ?_⟩
  · obtain ⟨_, t, b', t1, t2, t3, t4⟩ := h3 _ rfl
    have := stays (es := rewriteWorker bs) (t1 := τ 0) (t - τ 0) fun t b h1 h2 => hu t b h1 (by omega)
    rw [show τ 0 + (t - τ 0) = t from by omega] at this
    have h5 : (wrun W.init ((rewriteWorker bs).take t)).recv = received (rewriteWorker bs) t := by rw [wrun_recv]; rfl
    rw [← h5, this.1, r1] at t3
    cases t3
    dsimp only
    rw [t4]
  · dsimp only
    rw [mem_eq, mem_eq, p3, q2]
  · rw [hdone]; omega
  · rw [hdone]
    cases (wrun W.init ((rewriteWorker bs).take (τ 1))).pend <;> simp

/-- What is missing: if it did, the way of the one may be shown with the number of ways of the other; here "way 2/1". -/
theorem C79_ways_mixed : ∃ (bs : List In) (τ : Nat → Nat) (l : Line), Ordered τ ∧
    rewriteWorkerLine (seen (rewriteWorker bs) τ) = some l ∧ l.what = .processing ∧ l.numbers = [2, 1] := by
  refine ⟨[{ data := true, index := 0, ways := 2 }, { data := true, index := 1, ways := 1 }],
    fun k => if k = 0 then 10 else if k = 1 then 11 else 21, ⟨.processing, some 1, [2, 1]⟩, ?_, rfl, rfl, rfl⟩
  intro a b h
  dsimp only
  repeat' split
  all_goals omega

/-! ## Copying -/

theorem cok_append {T : UInt64} {a : List Event} : ∀ {g : C} {b : List Event},
    (∀ e ∈ a, match e with
      | .store .state s => s ≠ 3
      | .store .total _ => False
      | .store .copied _ => False
      | .add .state _ => False
      | .add .total _ => False
      | .add .copied _ => False
      | _ => True) →
    (∀ g', g'.sum = g.sum → COk T g' b) → COk T g (a ++ b) := by
  induction a with
  | nil => intro g b _ h; exact h g rfl
  | cons e es ih =>
    intro g b ha h
    have he := ha e List.mem_cons_self
    have hes : COk T (cstep g e) (es ++ b) := by
      refine ih (fun e' h' => ha e' (List.mem_cons_of_mem _ h')) fun g' hg' => h g' ?_
      rw [hg']
      cases e with
      | add v x => cases v <;> first | rfl | exact he.elim
      | _ => rfl
    refine ⟨?_, hes⟩
    cases e with
    | store v x =>
      cases v with
      | state => exact fun h => absurd h he
      | total => exact he.elim
      | copied => exact he.elim
      | _ => trivial
    | add v x =>
      cases v <;> first | trivial | exact he.elim
    | _ => trivial

theorem cok_chunks {T : UInt64} (rest : List Event) (hr : ∀ g, COk T g rest) : ∀ (chunks : List Nat) (g : C),
    g.sum + chunks.sum ≤ T.toNat →
    COk T g (chunks.flatMap (fun n => [.add .copied (UInt64.ofNat n), .act .copying none]) ++ rest) := by
  intro chunks
  induction chunks with
  | nil => intro g _; exact hr g
  | cons n ns ih =>
    intro g h
    rw [List.sum_cons] at h
    have hn : (UInt64.ofNat n).toNat = n := by
      rw [UInt64.toNat_ofNat', Nat.mod_eq_of_lt]
      have := UInt64.toNat_lt T
      omega
    rw [List.flatMap_cons, List.append_assoc]
    refine ⟨?_, trivial, ih _ ?_⟩
    · show g.sum + (UInt64.ofNat n).toNat ≤ T.toNat
      omega
    · show g.sum + (UInt64.ofNat n).toNat + ns.sum ≤ T.toNat
      omega

theorem cok_copy (T : UInt64) (chunks : List Nat) (h : chunks.sum ≤ T.toNat) (g : C) (hg : g.sum = 0) :
    COk T g (copyEvents T chunks) := by
  unfold copyEvents
  have hr : ∀ g' : C, COk T g' (SetCurrentState 4 ++ [.act .finalizing none]) := by
    intro g'
    exact ⟨fun h => absurd h (by decide), trivial, trivial⟩
  have := cok_chunks (T := T) (SetCurrentState 4 ++ [.act .finalizing none]) hr chunks
  simp only [List.append_assoc] at this ⊢
  simp only [SetStateCopyLocations, List.cons_append, List.nil_append]
  refine ⟨rfl, fun _ => rfl, trivial, this _ ?_⟩
  show g.sum + chunks.sum ≤ T.toNat
  omega

theorem cok_writers (T : UInt64) (bs : List In) (chunks : List Nat) (h : chunks.sum ≤ T.toNat) :
    COk T ⟨fun _ => 0, 0⟩ (nodeWriter bs T chunks) ∧ COk T ⟨fun _ => 0, 0⟩ (wayWriter bs T chunks) := by
  constructor
  · refine cok_append (fun e he => ?_) (fun g hg => cok_copy T chunks h g hg)
    simp only [List.mem_append, List.mem_flatMap] at he
    rcases he with he | ⟨b, _, he⟩
    · simp [SetCurrentState] at he
      rcases he with rfl | rfl
      · decide
      · trivial
    · unfold nodeWriteRound at he
      split at he
      · simp at he
        rcases he with rfl | rfl <;> trivial
      · simp [SetBlock, SetCurrentState] at he
        rcases he with rfl | rfl | rfl | rfl | rfl | rfl | rfl | rfl
        all_goals first | trivial | decide
  · refine cok_append (fun e he => ?_) (fun g hg => cok_copy T chunks h g hg)
    simp only [List.mem_append, List.mem_flatMap] at he
    rcases he with he | ⟨b, _, he⟩
    · simp [SetCurrentState] at he
      rcases he with rfl | rfl
      · decide
      · trivial
    · unfold wayWriteRound at he
      split at he
      · simp at he
        rcases he with rfl | rfl <;> trivial
      · simp [SetBlock, SetCurrentState] at he
        rcases he with rfl | rfl | rfl | rfl | rfl | rfl
        all_goals first | trivial | decide

theorem copying {es : List Event} {T : UInt64} (h : COk T ⟨fun _ => 0, 0⟩ es) (τ : Nat → Nat) (hτ : Ordered τ) (l : Line)
    (hl : indexWriterLine (seen es τ) = some l) (hp : l.what = .copying) :
    ∃ n, l.numbers = [n, T] ∧ n ≤ T := by
  have mem_eq : ∀ k, seen es τ k = (crun ⟨fun _ => 0, 0⟩ (es.take (τ k))).mem := by
    intro k; unfold seen after; rw [crun_mem]
  have hst : seen es τ 0 .state = 3 ∧ l.numbers = [seen es τ 1 .copied, seen es τ 2 .total] := by
    unfold indexWriterLine at hl
    split at hl
    · cases hl; cases hp
    · cases hl; cases hp
    · cases hl; cases hp
    · rename_i h
      cases hl
      exact ⟨UInt64.toNat_inj.1 h, rfl⟩
    · cases hl; cases hp
    · cases hl
  obtain ⟨hst, hn⟩ := hst
  rw [mem_eq] at hst
  obtain ⟨i0, o0⟩ := cinv_run (cinv_init T) h (τ 0)
  have hT := total_stays i0 o0 (i0.state hst) (τ 2 - τ 0)
  have htake : crun (crun ⟨fun _ => 0, 0⟩ (es.take (τ 0))) ((es.drop (τ 0)).take (τ 2 - τ 0)) =
      crun ⟨fun _ => 0, 0⟩ (es.take (τ 2)) := by
    have hle := hτ 0 2 (by decide)
    unfold crun
    rw [← List.foldl_append]
    congr 1
    rw [show τ 2 = τ 0 + (τ 2 - τ 0) from by omega, List.take_add]
    congr 2
    omega
  rw [htake] at hT
  obtain ⟨i1, _⟩ := cinv_run (cinv_init T) h (τ 1)
  rw [mem_eq, mem_eq, hT, i1.copied] at hn
  refine ⟨_, hn, ?_⟩
  rw [UInt64.le_iff_toNat_le, UInt64.toNat_ofNat', Nat.mod_eq_of_lt (Nat.lt_of_le_of_lt i1.sum (UInt64.toNat_lt T))]
  exact i1.sum

/-- What an event does not do, while nothing is copied yet. -/
def noCopy : Event → Bool
  | .store .copied _ => false
  | .add .copied _ => false
  | .act .copying _ => false
  | _ => true

theorem noCopy_apply {e : Event} (h : noCopy e = true) (m : Mem) : apply m e .copied = m .copied := by
  cases e with
  | store v x => cases v <;> first | rfl | cases h
  | add v x => cases v <;> first | rfl | cases h
  | _ => rfl

theorem noCopy_take : ∀ (A : List Event), (∀ e ∈ A, noCopy e = true) → ∀ (m : Mem) (t : Nat),
    (A.take t).foldl apply m .copied = m .copied ∧ (A.take t).count (.act .copying none) = 0 := by
  intro A hA m t
  constructor
  · induction A generalizing m t with
    | nil => rw [List.take_nil]; rfl
    | cons e es ih =>
      cases t with
      | zero => rfl
      | succ t =>
        rw [List.take_succ_cons, List.foldl_cons, ih (fun e h => hA e (List.mem_cons_of_mem _ h)),
          noCopy_apply (hA e List.mem_cons_self)]
  · rw [List.count_eq_zero]
    intro h
    have := hA _ (List.mem_of_mem_take h)
    cases this

theorem chunks_take (F : List Event) (hF : ∀ e ∈ F, noCopy e = true) : ∀ (chunks : List Nat) (m : Mem) (t : Nat),
    ∃ k, k ≤ chunks.length ∧
      (k = (((chunks.flatMap (fun n => [Event.add .copied (UInt64.ofNat n), .act .copying none]) ++ F).take t).count
        (.act .copying none)) ∨
       k = (((chunks.flatMap (fun n => [Event.add .copied (UInt64.ofNat n), .act .copying none]) ++ F).take t).count
        (.act .copying none)) + 1) ∧
      ((chunks.flatMap (fun n => [Event.add .copied (UInt64.ofNat n), .act .copying none]) ++ F).take t).foldl apply m .copied =
        m .copied + UInt64.ofNat (chunks.take k).sum := by
  intro chunks
  induction chunks with
  | nil =>
    intro m t
    obtain ⟨h1, h2⟩ := noCopy_take F hF m t
    exact ⟨0, Nat.le_refl _, .inl h2.symm, by simpa using h1⟩
  | cons n ns ih =>
    intro m t
    match t with
    | 0 => exact ⟨0, Nat.zero_le _, .inl rfl, by simp⟩
    | 1 =>
      refine ⟨1, by simp, .inr rfl, ?_⟩
      show m .copied + UInt64.ofNat n = _
      simp
    | t + 2 =>
      obtain ⟨k, h1, h2, h3⟩ := ih (apply (apply m (.add .copied (UInt64.ofNat n))) (.act .copying none)) t
      refine ⟨k + 1, by simpa using h1, ?_, ?_⟩
      · simp only [List.flatMap_cons, List.cons_append, List.nil_append, List.take_succ_cons, List.count_cons]
        rcases h2 with h2 | h2
        · exact .inl (by simp [h2])
        · exact .inr (by simp [h2])
      · simp only [List.flatMap_cons, List.cons_append, List.nil_append, List.take_succ_cons, List.foldl_cons]
        rw [h3, List.sum_cons, UInt64.ofNat_add]
        show m .copied + UInt64.ofNat n + _ = _
        rw [UInt64.add_assoc]

theorem copied_exact {A : List Event} (hA : ∀ e ∈ A, noCopy e = true) (T : UInt64) (chunks : List Nat)
    (h : chunks.sum ≤ T.toNat) (t : Nat) :
    Copied (A ++ copyEvents T chunks) chunks t (after ((A ++ copyEvents T chunks).take t) .copied).toNat := by
  have hform : A ++ copyEvents T chunks = (A ++ SetStateCopyLocations T) ++ (.act .copying none ::
      (chunks.flatMap (fun n => [Event.add .copied (UInt64.ofNat n), .act .copying none]) ++
        (SetCurrentState 4 ++ [.act .finalizing none]))) := by
    unfold copyEvents
    simp only [List.append_assoc, List.cons_append, List.nil_append]
  have hB : ∀ e ∈ A ++ SetStateCopyLocations T, noCopy e = true := by
    intro e he
    rcases List.mem_append.1 he with he | he
    · exact hA e he
    · simp [SetStateCopyLocations] at he
      rcases he with rfl | rfl <;> rfl
  have hF : ∀ e ∈ SetCurrentState 4 ++ [Event.act .finalizing none], noCopy e = true := by
    intro e he
    simp [SetCurrentState] at he
    rcases he with rfl | rfl <;> rfl
  unfold Copied pieces after
  rw [hform]
  generalize A ++ SetStateCopyLocations T = B at hB
  have hsum : ∀ k, (UInt64.ofNat (chunks.take k).sum).toNat = (chunks.take k).sum := by
    intro k
    rw [UInt64.toNat_ofNat', Nat.mod_eq_of_lt]
    have h1 : (chunks.take k).sum + (chunks.drop k).sum = chunks.sum := by
      rw [← List.sum_append, List.take_append_drop]
    have := UInt64.toNat_lt T
    omega
  rw [List.take_append]
  obtain ⟨b1, b2⟩ := noCopy_take B hB (fun _ => 0) t
  rw [List.foldl_append, List.count_append, b2, Nat.zero_add]
  cases ht : t - B.length with
  | zero =>
    refine ⟨0, Nat.zero_le _, .inl rfl, ?_⟩
    show (List.foldl apply (fun _ => 0) (B.take t) .copied).toNat = _
    rw [b1]
    rfl
  | succ u =>
    obtain ⟨k, h1, h2, h3⟩ := chunks_take _ hF chunks (apply ((B.take t).foldl apply fun _ => 0) (.act .copying none)) u
    refine ⟨k, h1, ?_, ?_⟩
    · rw [List.take_succ_cons, List.count_cons]
      simp only [beq_self_eq_true, if_true]
      omega
    · rw [List.take_succ_cons, List.foldl_cons, h3]
      show (List.foldl apply (fun _ => 0) (B.take t) .copied + _).toNat = _
      rw [b1, UInt64.zero_add, hsum]

theorem noCopy_writers (bs : List In) :
    (∀ e ∈ SetCurrentState 0 ++ [.act .waiting none] ++ bs.flatMap nodeWriteRound, noCopy e = true) ∧
    (∀ e ∈ SetCurrentState 0 ++ [.act .waiting none] ++ bs.flatMap wayWriteRound, noCopy e = true) := by
  constructor
  · intro e he
    simp only [List.mem_append, List.mem_flatMap] at he
    rcases he with he | ⟨b, _, he⟩
    · simp [SetCurrentState] at he
      rcases he with rfl | rfl <;> rfl
    · unfold nodeWriteRound at he
      split at he
      · simp at he
        rcases he with rfl | rfl <;> rfl
      · simp [SetBlock, SetCurrentState] at he
        rcases he with rfl | rfl | rfl | rfl | rfl | rfl | rfl | rfl <;> rfl
  · intro e he
    simp only [List.mem_append, List.mem_flatMap] at he
    rcases he with he | ⟨b, _, he⟩
    · simp [SetCurrentState] at he
      rcases he with rfl | rfl <;> rfl
    · unfold wayWriteRound at he
      split at he
      · simp at he
        rcases he with rfl | rfl <;> rfl
      · simp [SetBlock, SetCurrentState] at he
        rcases he with rfl | rfl | rfl | rfl | rfl | rfl <;> rfl

/-- C79: while the locations are copied the total shown is the right one, and the amount shown does not exceed it and is what was
copied at the moment when it was looked at, however the file is read. -/
theorem C79_copying (T : UInt64) (bs : List In) (chunks : List Nat) (h : chunks.sum ≤ T.toNat) (es : List Event)
    (he : es = nodeWriter bs T chunks ∨ es = wayWriter bs T chunks) (τ : Nat → Nat) (hτ : Ordered τ) (l : Line)
    (hp : l.what = .copying) (hl : indexWriterLine (seen es τ) = some l) :
    ∃ n, l.numbers = [n, T] ∧ n ≤ T ∧ Copied es chunks (τ 1) n.toNat := by
  have hn : l.numbers = [seen es τ 1 .copied, seen es τ 2 .total] := by
    unfold indexWriterLine at hl
    split at hl <;> cases hl <;> first | (cases hp; done) | rfl
  have hex : Copied es chunks (τ 1) (seen es τ 1 .copied).toNat := by
    rcases he with rfl | rfl
    · exact copied_exact (noCopy_writers bs).1 T chunks h _
    · exact copied_exact (noCopy_writers bs).2 T chunks h _
  have hok : COk T ⟨fun _ => 0, 0⟩ es := by
    rcases he with rfl | rfl
    · exact (cok_writers T bs chunks h).1
    · exact (cok_writers T bs chunks h).2
  obtain ⟨n, h1, h2⟩ := copying hok τ hτ l hl hp
  refine ⟨n, h1, h2, ?_⟩
  rw [hn] at h1
  simp only [List.cons.injEq, and_true] at h1
  rw [← h1.1]
  exact hex

/-- C79: the total is the size of the file that is copied (for nodeindex). -/
theorem C79_copy_total (blocks : List (Option T.PrimitiveBlock)) (h : Indexable blocks) (bs : List (Option NodeIndexer.ElementBatch))
    (hw : mapRes NodeIndexer.work blocks = .ok bs) :
    (nodeTotal bs).toNat = 8 * locationCount bs := by
  obtain ⟨bs', g1, g2, g3⟩ := NodeIndexer.work_layout blocks h
  rw [hw] at g1; cases g1
  obtain ⟨S, s1, s2, _⟩ := g2.slots
  have hlen : (NodeIndexer.allLocs bs).length = NodeIndexer.slotTotal (NodeIndexer.allRanges bs) := by
    rw [← s2, List.length_map, ← NodeIndexer.flatMap_idsOf_length, ← s1, List.length_map]
  have hcount : locationCount bs = (NodeIndexer.allLocs bs).length := by
    unfold locationCount NodeIndexer.allLocs
    rw [List.length_flatMap]
    congr 1
    apply List.map_congr_left
    rintro (_ | b) _ <;> rfl
  have hsmall : NodeIndexer.slotTotal (NodeIndexer.allRanges bs) ≤ 2 ^ 40 := by
    have h1 := g2.size
    have h2 : (NodeIndexer.nodeSlots blocks).length ≤ 2 ^ 39 := by
      have := h.total
      unfold NodeIndexer.nodeSlots
      simpa using this
    omega
  have hne := g2.nonempty
  have hfold : ∀ (rs : List NodeIndexer.IndexRange) (k : Nat), (∀ r ∈ rs, r.first.toNat ≤ r.last.toNat) →
      rs.foldl (fun (last : UInt64) (r : NodeIndexer.IndexRange) => last + (r.last - r.first + 1)) (UInt64.ofNat k) =
        UInt64.ofNat (k + NodeIndexer.slotTotal rs) := by
    intro rs
    induction rs with
    | nil => intro k _; rfl
    | cons r rs ih =>
      intro k hr
      rw [List.foldl_cons]
      have h1 := hr r List.mem_cons_self
      have e1 : UInt64.ofNat k + (r.last - r.first + 1) = UInt64.ofNat (k + NodeIndexer.cnt r) := by
        have : r.last - r.first + 1 = UInt64.ofNat (NodeIndexer.cnt r) := by
          apply UInt64.toNat_inj.1
          unfold NodeIndexer.cnt
          rw [UInt64.toNat_add, UInt64.toNat_sub_of_le _ _ (UInt64.le_iff_toNat_le.2 h1), UInt64.toNat_ofNat']
          show (_ + 1) % 2 ^ 64 = _
          congr 1
          omega
        rw [this, UInt64.ofNat_add]
      rw [e1, ih _ fun r' h' => hr r' (List.mem_cons_of_mem _ h')]
      congr 1
      unfold NodeIndexer.slotTotal
      rw [List.map_cons, List.sum_cons]
      omega
  rw [hcount, hlen]
  have := hfold (NodeIndexer.allRanges bs) 0 hne
  have e2 : nodeTotal bs = 8 * UInt64.ofNat (0 + NodeIndexer.slotTotal (NodeIndexer.allRanges bs)) := by
    rw [← this]; rfl
  rw [e2, UInt64.toNat_mul, UInt64.toNat_ofNat', Nat.zero_add]
  show 8 * _ % 2 ^ 64 = _
  omega

theorem wayLength_ok (shift : Int64) (h : 0 ≤ shift.toInt) (wss : List (List T.Way)) : ∀ (len : Nat),
    Display.wayLength shift (Int64.ofNat len) (wss.map (WayIndexer.elementOf shift)) =
      .ok (Int64.ofNat (len + waysBlocks shift wss.flatten)) ∧
    wayBytes (wss.map (WayIndexer.elementOf shift)) = waysBlocks shift wss.flatten * 2 ^ shift.toInt.toNat := by
  induction wss with
  | nil => intro len; exact ⟨rfl, by simp [wayBytes, waysBlocks]⟩
  | cons ws wss ih =>
    intro len
    rw [List.map_cons, List.flatten_cons, WayIndexer.waysBlocks_append]
    by_cases hws : ws = []
    · subst hws
      obtain ⟨h1, h2⟩ := ih len
      have e : waysBlocks shift [] = 0 := rfl
      rw [e, Nat.zero_add]
      refine ⟨h1, ?_⟩
      rw [← h2]
      simp [wayBytes, WayIndexer.elementOf]
    · have : WayIndexer.elementOf shift ws = some ⟨WayIndexer.entries shift 0 ws, WayIndexer.locData shift ws⟩ := if_neg hws
      rw [this]
      obtain ⟨h1, h2⟩ := ih (len + waysBlocks shift ws)
      constructor
      · unfold Display.wayLength
        rw [WayIndexer.lenShr_ok shift _ (waysBlocks shift ws) h (WayIndexer.locData_length shift ws)]
        simp only [Res.ok_bind]
        rw [← Int64.ofNat_add, h1, Nat.add_assoc]
      · have e : wayBytes (some ⟨WayIndexer.entries shift 0 ws, WayIndexer.locData shift ws⟩ ::
            wss.map (WayIndexer.elementOf shift)) = (WayIndexer.locData shift ws).length +
              wayBytes (wss.map (WayIndexer.elementOf shift)) := by
          simp [wayBytes]
        rw [e, h2, WayIndexer.locData_length, Nat.add_mul]

/-- C79: the total is the size of the file that is copied (for wayindex). -/
theorem C79_copy_total_ways (shift : Int64) (blocks : List (Option T.PrimitiveBlock)) (h : WaysIndexable shift (allWays blocks))
    (es : List (Option WayIndexer.IndexElement)) (hw : WayIndexer.workAll shift blocks = .ok es) :
    ∃ t, wayTotal shift es = .ok t ∧ t.toNat = wayBytes es := by
  rw [WayIndexer.workAll_ok shift blocks h] at hw
  cases hw
  obtain ⟨h1, h2⟩ := wayLength_ok shift h.range.1 (blocks.map WayIndexer.waysOf) 0
  have hm := h.memory
  have hs := h.space
  rw [WayIndexer.allWays_eq] at hm hs
  rw [Nat.zero_add] at h1
  generalize waysBlocks shift (blocks.map WayIndexer.waysOf).flatten = n at *
  obtain ⟨o, g1, g2⟩ := WayIndex.goShl_eq (Int64.ofNat n) shift n (Int64.toInt_ofNat_of_lt (by omega)) h.range.1
    (by have := h.range.2; omega) (by omega)
  refine ⟨o.toUInt64, ?_, ?_⟩
  · unfold wayTotal
    rw [show (0 : Int64) = Int64.ofNat 0 from rfl, h1]
    simp only [Res.ok_bind]
    rw [g1]
    rfl
  · rw [h2]
    have e : o.toUInt64.toNat = o.toBitVec.toNat := rfl
    have e2 : o.toInt = o.toBitVec.toInt := rfl
    rw [e2, BitVec.toInt_eq_toNat_cond] at g2
    rw [e]
    have := o.toBitVec.isLt
    split at g2 <;> omega

/-! ## Examples -/

/-- Blocks with three ways are within the range of the last theorem. -/
example : WaysIndexable 3 (allWays exampleWayInput) ∧ ∃ es t, WayIndexer.workAll 3 exampleWayInput = .ok es ∧
    wayTotal 3 es = .ok t ∧ 0 < t.toNat := by
  have h : WaysIndexable 3 (allWays exampleWayInput) :=
    ⟨by decide, by decide +kernel, by decide +kernel, by decide +kernel, by decide +kernel⟩
  obtain ⟨t, h1, h2⟩ := C79_copy_total_ways 3 exampleWayInput h _ (WayIndexer.workAll_ok 3 exampleWayInput h)
  refine ⟨h, _, t, WayIndexer.workAll_ok 3 exampleWayInput h, h1, ?_⟩
  rw [h2]
  decide +kernel

/-- A header and two blocks, the second with two ways. -/
def someBlocks : List In :=
  [{ data := false, index := 0 }, { data := true, index := 2, entries := 1 }, { data := true, index := 5, ways := 2, entries := 3 }]

/-- A redraw in the middle of the first of the two ways, during which the second is begun. -/
example : ∃ τ, Ordered τ ∧ Undisturbed (rewriteWorker someBlocks) (τ 0) (τ 3) ∧
    rewriteWorkerLine (seen (rewriteWorker someBlocks) τ) = some ⟨.processing, some 5, [1, 2]⟩ ∧
    processed (rewriteWorker someBlocks) (τ 1) = 1 := by
  refine ⟨fun k => if k ≤ 1 then 21 else 22, ?_, ?_, rfl, rfl⟩
  · intro a b h
    dsimp only
    split <;> split <;> omega
  · intro t b h1 h2 h3
    have : t = 21 := by
      simp at h1 h2
      omega
    subst this
    have h4 : (rewriteWorker someBlocks)[21]? = some (.add .way 1) := rfl
    rw [h4] at h3
    cases h3

/-- While the copying is going on: 7 bytes of 10. -/
example : ∃ τ, Ordered τ ∧ [7, 3].sum ≤ (10 : UInt64).toNat ∧
    indexWriterLine (seen (nodeWriter someBlocks 10 [7, 3]) τ) = some ⟨.copying, none, [7, 10]⟩ ∧
    Copied (nodeWriter someBlocks 10 [7, 3]) [7, 3] (τ 1) 7 ∧ ¬ Copied (nodeWriter someBlocks 10 [7, 3]) [7, 3] (τ 1) 3 := by
  refine ⟨fun _ => 25, fun _ _ _ => Nat.le_refl _, by decide, rfl, ⟨1, by decide, .inl rfl, rfl⟩, ?_⟩
  rintro ⟨k, h1, h2, h3⟩
  match k with
  | 0 => cases h3
  | 1 => cases h3
  | 2 => cases h3
  | k + 3 => simp at h1

/-- Blocks as tagfilter expects them, and a redraw during which the worker goes on to the next block. -/
example : (∀ b ∈ someBlocks.head?, b.data = false → b.index = 0) ∧ (∀ b ∈ someBlocks.tail, b.data = true) ∧
    ∃ τ, Ordered τ ∧ tagfilterWorkerLine (seen (tagfilterWorker someBlocks) τ) = some ⟨.sending, some 5, [0, 0]⟩ ∧
      Near (tagfilterWorker someBlocks) (τ 0) .sending (some 2) := by
  refine ⟨by decide, by decide, fun k => if k = 0 then 15 else 20, ?_, rfl, .inr rfl⟩
  intro a b h
  dsimp only
  split <;> split <;> omega

end Osm.Props
