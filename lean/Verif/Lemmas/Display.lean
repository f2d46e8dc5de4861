import Verif.Spec.Display

/-! # Lemmas for C79 and C80: a discipline for announcing what is done, and what it is good for -/

namespace Osm.Display
open Osm Osm.Spec

/-- What is known after some steps. -/
structure G where
  mem : Mem
  recv : Option In
  last : Option (What × Option UInt64)
  /-- The state was set, nothing was done since. -/
  owed : Bool

def G.init : G := ⟨fun _ => 0, none, none, true⟩

def step (g : G) (e : Event) : G where
  mem := apply g.mem e
  recv := match e with
    | .receive b => some b
    | _ => g.recv
  last := match e with
    | .act w i => some (w, i)
    | _ => g.last
  owed := match e with
    | .store .state _ => true
    | .act _ _ => false
    | _ => g.owed

def run (g : G) (es : List Event) : G := es.foldl step g

/-- What is announced is what is done. -/
def good (names : UInt64 → Option What) (blk : Bool) (g : G) (w : What) (i : Option UInt64) : Prop :=
  (names (g.mem .state) = some w ∨ (w = .passing ∧ names (g.mem .state) = some .waiting)) ∧
  (blk = true → g.mem .state ≠ 0 → ∃ b, g.recv = some b ∧ i = some b.index)

/-- The block announced is the block received. -/
def current (g : G) : Prop := ∃ b, g.recv = some b ∧ b.index = g.mem .block

def allowed (names : UInt64 → Option What) (blk : Bool) (g : G) : Event → Prop
  | .receive _ => g.owed = false ∧ (blk = true → g.mem .state = 0)
  | .store .state s => (g.owed = true → s = g.mem .state) ∧ (names s).isSome ∧ (blk = true → s ≠ 0 → current g)
  | .store .block x => g.owed = false ∧ (blk = true → g.mem .state = 0 ∧ ∃ b, g.recv = some b ∧ b.index = x)
  | .store _ _ => g.owed = false
  | .add .state _ => False
  | .add .block _ => False
  | .add _ _ => True
  | .act w i => good names blk g w i

def Ok (names : UInt64 → Option What) (blk : Bool) : G → List Event → Prop
  | g, [] => g.owed = false
  | g, e :: es => allowed names blk g e ∧ Ok names blk (step g e) es

variable {names : UInt64 → Option What} {blk : Bool}

theorem run_append (g : G) (a b : List Event) : run g (a ++ b) = run (run g a) b := by
  unfold run; rw [List.foldl_append]

theorem run_snoc (g : G) (a : List Event) (e : Event) : run g (a ++ [e]) = step (run g a) e := by
  rw [run_append]; rfl

theorem run_mem (es : List Event) : ∀ g, (run g es).mem = es.foldl apply g.mem := by
  induction es with
  | nil => intro g; rfl
  | cons e es ih => intro g; exact ih (step g e)

theorem run_recv (es : List Event) : ∀ g, (run g es).recv = es.foldl (fun r e => match e with
    | .receive b => some b
    | _ => r) g.recv := by
  induction es with
  | nil => intro g; rfl
  | cons e es ih =>
    intro g
    have := ih (step g e)
    cases e <;> exact this

theorem run_last (es : List Event) : ∀ g, (run g es).last = (es.reverse.findSome? doing).or g.last := by
  induction es with
  | nil => intro g; rfl
  | cons e es ih =>
    intro g
    have := ih (step g e)
    rw [show run g (e :: es) = run (step g e) es from rfl, this, List.reverse_cons, List.findSome?_append]
    cases h : es.reverse.findSome? doing with
    | some x => rfl
    | none => cases e <;> rfl

theorem run_ok {g : G} {a b : List Event} : Ok names blk g (a ++ b) → Ok names blk (run g a) b := by
  induction a generalizing g with
  | nil => exact id
  | cons e es ih => intro h; exact ih h.2

/-- At all times. -/
structure Inv (names : UInt64 → Option What) (blk : Bool) (g : G) : Prop where
  named : (names (g.mem .state)).isSome
  last : g.owed = false → ∃ w i, g.last = some (w, i) ∧ good names blk g w i
  block : blk = true → g.mem .state ≠ 0 → current g

theorem inv_step {g : G} {e : Event} (hI : Inv names blk g) (h : allowed names blk g e) : Inv names blk (step g e) := by
  cases e with
  | receive b =>
    obtain ⟨h1, h2⟩ := h
    obtain ⟨w, i, hl, hg⟩ := hI.last h1
    exact ⟨hI.named, fun _ => ⟨w, i, hl, hg.1, fun hb hs => absurd (h2 hb) hs⟩, fun hb hs => absurd (h2 hb) hs⟩
  | store v x =>
    cases v with
    | state => exact ⟨h.2.1, fun ho => (nomatch ho), fun hb hs => h.2.2 hb hs⟩
    | block =>
      obtain ⟨h1, h2⟩ := h
      exact ⟨hI.named, fun ho => hI.last ho, fun hb hs => absurd (h2 hb).1 hs⟩
    | _ => exact ⟨hI.named, fun ho => hI.last ho, fun hb hs => hI.block hb hs⟩
  | add v x =>
    cases v with
    | state => exact h.elim
    | block => exact h.elim
    | _ => exact ⟨hI.named, fun ho => hI.last ho, fun hb hs => hI.block hb hs⟩
  | act w i => exact ⟨hI.named, fun _ => ⟨w, i, rfl, h⟩, hI.block⟩

theorem inv_run {es : List Event} : ∀ {g : G}, Inv names blk g → Ok names blk g es → ∀ t, Inv names blk (run g (es.take t)) := by
  induction es with
  | nil => intro g hI _ t; rw [List.take_nil]; exact hI
  | cons e es ih =>
    intro g hI h t
    cases t with
    | zero => exact hI
    | succ t => exact ih (inv_step hI h.1) h.2 t

theorem inv_init (h0 : names 0 = some .waiting) : Inv names blk G.init :=
  ⟨by show (names 0).isSome; rw [h0]; rfl, fun h => (nomatch h), fun _ h => absurd rfl h⟩

/-- If something is owed then it is done next. -/
theorem owed_next {es : List Event} : ∀ {g : G}, Ok names blk g es → g.owed = true →
    ∃ w i, es.findSome? doing = some (w, i) ∧ good names blk g w i := by
  induction es with
  | nil =>
    intro g h ho
    have : g.owed = false := h
    rw [this] at ho; cases ho
  | cons e es ih =>
    intro g h ho
    have fls : ∀ {p : Prop}, g.owed = false → p := fun hf => by rw [hf] at ho; cases ho
    cases e with
    | receive b => exact fls h.1.1
    | store v x =>
      cases v with
      | state =>
        obtain ⟨w, i, h1, h2⟩ := ih h.2 rfl
        refine ⟨w, i, h1, ?_⟩
        have hx : x = g.mem .state := h.1.1 ho
        have e1 : (step g (.store .state x)).mem .state = g.mem .state := hx
        unfold good at h2
        rw [e1] at h2
        exact h2
      | block => exact fls h.1.1
      | _ => exact fls h.1
    | add v x =>
      cases v with
      | state => exact h.1.elim
      | block => exact h.1.elim
      | _ => exact @ih (step g _) h.2 ho
    | act w i => exact ⟨w, i, rfl, h.1⟩

theorem received_eq (es : List Event) (t : Nat) : (run G.init (es.take t)).recv = received es t := run_recv _ _

theorem seen_eq (es : List Event) (τ : Nat → Nat) (k : Nat) : seen es τ k = (run G.init (es.take (τ k))).mem := by
  unfold seen after; rw [run_mem]; rfl

/-- What is announced is what is done, at all times. -/
theorem says {es : List Event} (h0 : names 0 = some .waiting) (h : Ok names blk G.init es) (t : Nat) :
    ∃ w i, names ((run G.init (es.take t)).mem .state) = some w ∧ Says es t w i ∧
      (blk = true → (run G.init (es.take t)).mem .state ≠ 0 → ∃ b, received es t = some b ∧ i = some b.index) := by
  have key : ∀ {w i}, good names blk (run G.init (es.take t)) w i → Near es t w i →
      ∃ w i, names ((run G.init (es.take t)).mem .state) = some w ∧ Says es t w i ∧
      (blk = true → (run G.init (es.take t)).mem .state ≠ 0 → ∃ b, received es t = some b ∧ i = some b.index) := by
    rintro w i ⟨hn, hb⟩ hnear
    rw [received_eq] at hb
    rcases hn with hn | ⟨rfl, hn⟩
    · exact ⟨w, i, hn, .inl hnear, hb⟩
    · exact ⟨.waiting, i, hn, .inr ⟨rfl, hnear⟩, hb⟩
  cases ho : (run G.init (es.take t)).owed with
  | false =>
    obtain ⟨w, i, h1, h2⟩ := (inv_run (inv_init h0) h t).last ho
    refine key h2 (.inl ?_)
    rw [run_last] at h1
    simpa [G.init] using h1
  | true =>
    have hok : Ok names blk (run G.init (es.take t)) (es.drop t) := run_ok (by rw [List.take_append_drop]; exact h)
    obtain ⟨w, i, h1, h2⟩ := owed_next hok ho
    exact key h2 (.inr h1)

theorem take_step {es : List Event} {t : Nat} (g : G) :
    run g (es.take (t + 1)) = match es[t]? with
      | none => run g (es.take t)
      | some e => step (run g (es.take t)) e := by
  rw [List.take_add_one]
  cases h : es[t]? with
  | none => simp
  | some e => exact run_snoc _ _ _

theorem allowed_at {es : List Event} {t : Nat} {e : Event} (h : Ok names blk G.init es) (he : es[t]? = some e) :
    allowed names blk (run G.init (es.take t)) e := by
  have hok : Ok names blk (run G.init (es.take t)) (es.drop t) := run_ok (by rw [List.take_append_drop]; exact h)
  have hlt : t < es.length := by
    rcases Nat.lt_or_ge t es.length with h | h
    · exact h
    · rw [List.getElem?_eq_none h] at he; cases he
  rw [List.drop_eq_getElem_cons hlt] at hok
  rw [List.getElem?_eq_getElem hlt] at he
  cases he
  exact hok.1

/-- A block number read is of a block received in the meantime. -/
theorem block_read {es : List Event} (h : Ok names true G.init es) (t1 : Nat)
    (hc : current (run G.init (es.take t1))) (d : Nat) :
    ∃ t b, t1 ≤ t ∧ t ≤ t1 + d ∧ received es t = some b ∧ b.index = (run G.init (es.take (t1 + d))).mem .block := by
  induction d with
  | zero =>
    obtain ⟨b, h1, h2⟩ := hc
    exact ⟨t1, b, Nat.le_refl _, Nat.le_refl _, by rw [← received_eq]; exact h1, h2⟩
  | succ d ih =>
    obtain ⟨t, b, h1, h2, h3, h4⟩ := ih
    have keep : (run G.init (es.take (t1 + (d + 1)))).mem .block = (run G.init (es.take (t1 + d))).mem .block →
        ∃ t b, t1 ≤ t ∧ t ≤ t1 + (d + 1) ∧ received es t = some b ∧
          b.index = (run G.init (es.take (t1 + (d + 1)))).mem .block := fun he =>
      ⟨t, b, h1, by omega, h3, by rw [he]; exact h4⟩
    have hs := take_step (es := es) (t := t1 + d) G.init
    rw [← Nat.add_assoc]
    rw [← Nat.add_assoc] at keep
    cases he : es[t1 + d]? with
    | none => rw [he] at hs; dsimp only at hs; exact keep (by rw [hs])
    | some e =>
      rw [he] at hs; dsimp only at hs
      have ha := allowed_at h he
      cases e with
      | store v x =>
        cases v with
        | block =>
          obtain ⟨_, b', hb1, hb2⟩ := ha.2 rfl
          refine ⟨t1 + d + 1, b', by omega, Nat.le_refl _, ?_, ?_⟩
          · rw [← received_eq, hs]; exact hb1
          · rw [hs]; exact hb2
        | _ => exact keep (by rw [hs]; rfl)
      | add v x =>
        cases v with
        | block => exact ha.elim
        | _ => exact keep (by rw [hs]; rfl)
      | _ => exact keep (by rw [hs]; rfl)

/-- The discipline makes a display truthful which shows what the state is called, and a block number read later than the
state and only if the state is not 0. -/
theorem truthful {es : List Event} {line : (Nat → Mem) → Option Line} (h0 : names 0 = some .waiting)
    (h : Ok names true G.init es)
    (hline : ∀ m w, names (m 0 .state) = some w → ∃ l, line m = some l ∧ l.what = w ∧
      ∀ n, l.block = some n → m 0 .state ≠ 0 ∧ ∃ k, k ≤ 3 ∧ m k .block = n) : Truthful es line := by
  intro τ hτ
  obtain ⟨w, i, h1, h2, h3⟩ := says h0 h (τ 0)
  obtain ⟨l, e1, e2, e3⟩ := hline (seen es τ) w (by rw [seen_eq]; exact h1)
  refine ⟨l, e1, i, by rw [e2]; exact h2, fun n hn => ?_⟩
  obtain ⟨hs, k, hk, hb⟩ := e3 n hn
  rw [seen_eq] at hs hb
  refine ⟨h3 rfl hs, ?_⟩
  have hle := hτ 0 k (Nat.zero_le _)
  obtain ⟨t, b, g1, g2, g3, g4⟩ := block_read h (τ 0) ((inv_run (inv_init h0) h _).block rfl hs) (τ k - τ 0)
  rw [show τ 0 + (τ k - τ 0) = τ k from by omega] at g2 g4
  exact ⟨t, b, g1, Nat.le_trans g2 (hτ k 3 hk), g3, by rw [g4]; exact hb⟩

/-- A loop over blocks: each round keeps the invariant `P` (about what is known when the next block is awaited). -/
theorem ok_loop {P : G → Prop} {f : In → List Event} {rest : List Event} (bs : List In)
    (hf : ∀ g b more, b ∈ bs → P g → (∀ g', P g' → Ok names blk g' more) → Ok names blk g (f b ++ more))
    (hr : ∀ g, P g → Ok names blk g rest) : ∀ g, P g → Ok names blk g (bs.flatMap f ++ rest) := by
  induction bs with
  | nil => exact hr
  | cons b bs ih =>
    intro g hg
    rw [List.flatMap_cons, List.append_assoc]
    exact hf g b _ List.mem_cons_self hg (ih fun g b' more hb => hf g b' more (List.mem_cons_of_mem _ hb))

/-! ## Counting the ways -/

structure W where
  mem : Mem
  recv : Option In
  done : Nat
  /-- The ways of the block have been announced. -/
  worked : Bool
  /-- The next way has been announced. -/
  pend : Bool

def W.init : W := ⟨fun _ => 0, none, 0, false, false⟩

def wstep (g : W) (e : Event) : W where
  mem := apply g.mem e
  recv := match e with
    | .receive b => some b
    | _ => g.recv
  done := match e with
    | .receive _ => 0
    | .act .processing _ => g.done + 1
    | _ => g.done
  worked := match e with
    | .receive _ => false
    | .store .state s => g.worked || s == 2
    | _ => g.worked
  pend := match e with
    | .receive _ => false
    | .add .way _ => true
    | .act .processing _ => false
    | _ => g.pend

def wrun (g : W) (es : List Event) : W := es.foldl wstep g

def wallowed (g : W) : Event → Prop
  | .receive _ => g.mem .state ≠ 2
  | .store .state s => s = 2 → g.worked = false ∧ g.mem .way = 0 ∧ ∃ b, g.recv = some b ∧ g.mem .ways = UInt64.ofNat b.ways
  | .store .ways _ => g.worked = false
  | .store .way _ => g.worked = false
  | .add .state _ => False
  | .add .ways _ => False
  | .add .way x => x = 1 ∧ g.worked = true ∧ g.pend = false ∧ ∃ b, g.recv = some b ∧ g.done < b.ways
  | .act .processing _ => g.pend = true
  | _ => True

def WOk : W → List Event → Prop
  | _, [] => True
  | g, e :: es => wallowed g e ∧ WOk (wstep g e) es

structure WInv (g : W) : Prop where
  state : g.mem .state = 2 → g.worked = true
  unworked : g.worked = false → g.done = 0 ∧ g.pend = false
  worked : g.worked = true → ∃ b, g.recv = some b ∧ g.mem .ways = UInt64.ofNat b.ways ∧
    g.mem .way = UInt64.ofNat (g.done + g.pend.toNat) ∧ g.done + g.pend.toNat ≤ b.ways

theorem winv_step {g : W} {e : Event} (hI : WInv g) (h : wallowed g e) : WInv (wstep g e) := by
  obtain ⟨h1, h2, h3⟩ := hI
  cases e with
  | receive b => exact ⟨fun hs => absurd hs h, fun _ => ⟨rfl, rfl⟩, fun hw => (nomatch hw)⟩
  | store v x =>
    cases v with
    | state =>
      by_cases hx : x = 2
      · subst hx
        obtain ⟨w1, w2, b, w3, w4⟩ := h rfl
        obtain ⟨u1, u2⟩ := h2 w1
        refine ⟨fun _ => ?_, fun hw => ?_, fun _ => ⟨b, w3, w4, ?_, ?_⟩⟩
        · show (g.worked || (2 : UInt64) == 2) = true
          simp
        · have : (g.worked || (2 : UInt64) == 2) = false := hw
          simp at this
        · show g.mem .way = UInt64.ofNat (g.done + g.pend.toNat)
          rw [u1, u2, w2]; rfl
        · show g.done + g.pend.toNat ≤ b.ways
          rw [u1, u2]; exact Nat.zero_le _
      · have e1 : (wstep g (.store .state x)).worked = g.worked := by
          show (g.worked || x == 2) = g.worked
          simp [hx]
        refine ⟨fun hs => absurd hs hx, fun hw => h2 (by rw [← e1]; exact hw), fun hw => h3 (by rw [← e1]; exact hw)⟩
    | ways =>
      have hw : g.worked = false := h
      exact ⟨h1, h2, fun h' => absurd (show g.worked = true from h') (by rw [hw]; decide)⟩
    | way =>
      have hw : g.worked = false := h
      exact ⟨h1, h2, fun h' => absurd (show g.worked = true from h') (by rw [hw]; decide)⟩
    | _ => exact ⟨h1, h2, h3⟩
  | add v x =>
    cases v with
    | state => exact h.elim
    | ways => exact h.elim
    | way =>
      obtain ⟨rfl, w1, w2, b, w3, w4⟩ := h
      obtain ⟨b', r1, r2, r3, r4⟩ := h3 w1
      rw [w3] at r1; cases r1
      rw [w2] at r3
      refine ⟨h1, fun hw => absurd (show g.worked = false from hw) (by rw [w1]; decide), fun _ => ⟨b, w3, r2, ?_, w4⟩⟩
      show g.mem .way + 1 = UInt64.ofNat (g.done + 1)
      rw [r3]
      simp
    | _ => exact ⟨h1, h2, h3⟩
  | act w i =>
    cases w with
    | processing =>
      have hp : g.pend = true := h
      have hw : g.worked = true := by
        cases hw : g.worked with
        | true => rfl
        | false => rw [(h2 hw).2] at hp; cases hp
      obtain ⟨b, r1, r2, r3, r4⟩ := h3 hw
      rw [hp] at r3 r4
      exact ⟨h1, fun h' => absurd (show g.worked = false from h') (by rw [hw]; decide), fun _ => ⟨b, r1, r2, r3, r4⟩⟩
    | _ => exact ⟨h1, h2, h3⟩

theorem wrun_mem (es : List Event) : ∀ g, (wrun g es).mem = es.foldl apply g.mem := by
  induction es with
  | nil => intro g; rfl
  | cons e es ih => intro g; exact ih (wstep g e)

theorem wrun_recv (es : List Event) : ∀ g, (wrun g es).recv = es.foldl (fun r e => match e with
    | .receive b => some b
    | _ => r) g.recv := by
  induction es with
  | nil => intro g; rfl
  | cons e es ih =>
    intro g
    have := ih (wstep g e)
    cases e <;> exact this

theorem wrun_done (es : List Event) : ∀ g, (wrun g es).done = es.foldl (fun n e => match e with
    | .receive _ => 0
    | .act .processing _ => n + 1
    | _ => n) g.done := by
  induction es with
  | nil => intro g; rfl
  | cons e es ih =>
    intro g
    have := ih (wstep g e)
    cases e with
    | act w i => cases w <;> exact this
    | _ => exact this

theorem winv_run {es : List Event} : ∀ {g : W}, WInv g → WOk g es → ∀ t, WInv (wrun g (es.take t)) := by
  induction es with
  | nil => intro g hI _ t; rw [List.take_nil]; exact hI
  | cons e es ih =>
    intro g hI h t
    cases t with
    | zero => exact hI
    | succ t => exact ih (winv_step hI h.1) h.2 t

theorem winv_init : WInv W.init :=
  ⟨fun h => absurd (show (0 : UInt64) = 2 from h) (by decide), fun _ => ⟨rfl, rfl⟩, fun h => (nomatch h)⟩

theorem wtake_step {es : List Event} {t : Nat} (g : W) :
    wrun g (es.take (t + 1)) = match es[t]? with
      | none => wrun g (es.take t)
      | some e => wstep (wrun g (es.take t)) e := by
  rw [List.take_add_one]
  cases h : es[t]? with
  | none => simp
  | some e =>
    show wrun g (es.take t ++ [e]) = _
    unfold wrun; rw [List.foldl_append]; rfl

/-- Nothing is forgotten before the next block comes. -/
theorem stays {es : List Event} {t1 : Nat} (d : Nat) (hu : Undisturbed es t1 (t1 + d)) :
    (wrun W.init (es.take (t1 + d))).recv = (wrun W.init (es.take t1)).recv ∧
    ((wrun W.init (es.take t1)).worked = true → (wrun W.init (es.take (t1 + d))).worked = true) := by
  induction d with
  | zero => exact ⟨rfl, id⟩
  | succ d ih =>
    obtain ⟨i1, i2⟩ := ih fun t b h1 h2 => hu t b h1 (by omega)
    have hs := wtake_step (es := es) (t := t1 + d) W.init
    rw [← Nat.add_assoc, hs]
    cases he : es[t1 + d]? with
    | none => exact ⟨i1, i2⟩
    | some e =>
      cases e with
      | receive b => exact absurd he (hu _ b (by omega) (by omega))
      | store v x =>
        cases v with
        | state =>
          refine ⟨i1, fun hw => ?_⟩
          show (_ || _) = true
          rw [i2 hw]; rfl
        | _ => exact ⟨i1, i2⟩
      | _ => exact ⟨i1, i2⟩

theorem wok_loop {P : W → Prop} {f : In → List Event} (bs : List In)
    (hf : ∀ g b more, P g → (∀ g', P g' → WOk g' more) → WOk g (f b ++ more)) :
    ∀ g, P g → WOk g (bs.flatMap f) := by
  induction bs with
  | nil => intro g _; exact trivial
  | cons b bs ih =>
    intro g hg
    rw [List.flatMap_cons]
    exact hf g b _ hg ih

end Osm.Display

namespace Osm.Display
open Osm Osm.Spec

/-! ## Copying -/

/-- What is known of the copying after some steps: the variables, and how much was copied. -/
structure C where
  mem : Mem
  sum : Nat

def cstep (g : C) (e : Event) : C where
  mem := apply g.mem e
  sum := match e with
    | .add .copied x => g.sum + x.toNat
    | _ => g.sum

def crun (g : C) (es : List Event) : C := es.foldl cstep g

def callowed (T : UInt64) (g : C) : Event → Prop
  | .store .state s => s = 3 → g.mem .total = T
  | .store .total x => x = T
  | .store .copied _ => False
  | .add .state _ => False
  | .add .total _ => False
  | .add .copied x => g.sum + x.toNat ≤ T.toNat
  | _ => True

def COk (T : UInt64) : C → List Event → Prop
  | _, [] => True
  | g, e :: es => callowed T g e ∧ COk T (cstep g e) es

structure CInv (T : UInt64) (g : C) : Prop where
  state : g.mem .state = 3 → g.mem .total = T
  copied : g.mem .copied = UInt64.ofNat g.sum
  sum : g.sum ≤ T.toNat

theorem cinv_step {T : UInt64} {g : C} {e : Event} (hI : CInv T g) (h : callowed T g e) :
    CInv T (cstep g e) ∧ (g.mem .total = T → (cstep g e).mem .total = T) := by
  obtain ⟨h1, h2, h3⟩ := hI
  cases e with
  | store v x =>
    cases v with
    | state => exact ⟨⟨h, h2, h3⟩, id⟩
    | total => exact ⟨⟨fun _ => h, h2, h3⟩, fun _ => h⟩
    | copied => exact h.elim
    | _ => exact ⟨⟨h1, h2, h3⟩, id⟩
  | add v x =>
    cases v with
    | state => exact h.elim
    | total => exact h.elim
    | copied =>
      refine ⟨⟨h1, ?_, h⟩, id⟩
      show g.mem .copied + x = UInt64.ofNat (g.sum + x.toNat)
      rw [h2, UInt64.ofNat_add, UInt64.ofNat_toNat]
    | _ => exact ⟨⟨h1, h2, h3⟩, id⟩
  | _ => exact ⟨⟨h1, h2, h3⟩, id⟩

theorem crun_mem (es : List Event) : ∀ g, (crun g es).mem = es.foldl apply g.mem := by
  induction es with
  | nil => intro g; rfl
  | cons e es ih => intro g; exact ih (cstep g e)

theorem cinv_run {T : UInt64} {es : List Event} : ∀ {g : C}, CInv T g → COk T g es → ∀ t,
    CInv T (crun g (es.take t)) ∧ COk T (crun g (es.take t)) (es.drop t) := by
  induction es with
  | nil => intro g hI _ t; rw [List.take_nil, List.drop_nil]; exact ⟨hI, trivial⟩
  | cons e es ih =>
    intro g hI h t
    cases t with
    | zero => exact ⟨hI, h⟩
    | succ t => exact ih (cinv_step hI h.1).1 h.2 t

theorem total_stays {T : UInt64} {es : List Event} : ∀ {g : C}, CInv T g → COk T g es → g.mem .total = T → ∀ t,
    (crun g (es.take t)).mem .total = T := by
  induction es with
  | nil => intro g _ _ hT t; rw [List.take_nil]; exact hT
  | cons e es ih =>
    intro g hI h hT t
    cases t with
    | zero => exact hT
    | succ t => exact ih (cinv_step hI h.1).1 h.2 ((cinv_step hI h.1).2 hT) t

theorem cinv_init (T : UInt64) : CInv T ⟨fun _ => 0, 0⟩ :=
  ⟨fun h => absurd (show (0 : UInt64) = 3 from h) (by decide), rfl, Nat.zero_le _⟩

theorem crun_sum (es : List Event) : ∀ g, (crun g es).sum = g.sum + (crun ⟨fun _ => 0, 0⟩ es).sum := by
  have gen : ∀ (es : List Event) (g : C), (crun g es).sum =
      g.sum + (es.map fun e => match e with | .add .copied x => x.toNat | _ => 0).sum := by
    intro es
    induction es with
    | nil => intro g; rfl
    | cons e es ih =>
      intro g
      rw [show crun g (e :: es) = crun (cstep g e) es from rfl, ih]
      cases e with
      | add v x =>
        cases v <;> simp [cstep]
        omega
      | _ => simp [cstep]
  intro g
  rw [gen es g, gen es]
  simp

end Osm.Display
