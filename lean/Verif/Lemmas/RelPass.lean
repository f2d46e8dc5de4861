import Verif.Spec.RelPass
import Verif.Lemmas.RelIndex

/-!
# What a pass of relindex that succeeds has read (C94)
-/

namespace Osm.RelIndex
open Osm Osm.T Osm.WayIndex Osm.Spec

/-- The answer of a part of the way index, as a partial function. -/
def answer (swi : SubIdx) (id : Int64) : Option (List Int64) :=
  match swi.FindLocations id 0 with
  | .ok r => if r.ok then some r.locs else none
  | _ => none

theorem take1_ok {u : List Int64} {x : Int64} {v : List Int64} (h : take1 u = .ok (x, v)) : u = x :: v := by
  cases u with
  | nil => cases h
  | cons y ys =>
    obtain ⟨rfl, rfl⟩ := Prod.mk.inj (Res.ok.inj h)
    rfl

theorem takeN_ok {n : Int64} {u a v : List Int64} (h : takeN n u = .ok (a, v)) :
    u = a ++ v ∧ 0 ≤ n.toInt ∧ a.length = n.toInt.toNat := by
  unfold takeN at h
  split at h
  · rename_i hn
    obtain ⟨rfl, rfl⟩ := Prod.mk.inj (Res.ok.inj h)
    refine ⟨(List.take_append_drop _ _).symm, hn.1, ?_⟩
    rw [List.length_take]
    omega
  · cases h

/-- The lookup of a pending way does not panic. -/
def WayRuns (swi : SubIdx) : PassWay → Prop
  | .pending w => ∃ r, swi.FindLocations (-w) 0 = .ok r
  | .done _ _ => True

theorem resolveWay_inv {swi : SubIdx} {last : Bool} {w : Int64} {out : List Int64}
    (h : resolveWay swi last w = .ok out) :
    WayRuns swi (.pending w) ∧ out = ((PassWay.pending w).settle (answer swi) last).words := by
  unfold resolveWay at h
  replace h := (Res.bind_eq_ok ..).1 h
  obtain ⟨r, hr, h⟩ := h
  refine ⟨⟨r, hr⟩, ?_⟩
  obtain rfl := Res.ok.inj h
  have : answer swi (-w) = if r.ok then some r.locs else none := by
    unfold answer
    rw [hr]
  unfold PassWay.settle
  dsimp only
  rw [this]
  cases hk : r.ok <;> cases last <;> rfl

theorem resolveWay_run {swi : SubIdx} {last : Bool} {w : Int64} (h : WayRuns swi (.pending w)) :
    resolveWay swi last w = .ok ((PassWay.pending w).settle (answer swi) last).words := by
  obtain ⟨r, hr⟩ := h
  have : ∃ out, resolveWay swi last w = .ok out := by
    unfold resolveWay
    rw [hr]
    exact ⟨_, rfl⟩
  obtain ⟨out, ho⟩ := this
  rw [ho, (resolveWay_inv ho).2]

theorem rewriteWay_inv {swi : SubIdx} {last : Bool} {u out v : List Int64}
    (h : rewriteWay swi last u = .ok (out, v)) :
    ∃ w : PassWay, u = w.words ++ v ∧ w.Valid ∧ WayRuns swi w ∧ out = (w.settle (answer swi) last).words := by
  unfold rewriteWay at h
  replace h := (Res.bind_eq_ok ..).1 h
  obtain ⟨⟨x, u1⟩, h1, h⟩ := h
  obtain rfl := take1_ok h1
  dsimp only at h
  split at h
  · rename_i hx
    replace h := (Res.bind_eq_ok ..).1 h
    obtain ⟨o, h2, h⟩ := h
    obtain ⟨rfl, rfl⟩ := Prod.mk.inj (Res.ok.inj h)
    obtain ⟨h3, h4⟩ := resolveWay_inv h2
    exact ⟨.pending x, rfl, hx, h3, h4⟩
  · rename_i hx
    unfold copyWay at h
    replace h := (Res.bind_eq_ok ..).1 h
    obtain ⟨⟨c, u2⟩, h2, h⟩ := h
    obtain rfl := take1_ok h2
    dsimp only at h
    replace h := (Res.bind_eq_ok ..).1 h
    obtain ⟨⟨a, u3⟩, h3, h⟩ := h
    obtain ⟨rfl, rfl⟩ := Prod.mk.inj (Res.ok.inj h)
    obtain ⟨e, hc, hl⟩ := takeN_ok h3
    subst e
    have hcl := Int64.toInt_lt c
    have hlen : a.length < 2 ^ 63 := by omega
    have : Int64.ofNat a.length = c := by
      apply Int64.toInt_inj.1
      rw [Int64.toInt_ofNat_of_lt hlen]
      omega
    refine ⟨.done x a, ?_, ⟨?_, hlen⟩, trivial, ?_⟩
    · simp only [PassWay.words, this, List.cons_append]
    · rw [Int64.lt_iff_toInt_lt] at hx
      rw [Int64.le_iff_toInt_le]
      omega
    · simp only [PassWay.settle, PassWay.words, this]

theorem rewriteWay_run {swi : SubIdx} {last : Bool} (w : PassWay) (hv : w.Valid) (hr : WayRuns swi w)
    (v : List Int64) : rewriteWay swi last (w.words ++ v) = .ok ((w.settle (answer swi) last).words, v) := by
  cases w with
  | pending x =>
    have hx : x < 0 := hv
    unfold rewriteWay
    rw [show take1 ((PassWay.pending x).words ++ v) = .ok (x, v) from rfl, Res.ok_bind]
    dsimp only
    rw [if_pos hx, resolveWay_run hr]
    rfl
  | done x a =>
    obtain ⟨hx, hl⟩ : 0 ≤ x ∧ a.length < 2 ^ 63 := hv
    unfold rewriteWay
    rw [show take1 ((PassWay.done x a).words ++ v) = .ok (x, Int64.ofNat a.length :: (a ++ v)) from rfl, Res.ok_bind]
    dsimp only
    rw [if_neg (by rw [Int64.lt_iff_toInt_lt]; rw [Int64.le_iff_toInt_le] at hx; omega)]
    unfold copyWay
    rw [show take1 (Int64.ofNat a.length :: (a ++ v)) = .ok (Int64.ofNat a.length, a ++ v) from rfl, Res.ok_bind]
    dsimp only
    unfold takeN
    rw [Int64.toInt_ofNat_of_lt hl, if_pos (by rw [List.length_append]; omega), Res.ok_bind]
    dsimp only
    rw [Int.toNat_natCast, List.take_left, List.drop_left]
    rfl

theorem rewriteWays_inv {swi : SubIdx} {last : Bool} : ∀ (n : Nat) {u out v : List Int64},
    rewriteWays swi last n u = .ok (out, v) →
    ∃ ws : List PassWay, ws.length = n ∧ u = ws.flatMap PassWay.words ++ v ∧ (∀ w ∈ ws, w.Valid) ∧
      (∀ w ∈ ws, WayRuns swi w) ∧ out = (ws.map (PassWay.settle (answer swi) last)).flatMap PassWay.words := by
  intro n
  induction n with
  | zero =>
    intro u out v h
    obtain ⟨rfl, rfl⟩ := Prod.mk.inj (Res.ok.inj h)
    exact ⟨[], rfl, rfl, by simp, by simp, rfl⟩
  | succ n ih =>
    intro u out v h
    unfold rewriteWays at h
    replace h := (Res.bind_eq_ok ..).1 h
    obtain ⟨⟨o, u1⟩, h1, h⟩ := h
    dsimp only at h
    replace h := (Res.bind_eq_ok ..).1 h
    obtain ⟨⟨os, u2⟩, h2, h⟩ := h
    obtain ⟨rfl, rfl⟩ := Prod.mk.inj (Res.ok.inj h)
    obtain ⟨w, rfl, hv, hr, rfl⟩ := rewriteWay_inv h1
    obtain ⟨ws, rfl, rfl, hvs, hrs, rfl⟩ := ih h2
    refine ⟨w :: ws, rfl, by simp, ?_, ?_, by simp⟩
    · intro x hx
      rcases List.mem_cons.1 hx with rfl | hx
      · exact hv
      · exact hvs x hx
    · intro x hx
      rcases List.mem_cons.1 hx with rfl | hx
      · exact hr
      · exact hrs x hx

theorem rewriteWays_run {swi : SubIdx} {last : Bool} (ws : List PassWay) (hv : ∀ w ∈ ws, w.Valid)
    (hr : ∀ w ∈ ws, WayRuns swi w) (v : List Int64) :
    rewriteWays swi last ws.length (ws.flatMap PassWay.words ++ v) =
      .ok ((ws.map (PassWay.settle (answer swi) last)).flatMap PassWay.words, v) := by
  induction ws with
  | nil => rfl
  | cons w ws ih =>
    rw [List.length_cons, List.flatMap_cons, List.append_assoc]
    unfold rewriteWays
    rw [rewriteWay_run w (hv w (by simp)) (hr w (by simp)), Res.ok_bind]
    dsimp only
    rw [ih (fun w h => hv w (by simp [h])) (fun w h => hr w (by simp [h])), Res.ok_bind]
    rfl

/-- No lookup for the relation panics. -/
def RelRuns (swi : SubIdx) (r : PassRel) : Prop := ∀ w ∈ r.ways, WayRuns swi w

theorem rewriteRelation_inv {swi : SubIdx} {last : Bool} {u out v : List Int64}
    (h : rewriteRelation swi last u = .ok (out, v)) :
    ∃ r : PassRel, u = r.words ++ v ∧ r.Valid ∧ RelRuns swi r ∧ out = (r.settle (answer swi) last).words := by
  unfold rewriteRelation at h
  replace h := (Res.bind_eq_ok ..).1 h
  obtain ⟨⟨i, u1⟩, h1, h⟩ := h
  obtain rfl := take1_ok h1
  dsimp only at h
  replace h := (Res.bind_eq_ok ..).1 h
  obtain ⟨⟨c, u2⟩, h2, h⟩ := h
  obtain rfl := take1_ok h2
  dsimp only at h
  replace h := (Res.bind_eq_ok ..).1 h
  obtain ⟨⟨os, u3⟩, h3, h⟩ := h
  obtain ⟨rfl, rfl⟩ := Prod.mk.inj (Res.ok.inj h)
  obtain ⟨ws, hl, rfl, hv, hr, rfl⟩ := rewriteWays_inv _ h3
  exact ⟨⟨i, c, ws⟩, rfl, ⟨hl, hv⟩, hr, rfl⟩

theorem rewriteRelation_run {swi : SubIdx} {last : Bool} (r : PassRel) (hv : r.Valid) (hr : RelRuns swi r)
    (v : List Int64) : rewriteRelation swi last (r.words ++ v) = .ok ((r.settle (answer swi) last).words, v) := by
  obtain ⟨i, c, ws⟩ := r
  obtain ⟨hl, hv⟩ := hv
  dsimp only at hl
  unfold rewriteRelation
  rw [show take1 ((⟨i, c, ws⟩ : PassRel).words ++ v) = .ok (i, c :: (ws.flatMap PassWay.words ++ v)) from rfl,
    Res.ok_bind]
  dsimp only
  rw [show take1 (c :: (ws.flatMap PassWay.words ++ v)) = .ok (c, ws.flatMap PassWay.words ++ v) from rfl,
    Res.ok_bind]
  dsimp only
  rw [← hl, rewriteWays_run ws hv hr, Res.ok_bind]
  rfl

/-! ## The loop -/

theorem rewriteLoop_inv {swi : SubIdx} {last : Bool} {f : String} : ∀ (fuel : Nat) (buffered u : List Int64) (fs fs' : FS)
    (d : List UInt8), fs f = some ⟨d, d.length⟩ →
    (rewriteLoop swi last f fuel buffered u).exec fs = .ok ((), fs') →
    ∃ rels : List PassRel, ReadsAs u rels ∧ (∀ r ∈ rels, RelRuns swi r) ∧
      Holds fs' f (d ++ Int64SliceAsByteSlice
        (buffered ++ (rels.map (PassRel.settle (answer swi) last)).flatMap PassRel.words)) ∧
      ∀ g, g ≠ f → fs' g = fs g := by
  intro fuel
  induction fuel with
  | zero =>
    intro buffered u fs fs' d _ h
    unfold rewriteLoop at h
    rw [Prog.exec_lift] at h
    cases h
  | succ fuel ih =>
    intro buffered u fs fs' d hd h
    cases u with
    | nil =>
      unfold rewriteLoop at h
      obtain ⟨w1, w2⟩ := append_exec f fs d (Int64SliceAsByteSlice buffered) hd
      refine ⟨[], ⟨rfl, by simp⟩, by simp, ?_, ?_⟩
      · rw [List.map_nil, List.flatMap_nil, List.append_nil]
        by_cases hb : buffered.length > 0
        · rw [if_pos hb] at h
          obtain ⟨_, rfl⟩ := Prod.mk.inj (Res.ok.inj h)
          exact ⟨_, w1⟩
        · rw [if_neg hb] at h
          obtain ⟨_, rfl⟩ := Prod.mk.inj (Res.ok.inj h)
          have : buffered = [] := List.length_eq_zero_iff.1 (by omega)
          subst this
          refine ⟨d.length, ?_⟩
          show fs f = _
          rw [hd]
          simp [Int64SliceAsByteSlice, bytesOf]
      · by_cases hb : buffered.length > 0
        · rw [if_pos hb] at h
          obtain ⟨_, rfl⟩ := Prod.mk.inj (Res.ok.inj h)
          exact w2
        · rw [if_neg hb] at h
          obtain ⟨_, rfl⟩ := Prod.mk.inj (Res.ok.inj h)
          exact fun _ _ => rfl
    | cons w u =>
      unfold rewriteLoop at h
      rw [Prog.exec_bind, Prog.exec_lift] at h
      replace h := (Res.bind_eq_ok ..).1 h
      obtain ⟨⟨⟨o, v⟩, fs1⟩, h1, h⟩ := h
      obtain ⟨q, hq, h1⟩ := (Res.bind_eq_ok ..).1 h1
      obtain ⟨rfl, rfl⟩ := Prod.mk.inj (Res.ok.inj h1)
      obtain ⟨r, hu, hv, hr, rfl⟩ := rewriteRelation_inv hq
      dsimp only at h
      have finish : ∀ {buffered' : List Int64} {fs1 : FS} {d' : List UInt8}, fs1 f = some ⟨d', d'.length⟩ →
          d' ++ Int64SliceAsByteSlice buffered' =
            d ++ Int64SliceAsByteSlice (buffered ++ (r.settle (answer swi) last).words) →
          (∀ g, g ≠ f → fs1 g = fs g) →
          (rewriteLoop swi last f fuel buffered' v).exec fs1 = .ok ((), fs') →
          ∃ rels : List PassRel, ReadsAs (w :: u) rels ∧ (∀ r ∈ rels, RelRuns swi r) ∧
            Holds fs' f (d ++ Int64SliceAsByteSlice
              (buffered ++ (rels.map (PassRel.settle (answer swi) last)).flatMap PassRel.words)) ∧
            ∀ g, g ≠ f → fs' g = fs g := by
        intro buffered' fs1 d' k1 k2 k3 k4
        obtain ⟨rels, ⟨e, hvs⟩, hrs, ho, hg⟩ := ih _ _ _ _ _ k1 k4
        refine ⟨r :: rels, ⟨?_, ?_⟩, ?_, ?_, fun g hg' => (hg g hg').trans (k3 g hg')⟩
        · rw [hu, e, List.flatMap_cons]
        · intro x hx
          rcases List.mem_cons.1 hx with rfl | hx
          · exact hv
          · exact hvs x hx
        · intro x hx
          rcases List.mem_cons.1 hx with rfl | hx
          · exact hr
          · exact hrs x hx
        · rw [int64SliceAsByteSlice_append, ← List.append_assoc, k2] at ho
          rw [List.map_cons, List.flatMap_cons, ← List.append_assoc, int64SliceAsByteSlice_append,
            ← List.append_assoc]
          exact ho
      split at h
      · rw [Prog.exec_bind] at h
        obtain ⟨w1, w2⟩ := append_exec f fs d
          (Int64SliceAsByteSlice (buffered ++ (r.settle (answer swi) last).words)) hd
        unfold FWriteSliceI64 at h
        rw [Prog.exec_emit, Res.ok_bind] at h
        exact finish w1 (by simp [Int64SliceAsByteSlice, bytesOf]) w2 h
      · exact finish hd rfl (fun _ _ => rfl) h

theorem rewriteLoop_run {swi : SubIdx} {last : Bool} {f : String} (rels : List PassRel) (hv : ∀ r ∈ rels, r.Valid)
    (hr : ∀ r ∈ rels, RelRuns swi r) : ∀ (fuel : Nat) (buffered : List Int64) (fs : FS), rels.length < fuel →
    ∃ fs', (rewriteLoop swi last f fuel buffered (rels.flatMap PassRel.words)).exec fs = .ok ((), fs') := by
  induction rels with
  | nil =>
    intro fuel buffered fs hf
    obtain ⟨fuel, rfl⟩ : ∃ k, fuel = k + 1 := ⟨fuel - 1, by simp at hf; omega⟩
    rw [List.flatMap_nil]
    unfold rewriteLoop
    by_cases hb : buffered.length > 0
    · rw [if_pos hb]
      exact ⟨_, rfl⟩
    · rw [if_neg hb]
      exact ⟨_, rfl⟩
  | cons r rels ih =>
    intro fuel buffered fs hf
    obtain ⟨fuel, rfl⟩ : ∃ k, fuel = k + 1 := ⟨fuel - 1, by simp at hf; omega⟩
    rw [List.length_cons] at hf
    have ih := ih (fun r h => hv r (by simp [h])) (fun r h => hr r (by simp [h]))
    have hstep := rewriteRelation_run (last := last) r (hv r (by simp)) (hr r (by simp))
      (rels.flatMap PassRel.words)
    obtain ⟨x, xs, hx⟩ : ∃ x xs, r.words ++ rels.flatMap PassRel.words = x :: xs := ⟨_, _, rfl⟩
    rw [List.flatMap_cons, hx]
    rw [hx] at hstep
    unfold rewriteLoop
    rw [Prog.exec_bind, hstep, Prog.exec_lift, Res.ok_bind, Res.ok_bind]
    dsimp only
    split
    · rw [Prog.exec_bind]
      unfold FWriteSliceI64
      rw [Prog.exec_emit, Res.ok_bind]
      exact ih _ _ _ (by omega)
    · exact ih _ _ _ (by omega)

theorem passRels_length (rels : List PassRel) : 2 * rels.length ≤ (rels.flatMap PassRel.words).length := by
  induction rels with
  | nil => simp
  | cons r rs ih =>
    rw [List.flatMap_cons, List.length_cons, List.length_append]
    have : 2 ≤ r.words.length := by simp [PassRel.words]
    omega

/-! ## Reading is unambiguous -/

theorem wayWords_unique {w w' : PassWay} {t t' : List Int64} (h : w.Valid) (h' : w'.Valid)
    (e : w.words ++ t = w'.words ++ t') : w = w' ∧ t = t' := by
  have sign : ∀ {x y : Int64}, x < 0 → 0 ≤ y → x = y → False := by
    intro x y hx hy e
    subst e
    rw [Int64.lt_iff_toInt_lt] at hx
    rw [Int64.le_iff_toInt_le] at hy
    omega
  cases w with
  | pending x =>
    cases w' with
    | pending y =>
      obtain ⟨rfl, rfl⟩ := List.cons.inj (show x :: t = y :: t' from e)
      exact ⟨rfl, rfl⟩
    | done y ls =>
      exact (sign h h'.1 (List.cons.inj (show x :: t = y :: (_ ++ t') from e)).1).elim
  | done x ls =>
    cases w' with
    | pending y =>
      exact (sign h' h.1 (List.cons.inj (show x :: (_ ++ t) = y :: t' from e)).1.symm).elim
    | done y ls' =>
      obtain ⟨rfl, e0⟩ := List.cons.inj
        (show x :: (Int64.ofNat ls.length :: (ls ++ t)) = y :: (Int64.ofNat ls'.length :: (ls' ++ t')) from e)
      obtain ⟨e1, e2⟩ := List.cons.inj e0
      have hl : ls.length = ls'.length := by
        have := congrArg Int64.toInt e1
        rw [Int64.toInt_ofNat_of_lt h.2, Int64.toInt_ofNat_of_lt h'.2] at this
        omega
      obtain ⟨rfl, rfl⟩ := List.append_inj e2 hl
      exact ⟨rfl, rfl⟩

theorem waysWords_unique : ∀ (ws ws' : List PassWay) (t t' : List Int64), ws.length = ws'.length →
    (∀ w ∈ ws, w.Valid) → (∀ w ∈ ws', w.Valid) →
    ws.flatMap PassWay.words ++ t = ws'.flatMap PassWay.words ++ t' → ws = ws' ∧ t = t' := by
  intro ws
  induction ws with
  | nil =>
    intro ws' t t' hl _ _ h
    obtain rfl : ws' = [] := List.length_eq_zero_iff.1 hl.symm
    exact ⟨rfl, h⟩
  | cons w ws ih =>
    intro ws' t t' hl h1 h2 h
    cases ws' with
    | nil => simp at hl
    | cons w' ws' =>
      rw [List.flatMap_cons, List.flatMap_cons, List.append_assoc, List.append_assoc] at h
      obtain ⟨rfl, h3⟩ := wayWords_unique (h1 w (by simp)) (h2 w' (by simp)) h
      obtain ⟨rfl, rfl⟩ := ih ws' t t' (by simpa using hl) (fun w h => h1 w (by simp [h]))
        (fun w h => h2 w (by simp [h])) h3
      exact ⟨rfl, rfl⟩

theorem relWords_unique {r r' : PassRel} {t t' : List Int64} (h : r.Valid) (h' : r'.Valid)
    (e : r.words ++ t = r'.words ++ t') : r = r' ∧ t = t' := by
  obtain ⟨i, c, ws⟩ := r
  obtain ⟨i', c', ws'⟩ := r'
  obtain ⟨rfl, e0⟩ := List.cons.inj
    (show i :: (c :: (ws.flatMap PassWay.words ++ t)) = i' :: (c' :: (ws'.flatMap PassWay.words ++ t')) from e)
  obtain ⟨rfl, e2⟩ := List.cons.inj e0
  obtain ⟨rfl, rfl⟩ := waysWords_unique ws ws' t t' (h.1.trans h'.1.symm) h.2 h'.2 e2
  exact ⟨rfl, rfl⟩

theorem reads_unique : ∀ {rels rels' : List PassRel} {u : List Int64}, ReadsAs u rels → ReadsAs u rels' →
    rels = rels' := by
  intro rels
  induction rels with
  | nil =>
    intro rels' u h h'
    cases rels' with
    | nil => rfl
    | cons r rs => exact nomatch h.1.symm.trans h'.1
  | cons r rs ih =>
    intro rels' u h h'
    cases rels' with
    | nil => exact nomatch h'.1.symm.trans h.1
    | cons r' rs' =>
      have e := h.1.symm.trans h'.1
      rw [List.flatMap_cons, List.flatMap_cons] at e
      obtain ⟨rfl, e2⟩ := relWords_unique (h.2 r (by simp)) (h'.2 r' (by simp)) e
      rw [ih ⟨rfl, fun r h1 => h.2 r (by simp [h1])⟩ ⟨e2, fun r h1 => h'.2 r (by simp [h1])⟩]

/-- Whole relations followed by part of one are not whole relations. -/
theorem reads_cut {rels rels' : List PassRel} (h : ∀ r ∈ rels, r.Valid) (h' : ∀ r ∈ rels', r.Valid) {r : PassRel}
    (hr : r.Valid) {p q : List Int64} (hp : p ≠ []) (hq : q ≠ []) (e : r.words = p ++ q) :
    rels.flatMap PassRel.words ++ p ≠ rels'.flatMap PassRel.words := by
  induction rels generalizing rels' with
  | nil =>
    intro k
    rw [List.flatMap_nil, List.nil_append] at k
    cases rels' with
    | nil => exact hp k
    | cons r' rs' =>
      rw [k, List.flatMap_cons, List.append_assoc] at e
      obtain ⟨_, e2⟩ := relWords_unique (t := []) hr (h' r' (by simp)) (by rw [List.append_nil]; exact e)
      exact hq (List.append_eq_nil_iff.1 e2.symm).2
  | cons r0 rs ih =>
    intro k
    cases rels' with
    | nil => exact nomatch k
    | cons r' rs' =>
      rw [List.flatMap_cons, List.flatMap_cons, List.append_assoc] at k
      obtain ⟨rfl, k2⟩ := relWords_unique (h r0 (by simp)) (h' r' (by simp)) k
      exact ih (fun r h1 => h r (by simp [h1])) (fun r h1 => h' r (by simp [h1])) k2

end Osm.RelIndex
