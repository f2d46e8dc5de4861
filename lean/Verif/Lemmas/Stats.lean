import Verif.Spec.Stats
import Verif.Lemmas.RewritePasses

/-! # Lemmas on the statistics of rewritenodes -/

namespace Osm.NodeIndex
open Osm Osm.Spec

/-- What a lookup counts, and the hint it returns. -/
def Counts (si : SubIdx) (id : UInt64) (hint : Int) (r : Found) : Prop :=
  match rangeOf si.element id.toNat with
  | none => r.counted = [.missDefault] ∧ r.hint = hint
  | some k => r.counted = [if (k : Int) = hint then .hitHint else .hitDefault] ∧ r.hint = k

theorem rangeOf_some {es : List IndexElement} {locs : List Int64} (wf : WellFormed es locs) {k id : Nat} (hk : k < es.length)
    (h : rHas es[k] id) : rangeOf es id = some k := by
  unfold rangeOf
  rw [List.findIdx?_eq_some_iff_getElem]
  refine ⟨hk, decide_eq_true h, fun j hj => ?_⟩
  have := sorted_get wf hj hk
  unfold rHas at h
  simp only [decide_eq_true_eq, not_and]
  omega

theorem rangeOf_none {es : List IndexElement} {id : Nat} (h : ∀ e ∈ es, ¬ rHas e id) : rangeOf es id = none := by
  unfold rangeOf
  rw [List.findIdx?_eq_none_iff]
  intro e he
  exact decide_eq_false (h e he)

theorem findBetween_counts {si : SubIdx} (wf : WellFormed si.element si.locations) (id : UInt64) (hint : Int)
    (lo hi : Nat) (h1 : lo ≤ hi) (h2 : hi ≤ si.element.length) (hb : Bracket si.element id.toNat lo hi)
    (hne : ∀ (k : Nat) (hk : k < si.element.length), (k : Int) = hint → ¬ rHas si.element[k] id.toNat)
    (r : Found) (hr : si.findBetween id hint lo hi = .ok r) : Counts si id hint r := by
  obtain ⟨p, hp, hple, hu⟩ := search_ok wf id (si.element.length + 1) lo hi (by omega) h1 h2 hb
  unfold SubIdx.findBetween at hr
  rw [hp] at hr
  simp only [Res.ok_bind] at hr
  unfold Counts
  rcases Nat.lt_or_ge p si.element.length with hlt | hge
  · rw [List.getElem?_eq_getElem hlt] at hr
    have hmem : si.element[p] ∈ si.element := List.getElem_mem hlt
    dsimp only at hr
    by_cases hc : rHas si.element[p] id.toNat
    · rw [(contains_eq _ id (wf.nonempty _ hmem) (wf.ids _ hmem)).2 hc] at hr
      obtain ⟨o, l, e1, e2, e3⟩ := loc_ok wf hmem id hc
      simp only [Bool.not_true, Bool.false_eq_true, if_false, e1, Res.ok_bind, e2] at hr
      cases hr
      rw [rangeOf_some wf hlt hc]
      dsimp only
      rw [if_neg fun h => hne p hlt h hc]
      exact ⟨rfl, rfl⟩
    · have hf : si.element[p].contains id = false := by
        rw [← Bool.not_eq_true]
        exact fun h => hc ((contains_eq _ id (wf.nonempty _ hmem) (wf.ids _ hmem)).1 h)
      rw [hf] at hr
      cases hr
      rw [rangeOf_none fun e he hh => ?_]
      · exact ⟨rfl, rfl⟩
      obtain ⟨k, hk, rfl⟩ := List.getElem_of_mem he
      have := hu k hk hh
      subst this
      exact hc hh
  · rw [List.getElem?_eq_none hge] at hr
    cases hr
    rw [rangeOf_none fun e he hh => ?_]
    · exact ⟨rfl, rfl⟩
    obtain ⟨k, hk, rfl⟩ := List.getElem_of_mem he
    have := hu k hk hh
    omega

theorem findNode_counts {si : SubIdx} (hw : WellFormedSub si) (id : UInt64) (hint : Int) (hh : 0 ≤ hint)
    (r : Found) (hr : si.findNode id hint = .ok r) :
    if si.Top.toNat < id.toNat then r.counted = [.missDeferred] ∧ r.hint = hint else Counts si id hint r := by
  obtain ⟨wf, ht⟩ := hw
  unfold SubIdx.findNode at hr
  by_cases h1 : id > si.Top
  · rw [if_pos h1] at hr
    rw [if_pos (UInt64.lt_iff_toNat_lt.1 h1)]
    cases hr
    exact ⟨rfl, rfl⟩
  · rw [if_neg h1] at hr
    rw [if_neg fun h => h1 (UInt64.lt_iff_toNat_lt.2 h)]
    by_cases h2 : hint < si.element.length
    · rw [if_pos h2, if_neg (by omega)] at hr
      have hk : hint.toNat < si.element.length := by omega
      have hmem : si.element[hint.toNat] ∈ si.element := List.getElem_mem hk
      rw [List.getElem?_eq_getElem hk] at hr
      simp only [Res.ofOption_some, Res.ok_bind] at hr
      rw [compareId_eq _ id (wf.nonempty _ hmem) (wf.ids _ hmem)] at hr
      by_cases h3 : id.toNat < rFirst si.element[hint.toNat]
      · rw [if_pos h3, if_pos rfl] at hr
        refine findBetween_counts wf id hint _ _ (by omega) (by omega) ⟨fun k _ h => by omega, fun k hk2 h => ?_⟩ ?_ r hr
        · rcases Nat.lt_or_ge hint.toNat k with h' | h'
          · have := sorted_get wf h' hk2
            omega
          · have : k = hint.toNat := by omega
            subst this; exact h3
        · intro k hk2 he h
          have : k = hint.toNat := by omega
          subst this
          unfold rHas at h
          omega
      · rw [if_neg h3] at hr
        by_cases h4 : rFirst si.element[hint.toNat] + rCount si.element[hint.toNat] ≤ id.toNat
        · rw [if_pos h4, if_neg (by decide), if_neg (by decide)] at hr
          refine findBetween_counts wf id hint _ _ (by omega) (by omega) ⟨fun k hk2 h => ?_, fun k _ h => by omega⟩ ?_ r hr
          · have := sorted_get wf h hk
            omega
          · intro k hk2 he h
            have : k = hint.toNat := by omega
            subst this
            unfold rHas at h
            omega
        · rw [if_neg h4, if_neg (by decide), if_pos rfl] at hr
          have hrr : rHas si.element[hint.toNat] id.toNat := by unfold rHas; omega
          obtain ⟨o, l, e1, e2, e3⟩ := loc_ok wf hmem id hrr
          rw [e1] at hr
          simp only [Res.ok_bind] at hr
          rw [e2] at hr
          cases hr
          unfold Counts
          rw [rangeOf_some wf hk hrr]
          dsimp only
          rw [if_pos (by omega)]
          exact ⟨rfl, by omega⟩
    · rw [if_neg h2] at hr
      refine findBetween_counts wf id hint _ _ (by omega) (by omega) ⟨fun k _ h => by omega, fun k _ h => by omega⟩ ?_ r hr
      intro k hk he
      omega

end Osm.NodeIndex

namespace Osm.Rewrite
open Osm Osm.T Osm.Pbf Osm.Spec Osm.NodeIndex

theorem ref_id {r : Int64} (hr : 0 ≤ r.toInt) : r.toUInt64.toNat = r.toInt.toNat := by
  have h1 := Int64.toInt_lt r
  have h0 : ((r.toUInt64.toNat : Int)).bmod (2 ^ 64) = r.toInt := by
    rw [← Int64.toInt_toBitVec, BitVec.toInt_eq_toNat_bmod]; rfl
  rw [Int.bmod_def] at h0
  have := UInt64.toNat_lt r.toUInt64
  omega

/-- The hint after some refs. -/
def lastOf (es : List IndexElement) (top : Nat) : Nat → List Int64 → Nat
  | last, [] => last
  | last, r :: rs =>
    if r.toInt < 0 then lastOf es top last rs
    else if top < r.toInt.toNat then lastOf es top last rs
    else match rangeOf es r.toInt.toNat with
      | none => lastOf es top last rs
      | some k => lastOf es top k rs

theorem countsOf_append (es : List IndexElement) (top : Nat) (a b : List Int64) : ∀ last,
    countsOf es top last (a ++ b) = countsOf es top last a ++ countsOf es top (lastOf es top last a) b := by
  induction a with
  | nil => intro last; rfl
  | cons r rs ih =>
    intro last
    simp only [List.cons_append, countsOf, lastOf]
    split
    · exact ih last
    · split
      · rw [ih]; rfl
      · cases rangeOf es r.toInt.toNat with
        | none => dsimp only; rw [ih]; rfl
        | some k => dsimp only; rw [ih]; rfl

theorem lastOf_append (es : List IndexElement) (top : Nat) (a b : List Int64) : ∀ last,
    lastOf es top last (a ++ b) = lastOf es top (lastOf es top last a) b := by
  induction a with
  | nil => intro last; rfl
  | cons r rs ih =>
    intro last
    simp only [List.cons_append, lastOf]
    split
    · exact ih last
    · split
      · exact ih _
      · split <;> exact ih _

theorem countRefs_eq {si : SubIdx} (hw : WellFormedSub si) : ∀ (rs : List Int64) (last : Nat),
    countRefs si last rs = .ok (countsOf si.element si.Top.toNat last rs, (lastOf si.element si.Top.toNat last rs : Nat))
  | [], last => rfl
  | r :: rs, last => by
    unfold countRefs countsOf lastOf
    by_cases hr : r < 0
    · rw [if_pos hr]
      rw [Int64.lt_iff_toInt_lt] at hr
      have hr : r.toInt < 0 := by simpa using hr
      rw [if_pos hr, if_pos hr]
      exact countRefs_eq hw rs last
    · rw [if_neg hr]
      rw [Int64.lt_iff_toInt_lt] at hr
      have hr : ¬ r.toInt < 0 := by simpa using hr
      rw [if_neg hr, if_neg hr]
      obtain ⟨f, h1, _⟩ := findNode_ok hw r.toUInt64 last (by omega)
      have h2 := findNode_counts hw r.toUInt64 last (by omega) f h1
      rw [ref_id (by omega)] at h2
      rw [h1, Res.ok_bind]
      split at h2
      · next h =>
        rw [if_pos h, if_pos h, h2.1, h2.2, countRefs_eq hw rs last]
        rfl
      · next h =>
        rw [if_neg h, if_neg h]
        unfold Counts at h2
        rw [ref_id (by omega)] at h2
        cases hk : rangeOf si.element r.toInt.toNat with
        | none =>
          rw [hk] at h2
          dsimp only at h2 ⊢
          rw [h2.1, h2.2, countRefs_eq hw rs last]
          rfl
        | some k =>
          rw [hk] at h2
          dsimp only at h2 ⊢
          rw [h2.1, h2.2, countRefs_eq hw rs k]
          by_cases e : k = last
          · subst e; simp
          · have : ¬ (k : Int) = last := by omega
            simp [e, this]

theorem countWays_eq {si : SubIdx} (hw : WellFormedSub si) : ∀ (ws : List Way) (last : Nat),
    countWays si last ws = .ok (countsOf si.element si.Top.toNat last (ws.flatMap (·.Refs)),
      (lastOf si.element si.Top.toNat last (ws.flatMap (·.Refs)) : Nat))
  | [], last => rfl
  | w :: ws, last => by
    unfold countWays
    rw [countRefs_eq hw, Res.ok_bind]
    dsimp only
    rw [countWays_eq hw ws, Res.ok_bind, List.flatMap_cons, countsOf_append, lastOf_append]

theorem countGroups_eq {si : SubIdx} (hw : WellFormedSub si) : ∀ (gs : List T.PrimitiveGroup) (last : Nat),
    countGroups si last gs = .ok (countsOf si.element si.Top.toNat last (gs.flatMap fun g => g.Ways.flatMap (·.Refs)),
      (lastOf si.element si.Top.toNat last (gs.flatMap fun g => g.Ways.flatMap (·.Refs)) : Nat))
  | [], last => rfl
  | g :: gs, last => by
    unfold countGroups
    rw [countWays_eq hw, Res.ok_bind]
    dsimp only
    rw [countGroups_eq hw gs, Res.ok_bind, List.flatMap_cons, countsOf_append, lastOf_append]

theorem blockRefs_noWays {pb : PrimitiveBlock} (h : totalWays pb = 0) : blockRefs pb = [] := by
  unfold totalWays at h
  unfold blockRefs
  rw [List.sum_eq_zero_iff_forall_eq_nat] at h
  rw [List.flatMap_eq_nil_iff]
  intro g hg
  have := h _ (List.mem_map.2 ⟨g, hg, rfl⟩)
  rw [List.length_eq_zero_iff.1 this]
  rfl

theorem blockRefs_trim (pb : PrimitiveBlock) : blockRefs (trimBlock pb) = blockRefs pb := by
  unfold blockRefs trimBlock
  simp only [List.flatMap_map]
  rfl

theorem countBlock_eq {si : SubIdx} (hw : WellFormedSub si) (pb : PrimitiveBlock) :
    countBlock si pb = .ok (countsOf si.element si.Top.toNat 0 (blockRefs pb)) := by
  unfold countBlock
  split
  · next h => rw [blockRefs_noWays h]; rfl
  · rw [show (0 : Int) = ((0 : Nat) : Int) from rfl, countGroups_eq hw]
    rfl

theorem countWork_content (inflate : Inflate) (sched : Block → Sched) (hsched : ∀ b, (sched b).pooled.length < 2 ^ 63)
    {si : SubIdx} (hw : WellFormedSub si) {b : Block} (hf : b.Data.Fits) {c : Content}
    (hc : HasContent inflate reader b.Kind b.Data.bytes c) :
    countWork inflate sched si b = .ok (c.counts si.element si.Top.toNat) := by
  unfold countWork
  cases c with
  | other k bs =>
    obtain ⟨h1, h2, h3⟩ := hc
    rw [if_pos h3]
    rfl
  | data c =>
    obtain ⟨h1, h2⟩ := hc
    rw [if_neg (by simp [h1])]
    obtain ⟨i, data, kind⟩ := b
    subst h1
    obtain ⟨raw, pb, r1, r2, r3⟩ := h2 i data.spare (sched ⟨i, data, osmData⟩) hf (hsched _)
    rw [r1, Res.ok_bind, r2, Res.ok_bind, countBlock_eq hw, ← r3]
    unfold Content.counts
    dsimp only
    rw [blockRefs_trim]

theorem countedWorks (inflate : Inflate) (sched : Block → Sched) (hsched : ∀ b, (sched b).pooled.length < 2 ^ 63)
    {si : SubIdx} (hw : WellFormedSub si) : ∀ {bs : List Block} {cs : List Content} {xs : List Out},
    (∀ b ∈ bs, b.Data.Fits) → Matches (fun b c => HasContent inflate reader b.Kind b.Data.bytes c) bs cs →
    mapRes (rewriteWork inflate sched si) bs = .ok xs →
    mapRes (countedWork inflate sched si) bs = .ok (xs.zip (cs.map (·.counts si.element si.Top.toNat))) := by
  intro bs
  induction bs with
  | nil => intro cs xs _ hm hx; cases hm; cases hx; rfl
  | cons b bs ih =>
    intro cs xs hf hm hx
    cases hm with
    | cons hb hm =>
      unfold mapRes at hx
      obtain ⟨y, hy, hx⟩ := Res.bind_eq_ok.1 hx
      obtain ⟨ys, hys, hx⟩ := Res.bind_eq_ok.1 hx
      cases hx
      unfold mapRes
      rw [ih (fun b hb => hf b (by simp [hb])) hm hys]
      unfold countedWork
      rw [hy, Res.ok_bind, countWork_content inflate sched hsched hw (hf b (by simp)) hb]
      rfl

/-! ## Counting changes nothing else -/

theorem countRefs_of_rewrite (si : SubIdx) : ∀ (rs : List Int64) (hint : Int) {x}, rewriteRefs si hint rs = .ok x →
    ∃ c, countRefs si hint rs = .ok (c, x.2)
  | [], hint, x, h => by cases h; exact ⟨[], rfl⟩
  | r :: rs, hint, x, h => by
    unfold rewriteRefs at h
    unfold countRefs
    split at h
    · next hr =>
      obtain ⟨y, hy, h⟩ := Res.bind_eq_ok.1 h
      cases h
      rw [if_pos hr]
      exact countRefs_of_rewrite si rs hint (x := y) hy
    · next hr =>
      obtain ⟨f, hf, h⟩ := Res.bind_eq_ok.1 h
      obtain ⟨y, hy, h⟩ := Res.bind_eq_ok.1 h
      cases h
      obtain ⟨c, hc⟩ := countRefs_of_rewrite si rs f.hint hy
      rw [if_neg hr, hf, Res.ok_bind, hc]
      exact ⟨_, rfl⟩

theorem countWays_of_rewrite (si : SubIdx) : ∀ (ws : List Way) (hint : Int) {x}, rewriteWays si hint ws = .ok x →
    ∃ c, countWays si hint ws = .ok (c, x.2)
  | [], hint, x, h => by cases h; exact ⟨[], rfl⟩
  | w :: ws, hint, x, h => by
    unfold rewriteWays at h
    unfold countWays
    obtain ⟨f, hf, h⟩ := Res.bind_eq_ok.1 h
    obtain ⟨y, hy, h⟩ := Res.bind_eq_ok.1 h
    cases h
    obtain ⟨a, ha⟩ := countRefs_of_rewrite si w.Refs hint hf
    obtain ⟨c, hc⟩ := countWays_of_rewrite si ws f.2 hy
    rw [ha, Res.ok_bind, hc]
    exact ⟨_, rfl⟩

theorem countGroups_of_rewrite (si : SubIdx) : ∀ (gs : List T.PrimitiveGroup) (hint : Int) {x},
    rewriteGroups si hint gs = .ok x → ∃ c, countGroups si hint gs = .ok (c, x.2)
  | [], hint, x, h => by cases h; exact ⟨[], rfl⟩
  | g :: gs, hint, x, h => by
    unfold rewriteGroups at h
    unfold countGroups
    obtain ⟨f, hf, h⟩ := Res.bind_eq_ok.1 h
    obtain ⟨y, hy, h⟩ := Res.bind_eq_ok.1 h
    cases h
    obtain ⟨a, ha⟩ := countWays_of_rewrite si g.Ways hint hf
    obtain ⟨c, hc⟩ := countGroups_of_rewrite si gs f.2 hy
    rw [ha, Res.ok_bind, hc]
    exact ⟨_, rfl⟩

theorem countedWork_of_rewrite (inflate : Inflate) (sched : Block → Sched) (si : SubIdx) (b : Block) {x : Out}
    (h : rewriteWork inflate sched si b = .ok x) : ∃ c, countedWork inflate sched si b = .ok (x, c) := by
  unfold countedWork
  rw [h, Res.ok_bind]
  suffices ∃ c, countWork inflate sched si b = .ok c by
    obtain ⟨c, hc⟩ := this
    rw [hc]
    exact ⟨c, rfl⟩
  unfold rewriteWork at h
  unfold countWork
  split at h
  · next hk => rw [if_pos hk]; exact ⟨_, rfl⟩
  · next hk =>
    rw [if_neg hk]
    obtain ⟨raw, h1, h⟩ := Res.bind_eq_ok.1 h
    obtain ⟨pb, h2, h⟩ := Res.bind_eq_ok.1 h
    rw [h1, Res.ok_bind, h2, Res.ok_bind]
    unfold rewriteDecoded at h
    unfold countBlock
    split at h
    · next ht => rw [if_pos ht]; exact ⟨_, rfl⟩
    · next ht =>
      rw [if_neg ht]
      obtain ⟨blob, h3, h⟩ := Res.bind_eq_ok.1 h
      unfold rewriteBlock at h3
      obtain ⟨r, h4, h3⟩ := Res.bind_eq_ok.1 h3
      obtain ⟨c, hc⟩ := countGroups_of_rewrite si _ _ h4
      rw [hc]
      exact ⟨_, rfl⟩

theorem countedWorks_of_rewrite (inflate : Inflate) (sched : Block → Sched) (si : SubIdx) : ∀ {bs : List Block} {xs : List Out},
    mapRes (rewriteWork inflate sched si) bs = .ok xs →
    ∃ ys, mapRes (countedWork inflate sched si) bs = .ok ys ∧ ys.map (·.1) = xs := by
  intro bs
  induction bs with
  | nil => intro xs h; cases h; exact ⟨[], rfl, rfl⟩
  | cons b bs ih =>
    intro xs h
    unfold mapRes at h
    obtain ⟨y, hy, h⟩ := Res.bind_eq_ok.1 h
    obtain ⟨ys, hys, h⟩ := Res.bind_eq_ok.1 h
    cases h
    obtain ⟨c, hc⟩ := countedWork_of_rewrite inflate sched si b hy
    obtain ⟨zs, h1, h2⟩ := ih hys
    unfold mapRes
    rw [hc, Res.ok_bind, h1]
    exact ⟨_, rfl, by simp [h2]⟩

theorem countedWorks_rewrite (inflate : Inflate) (sched : Block → Sched) (si : SubIdx) : ∀ {bs : List Block} {ys},
    mapRes (countedWork inflate sched si) bs = .ok ys → mapRes (rewriteWork inflate sched si) bs = .ok (ys.map (·.1)) := by
  intro bs
  induction bs with
  | nil => intro xs h; cases h; rfl
  | cons b bs ih =>
    intro xs h
    unfold mapRes at h
    obtain ⟨y, hy, h⟩ := Res.bind_eq_ok.1 h
    obtain ⟨ys, hys, h⟩ := Res.bind_eq_ok.1 h
    cases h
    unfold countedWork at hy
    obtain ⟨o, ho, hy⟩ := Res.bind_eq_ok.1 hy
    obtain ⟨c, _, hy⟩ := Res.bind_eq_ok.1 hy
    cases hy
    unfold mapRes
    rw [ho, Res.ok_bind, ih hys]
    rfl

/-- One run does what the other does; the second also returns something. -/
def Erases {α : Type} (p : Prog Unit) (q : Prog α) : Prop :=
  ∀ fs fs', p.exec fs = .ok ((), fs') ↔ ∃ a, q.exec fs = .ok (a, fs')

theorem bind_ok {α β : Type} {p : Prog α} {f : α → Prog β} {fs fs' : FS} {b : β} :
    (p >>= f).exec fs = .ok (b, fs') ↔ ∃ a fs1, p.exec fs = .ok (a, fs1) ∧ (f a).exec fs1 = .ok (b, fs') := by
  rw [Prog.exec_bind, Res.bind_eq_ok]
  constructor
  · rintro ⟨⟨a, fs1⟩, h1, h2⟩; exact ⟨a, fs1, h1, h2⟩
  · rintro ⟨a, fs1, h1, h2⟩; exact ⟨⟨a, fs1⟩, h1, h2⟩

theorem lift_ok {α : Type} {r : Res α} {fs fs' : FS} {a : α} :
    (Prog.lift r).exec fs = .ok (a, fs') ↔ r = .ok a ∧ fs' = fs := by
  rw [Prog.exec_lift, Res.bind_eq_ok]
  constructor
  · rintro ⟨x, h1, h2⟩; cases h2; exact ⟨h1, rfl⟩
  · rintro ⟨h1, rfl⟩; exact ⟨a, h1, rfl⟩

theorem pure_ok {α : Type} {a b : α} {fs fs' : FS} : (Prog.pure a).exec fs = .ok (b, fs') ↔ a = b ∧ fs = fs' := by
  rw [Prog.exec_pure]; simp

theorem pass_erases (inflate : Inflate) (sched : Block → Sched) (si : SubIdx) (inp out : String) :
    Erases (pass inflate sched si inp out) (passC inflate sched si inp out) := by
  intro fs fs'
  unfold pass passC
  simp only [bind_ok, lift_ok, pure_ok]
  constructor
  · rintro ⟨_, f1, h1, m, f2, h2, bs, _, ⟨h3, rfl⟩, xs, _, ⟨h4, rfl⟩, h5⟩
    obtain ⟨ys, h6, rfl⟩ := countedWorks_of_rewrite inflate sched si h4
    exact ⟨_, _, f1, h1, m, _, h2, bs, _, ⟨h3, rfl⟩, ys, _, ⟨h6, rfl⟩, (), fs', h5, rfl, rfl⟩
  · rintro ⟨_, _, f1, h1, m, f2, h2, bs, _, ⟨h3, rfl⟩, ys, _, ⟨h6, rfl⟩, _, _, h5, rfl, rfl⟩
    exact ⟨_, f1, h1, m, _, h2, bs, _, ⟨h3, rfl⟩, _, _, ⟨countedWorks_rewrite inflate sched si h6, rfl⟩, h5⟩

theorem runPasses_erases (inflate : Inflate) (scheds : Nat → Block → Sched) (ix : NodeIdx) (inp out : String) (n : Nat) :
    ∀ left i, Erases (runPasses inflate scheds ix inp out n left i) (runPassesC inflate scheds ix inp out n left i) := by
  intro left
  induction left with
  | zero =>
    intro i fs fs'
    unfold runPasses runPassesC
    simp only [pure_ok]
    simp
  | succ left ih =>
    intro i fs fs'
    unfold runPasses runPassesC
    simp only [bind_ok, lift_ok, pure_ok]
    constructor
    · rintro ⟨_, f1, h1, si, _, ⟨h2, rfl⟩, _, f3, h3, h4⟩
      obtain ⟨c, hc⟩ := (pass_erases _ _ _ _ _ _ _).1 h3
      obtain ⟨cs, hcs⟩ := (ih _ _ _).1 h4
      exact ⟨_, _, _, h1, si, _, ⟨h2, rfl⟩, c, f3, hc, cs, fs', hcs, rfl, rfl⟩
    · rintro ⟨_, _, f1, h1, si, _, ⟨h2, rfl⟩, c, f3, hc, cs, _, hcs, rfl, rfl⟩
      exact ⟨_, _, h1, si, _, ⟨h2, rfl⟩, _, f3, (pass_erases _ _ _ _ _ _ _).2 ⟨c, hc⟩, (ih _ _ _).2 ⟨cs, hcs⟩⟩

theorem rewritenodes_erases (inflate : Inflate) (scheds : Nat → Block → Sched) (memory : Option UInt64)
    (inp index out : String) :
    Erases (rewritenodes inflate scheds memory inp index out) (rewritenodesC inflate scheds memory inp index out) := by
  intro fs fs'
  unfold rewritenodes rewritenodesC
  simp only [bind_ok, lift_ok, pure_ok]
  constructor
  · rintro ⟨_, f1, h1, m, f2, h2, ix, _, ⟨h3, rfl⟩, n, _, ⟨h4, rfl⟩, _, f5, h5, h6⟩
    obtain ⟨cs, hcs⟩ := (runPasses_erases _ _ _ _ _ _ _ _ _ _).1 h5
    exact ⟨_, _, f1, h1, m, _, h2, ix, _, ⟨h3, rfl⟩, n, _, ⟨h4, rfl⟩, cs, f5, hcs, (), fs', h6, rfl, rfl⟩
  · rintro ⟨_, _, f1, h1, m, f2, h2, ix, _, ⟨h3, rfl⟩, n, _, ⟨h4, rfl⟩, cs, f5, hcs, _, _, h6, rfl, rfl⟩
    exact ⟨_, f1, h1, m, _, h2, ix, _, ⟨h3, rfl⟩, n, _, ⟨h4, rfl⟩, _, f5, (runPasses_erases _ _ _ _ _ _ _ _ _ _).2 ⟨cs, hcs⟩, h6⟩

/-! ## The counts of a run -/

/-- If a pass succeeds, its counts are those of the content of its input. -/
theorem passC_counts (inflate : Inflate) (sched : Block → Sched) (hsched : ∀ b, (sched b).pooled.length < 2 ^ 63)
    {si : SubIdx} (hw : WellFormedSub si) {file : List UInt8} (hl : file.length < 2 ^ 63) {cs : List Content}
    (hc : FileHas inflate reader file cs) (inp out : String) (fs fs' : FS) (hin : Holds fs inp file) {ys}
    (h : (passC inflate sched si inp out).exec fs = .ok (ys, fs')) : ys = cs.map (·.counts si.element si.Top.toNat) := by
  obtain ⟨bs, h1, h2⟩ := hc
  obtain ⟨hbne, hb⟩ := split_blocks hl h1
  unfold passC at h
  simp only [bind_ok, lift_ok, pure_ok] at h
  obtain ⟨_, f1, e1, m, f2, e2, bs', _, ⟨e3, rfl⟩, xs, _, ⟨e4, rfl⟩, _, _, e5, rfl, rfl⟩ := h
  obtain ⟨pos, hin⟩ := hin
  rw [exec_OsOpen_some hin] at e1
  cases e1
  rw [exec_MMapMap, hin] at e2
  dsimp only at e2
  have hne : file ≠ [] := ((split_iff file hl bs).1 h1).1
  rw [if_neg hne] at e2
  cases e2
  rw [h1] at e3
  cases e3
  have e6 := countedWorks inflate sched hsched hw (fun b h => (hb b h).1) h2 (countedWorks_rewrite inflate sched si e4)
  rw [e4] at e6
  have e7 := Res.ok.inj e6
  rw [e7, List.map_snd_zip]
  have a1 := each_length h2
  have a2 := mapRes_len e4
  simp
  omega

theorem runPassesC_counts (inflate : Inflate) (scheds : Nat → Block → Sched)
    (hsched : ∀ i b, (scheds i b).pooled.length < 2 ^ 63) {ix : NodeIdx} (inp out : String) {n : Nat} :
    ∀ (subs : List SubIdx) (i : Nat) (fs fs' : FS) (file : List UInt8) (cs : List Content) (ys),
      (∀ (p : Nat) si, subs[p]? = some si → ix.SubIndex (UInt64.ofNat (i + p)) (UInt64.ofNat n) = .ok si ∧ WellFormedSub si ∧
        si.locations = ix.locations) → i + subs.length = n →
      Holds fs (passInput inp out n i) file → file.length < 2 ^ 63 → FileHas inflate reader file cs → SmallFile cs →
      (runPassesC inflate scheds ix inp out n subs.length i).exec fs = .ok (ys, fs') →
      ys = passesCounts ix.locations subs cs := by
  have hneq : ∀ p q, p ≠ q → RelIndex.makePassFilename out p n ≠ RelIndex.makePassFilename out q n :=
    fun p q h he => h (RelIndex.pass_inj he)
  intro subs
  induction subs with
  | nil =>
    intro i fs fs' file cs ys _ _ _ _ _ _ h
    cases h
    rfl
  | cons si subs ih =>
    intro i fs fs' file cs ys hsub hi hin hl hc hsm h
    rw [List.length_cons] at h hi
    unfold runPassesC at h
    simp only [bind_ok, lift_ok, pure_ok] at h
    obtain ⟨_, f1, e1, si', f2, ⟨e2, hf2⟩, c, f3, e3, rest, _, e4, rfl, rfl⟩ := h
    subst hf2
    obtain ⟨s1, s2, s3⟩ := hsub 0 si rfl
    rw [Nat.add_zero, e2] at s1
    cases s1
    obtain ⟨fs0, z1, z2, z3⟩ := removeOld_exec out n i fs
    rw [e1] at z1
    obtain rfl : f2 = fs0 := congrArg Prod.snd (Res.ok.inj z1)
    have hin1 : Holds f2 (passInput inp out n i) file := by
      obtain ⟨pos, hin⟩ := hin
      refine ⟨pos, ?_⟩
      rw [z3, hin]
      intro h2
      unfold passInput
      rw [if_pos (by omega)]
      exact hneq _ _ (by omega)
    have k1 := passC_counts inflate (scheds i) (hsched i) s2 hl hc _ _ _ _ hin1 e3
    obtain ⟨fs1, file1, h1, h2, h3, h4, h5⟩ := pass_ok inflate (scheds i) (hsched i) s2 hl hc hsm
      (passInput inp out n i) (passOutput out n i) f2 hin1
    have h6 := (pass_erases inflate (scheds i) si (passInput inp out n i) (passOutput out n i) f2 f3).2 ⟨c, e3⟩
    rw [h1] at h6
    cases h6
    unfold passesCounts
    rw [k1]
    congr 1
    cases subs with
    | nil =>
      cases e4
      rfl
    | cons si2 subs =>
      have hout : passOutput out n i = passInput inp out n (i + 1) := by
        rw [List.length_cons] at hi
        unfold passOutput passInput
        rw [if_pos (by omega), if_pos (by omega)]
      rw [hout] at h2
      rw [s3] at h4
      refine ih (i + 1) _ _ file1 _ rest ?_ (by omega) h2 h3 h4 (smallFile_map _ hsm) e4
      intro p si' hp
      have := hsub (p + 1) si' hp
      rw [show i + (p + 1) = i + 1 + p by omega] at this
      exact this

end Osm.Rewrite
