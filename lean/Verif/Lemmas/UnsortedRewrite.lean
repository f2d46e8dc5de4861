import Verif.Spec.Unsorted
import Verif.Lemmas.RewritePasses
import Verif.Lemmas.UnsortedNodes
import Verif.Props.Rewrite

/-! # Rewriting with an index whose answers depend on the hint -/

namespace Osm.Rewrite
open Osm Osm.T Osm.Pbf Osm.Spec Osm.NodeIndex

theorem matches_length {α β : Type} {R : α → β → Prop} {as : List α} {bs : List β} (h : Matches R as bs) :
    bs.length = as.length := by
  induction h with
  | nil => rfl
  | cons _ _ ih => simp [ih]

theorem matches_imp {α β : Type} {R S : α → β → Prop} (hi : ∀ a b, R a b → S a b) {as : List α} {bs : List β}
    (h : Matches R as bs) : Matches S as bs := by
  induction h with
  | nil => exact .nil
  | cons h1 _ ih => exact .cons (hi _ _ h1) ih

theorem matches_comp {α β γ : Type} {R : α → β → Prop} {S : β → γ → Prop} {Q : α → γ → Prop}
    (hi : ∀ a b c, R a b → S b c → Q a c) {as : List α} {bs : List β} (h : Matches R as bs) :
    ∀ {cs : List γ}, Matches S bs cs → Matches Q as cs := by
  induction h with
  | nil => intro cs h2; cases h2; exact .nil
  | cons h1 _ ih =>
    intro cs h2
    cases h2 with
    | cons g1 g2 => exact .cons (hi _ _ _ h1 g1) (ih g2)

theorem matches_map {α β γ δ : Type} {R : α → β → Prop} {S : γ → δ → Prop} {f : α → γ} {g : β → δ}
    (hi : ∀ a b, R a b → S (f a) (g b)) {as : List α} {bs : List β} (h : Matches R as bs) :
    Matches S (as.map f) (bs.map g) := by
  induction h with
  | nil => exact .nil
  | cons h1 _ ih => exact .cons (hi _ _ h1) ih

theorem matches_right {α β : Type} {R : α → β → Prop} {as : List α} {bs : List β} (h : Matches R as bs) :
    ∀ b ∈ bs, ∃ a ∈ as, R a b := by
  induction h with
  | nil => simp
  | cons h1 _ ih =>
    intro b hb
    rcases List.mem_cons.1 hb with rfl | hb
    · exact ⟨_, by simp, h1⟩
    · obtain ⟨a, ha, h⟩ := ih b hb
      exact ⟨a, by simp [ha], h⟩

theorem matches_refl {α : Type} {R : α → α → Prop} (hr : ∀ a, R a a) : ∀ as : List α, Matches R as as
  | [] => .nil
  | a :: as => .cons (hr a) (matches_refl hr as)

theorem way_comp {P Q S : Int64 → Int64 → Prop} (hi : ∀ a b c, P a b → Q b c → S a c) (a b c : Way)
    (h1 : WayButRefs P a b) (h2 : WayButRefs Q b c) : WayButRefs S a c := by
  obtain ⟨r1, m1, rfl⟩ := h1
  obtain ⟨r2, m2, rfl⟩ := h2
  exact ⟨r2, matches_comp hi m1 m2, rfl⟩

theorem group_comp {P Q S : Int64 → Int64 → Prop} (hi : ∀ a b c, P a b → Q b c → S a c) (a b c : T.PrimitiveGroup)
    (h1 : GroupButRefs P a b) (h2 : GroupButRefs Q b c) : GroupButRefs S a c := by
  obtain ⟨r1, m1, rfl⟩ := h1
  obtain ⟨r2, m2, rfl⟩ := h2
  exact ⟨r2, matches_comp (way_comp hi) m1 m2, rfl⟩

theorem content_comp {P Q S : Int64 → Int64 → Prop} (hi : ∀ a b c, P a b → Q b c → S a c) (a b c : Content)
    (h1 : ButRefs P a b) (h2 : ButRefs Q b c) : ButRefs S a c := by
  cases h1 with
  | other => cases h2; exact .other _ _
  | data a b h1 =>
    cases h2 with
    | data _ c h2 =>
      obtain ⟨r1, m1, rfl⟩ := h1
      obtain ⟨r2, m2, rfl⟩ := h2
      exact .data _ _ ⟨r2, matches_comp (group_comp hi) m1 m2, rfl⟩

theorem way_imp {P Q : Int64 → Int64 → Prop} (hi : ∀ a b, P a b → Q a b) (a b : Way) (h : WayButRefs P a b) :
    WayButRefs Q a b := by
  obtain ⟨rs, h1, h2⟩ := h
  exact ⟨rs, matches_imp hi h1, h2⟩

theorem group_imp {P Q : Int64 → Int64 → Prop} (hi : ∀ a b, P a b → Q a b) (a b : T.PrimitiveGroup)
    (h : GroupButRefs P a b) : GroupButRefs Q a b := by
  obtain ⟨ws, h1, h2⟩ := h
  exact ⟨ws, matches_imp (way_imp hi) h1, h2⟩

theorem content_imp {P Q : Int64 → Int64 → Prop} (hi : ∀ a b, P a b → Q a b) (a b : Content) (h : ButRefs P a b) :
    ButRefs Q a b := by
  cases h with
  | other k d => exact .other k d
  | data b b' h =>
    obtain ⟨gs, h1, h2⟩ := h
    exact .data b b' ⟨gs, matches_imp (group_imp hi) h1, h2⟩

theorem content_refl {P : Int64 → Int64 → Prop} (hr : ∀ a, P a a) (c : Content) : ButRefs P c c := by
  cases c with
  | other => exact .other _ _
  | data b =>
    exact .data _ _ ⟨_, matches_refl (fun g => ⟨_, matches_refl (fun w => ⟨_, matches_refl hr _, rfl⟩) _, rfl⟩) _, rfl⟩

/-- What the index gives for a ref, whatever the hint. -/
def Gives (si : SubIdx) (P : Int64 → Int64 → Prop) : Prop :=
  (∀ r : Int64, r < 0 → P r r) ∧
  ∀ r : Int64, ¬ r < 0 → ∀ hint : Int, 0 ≤ hint → ∃ f, si.findNode r.toUInt64 hint = .ok f ∧ 0 ≤ f.hint ∧ P r (keepOr r f)

theorem refs_rel {si : SubIdx} {P : Int64 → Int64 → Prop} (hg : Gives si P) : ∀ (rs : List Int64) (hint : Int), 0 ≤ hint →
    ∃ rs' hint', 0 ≤ hint' ∧ rewriteRefs si hint rs = .ok (rs', hint') ∧ Matches P rs rs'
  | [], hint, hh => ⟨[], hint, hh, rfl, .nil⟩
  | r :: rs, hint, hh => by
    unfold rewriteRefs
    by_cases hr : r < 0
    · obtain ⟨rs', hint', h1, h2, h3⟩ := refs_rel hg rs hint hh
      refine ⟨r :: rs', hint', h1, ?_, .cons (hg.1 r hr) h3⟩
      rw [if_pos hr, h2]
      rfl
    · rw [if_neg hr]
      obtain ⟨f, h1, h2, h3⟩ := hg.2 r hr hint hh
      obtain ⟨rs', hint', h4, h5, h6⟩ := refs_rel hg rs f.hint h2
      refine ⟨keepOr r f :: rs', hint', h4, ?_, .cons h3 h6⟩
      rw [h1, Res.ok_bind, h5]
      rfl

theorem ways_rel {si : SubIdx} {P : Int64 → Int64 → Prop} (hg : Gives si P) : ∀ (ws : List Way) (hint : Int), 0 ≤ hint →
    ∃ ws' hint', 0 ≤ hint' ∧ rewriteWays si hint ws = .ok (ws', hint') ∧ Matches (WayButRefs P) ws ws'
  | [], hint, hh => ⟨[], hint, hh, rfl, .nil⟩
  | w :: ws, hint, hh => by
    unfold rewriteWays
    obtain ⟨rs', h', h1, h2, h3⟩ := refs_rel hg w.Refs hint hh
    obtain ⟨ws', h'', h4, h5, h6⟩ := ways_rel hg ws h' h1
    refine ⟨{ w with Refs := rs' } :: ws', h'', h4, ?_, .cons ⟨rs', h3, rfl⟩ h6⟩
    rw [h2, Res.ok_bind]
    dsimp only
    rw [h5]
    rfl

theorem groups_rel {si : SubIdx} {P : Int64 → Int64 → Prop} (hg : Gives si P) :
    ∀ (gs : List T.PrimitiveGroup) (hint : Int), 0 ≤ hint →
    ∃ gs' hint', 0 ≤ hint' ∧ rewriteGroups si hint gs = .ok (gs', hint') ∧ Matches (GroupButRefs P) gs gs'
  | [], hint, hh => ⟨[], hint, hh, rfl, .nil⟩
  | g :: gs, hint, hh => by
    unfold rewriteGroups
    obtain ⟨ws', h', h1, h2, h3⟩ := ways_rel hg g.Ways hint hh
    obtain ⟨gs', h'', h4, h5, h6⟩ := groups_rel hg gs h' h1
    refine ⟨{ g with Ways := ws' } :: gs', h'', h4, ?_, .cons ⟨ws', h3, rfl⟩ h6⟩
    rw [h2, Res.ok_bind]
    dsimp only
    rw [h5]
    rfl

theorem block_rel {si : SubIdx} {P : Int64 → Int64 → Prop} (hg : Gives si P) (pb : PrimitiveBlock) :
    ∃ pb', BlockButRefs P pb pb' ∧ rewriteBlock si pb = Blob.zero.Write (some pb'.Write) [] := by
  obtain ⟨gs', h', -, h2, h3⟩ := groups_rel hg pb.PrimitiveGroup 0 (by omega)
  refine ⟨{ pb with PrimitiveGroup := gs' }, ⟨gs', h3, rfl⟩, ?_⟩
  unfold rewriteBlock
  rw [h2]
  rfl

theorem rel_shape {P : Int64 → Int64 → Prop} {pb pb' : PrimitiveBlock} (hb : BlockButRefs P pb pb')
    (h : BlockShape reader pb) : BlockShape reader pb' := by
  obtain ⟨gs, hm, rfl⟩ := hb
  obtain ⟨h1, h2⟩ := h
  refine ⟨h1, fun g hg => ?_⟩
  obtain ⟨g', hg', ws, -, rfl⟩ := matches_right hm g hg
  obtain ⟨h3, h4, h5⟩ := h2 g' hg'
  exact ⟨h3, h4, h5⟩

theorem rel_trim {P : Int64 → Int64 → Prop} {pb pb' : PrimitiveBlock} (hb : BlockButRefs P pb pb') :
    BlockButRefs P (trimBlock pb) (trimBlock pb') := by
  obtain ⟨gs, hm, rfl⟩ := hb
  refine ⟨gs.map trimGroup, matches_map ?_ hm, rfl⟩
  rintro g g' ⟨ws, hw, rfl⟩
  exact ⟨ws, hw, rfl⟩

theorem rel_room {P : Int64 → Int64 → Prop} {w w' : Way} (h : WayButRefs P w w') : wayRoom w' = wayRoom w := by
  obtain ⟨rs, hm, rfl⟩ := h
  unfold wayRoom
  dsimp only
  rw [matches_length hm]

theorem rooms_eq {α : Type} {R : α → α → Prop} {f : α → Nat} (hi : ∀ a b, R a b → f b = f a) {as bs : List α}
    (h : Matches R as bs) : bs.map f = as.map f := by
  induction h with
  | nil => rfl
  | cons h1 _ ih => simp [hi _ _ h1, ih]

theorem rooms_eq' {α β : Type} {R : α → α → Prop} {f : α → β} (hi : ∀ a b, R a b → f b = f a) {as bs : List α}
    (h : Matches R as bs) : bs.map f = as.map f := by
  induction h with
  | nil => rfl
  | cons h _ ih => rw [List.map_cons, List.map_cons, hi _ _ h, ih]

theorem rel_groupRoom {P : Int64 → Int64 → Prop} {g g' : T.PrimitiveGroup} (h : GroupButRefs P g g') :
    groupRoom g' = groupRoom g := by
  obtain ⟨ws, hm, rfl⟩ := h
  unfold groupRoom
  dsimp only
  rw [rooms_eq (f := wayRoom) (fun _ _ h => rel_room h) hm]

theorem rel_small {P : Int64 → Int64 → Prop} {b b' : PrimitiveBlock} (hb : BlockButRefs P b b') (h : Small b) : Small b' := by
  obtain ⟨gs, hm, rfl⟩ := hb
  obtain ⟨h1, h2⟩ := h
  constructor
  · intro g hg w hw
    obtain ⟨g', hg', ws, hm', rfl⟩ := matches_right hm g hg
    obtain ⟨w', hw', hr⟩ := matches_right hm' w hw
    rw [rel_room hr]
    exact h1 g' hg' w' hw'
  · unfold blockRoom at h2 ⊢
    dsimp only at h2 ⊢
    rw [rooms_eq (f := groupRoom) (fun _ _ h => rel_groupRoom h) hm]
    exact h2

theorem rel_noWays {P : Int64 → Int64 → Prop} {pb : PrimitiveBlock} (h : totalWays pb = 0) : BlockButRefs P pb pb := by
  refine ⟨pb.PrimitiveGroup, ?_, rfl⟩
  have hnil : ∀ g ∈ pb.PrimitiveGroup, g.Ways = [] := by
    intro g hg
    unfold totalWays at h
    rw [List.sum_eq_zero_iff_forall_eq_nat] at h
    exact List.length_eq_zero_iff.1 (h _ (List.mem_map_of_mem hg))
  generalize pb.PrimitiveGroup = gs at hnil
  induction gs with
  | nil => exact .nil
  | cons g gs ih =>
    refine .cons ⟨[], ?_, ?_⟩ (ih fun g' hg' => hnil g' (by simp [hg']))
    · rw [hnil g (by simp)]; exact .nil
    · have := hnil g (by simp)
      cases g
      simp_all

/-- What a worker makes of one block. -/
theorem work_rel (inflate : Inflate) (sched : Block → Sched) (hsched : ∀ b, (sched b).pooled.length < 2 ^ 63)
    {si : SubIdx} {P : Int64 → Int64 → Prop} (hg : Gives si P) {b : Block} (hf : b.Data.Fits) {c : Content}
    (hc : HasContent inflate reader b.Kind b.Data.bytes c) (hlen : b.Data.bytes.length < 2 ^ 31)
    (hs : ∀ d, c = .data d → Small d) :
    ∃ x c', rewriteWork inflate sched si b = .ok x ∧ x.1 = b.Kind ∧ x.2.length < 2 ^ 31 ∧ ButRefs P c c' ∧
      HasContent inflate reader x.1 x.2 c' := by
  unfold rewriteWork
  cases c with
  | other k bs =>
    obtain ⟨h1, h2, h3⟩ := hc
    rw [if_pos h3]
    exact ⟨_, _, rfl, rfl, hlen, .other _ _, h1, h2, h3⟩
  | data c =>
    obtain ⟨h1, h2⟩ := hc
    rw [if_neg (by rw [h1]; simp)]
    obtain ⟨i, data, kind⟩ := b
    subst h1
    obtain ⟨raw, pb, r1, r2, r3⟩ := h2 i data.spare (sched ⟨i, data, osmData⟩) hf (hsched _)
    rw [r1, Res.ok_bind, r2, Res.ok_bind]
    unfold rewriteDecoded
    by_cases ht : totalWays pb = 0
    · rw [if_pos ht]
      refine ⟨_, .data c, rfl, rfl, hlen, .data _ _ (rel_noWays ?_), rfl, h2⟩
      rw [← r3, totalWays_trim]; exact ht
    · rw [if_neg ht]
      obtain ⟨pb', p1, p2⟩ := block_rel hg pb
      have hsm : Small pb := trim_small (by rw [r3]; exact hs c rfl)
      have hshape := rel_shape p1 (readBlock_shape _ _ _ r2)
      obtain ⟨blob, hb⟩ := small_writes hshape (rel_small p1 hsm)
      obtain ⟨h5, h6⟩ := written_reads inflate hshape hb
      have ht' := rel_trim p1
      rw [r3] at ht'
      refine ⟨(osmData, blob), .data (trimBlock pb'), ?_, rfl, h6, .data _ _ ht', rfl, h5⟩
      rw [p2, hb]
      rfl

theorem works_rel (inflate : Inflate) (sched : Block → Sched) (hsched : ∀ b, (sched b).pooled.length < 2 ^ 63)
    {si : SubIdx} {P : Int64 → Int64 → Prop} (hg : Gives si P) : ∀ (bs : List Block) (cs : List Content),
    (∀ b ∈ bs, b.Data.Fits ∧ b.Data.bytes.length < 2 ^ 31 ∧ (b.Kind = osmHeader ∨ b.Kind = osmData)) →
    Matches (fun b c => HasContent inflate reader b.Kind b.Data.bytes c) bs cs → (∀ b, Content.data b ∈ cs → Small b) →
    ∃ xs cs', mapRes (rewriteWork inflate sched si) bs = .ok xs ∧ (∀ x ∈ xs, Writable x) ∧
      Matches (ButRefs P) cs cs' ∧ Matches (fun x c => HasContent inflate reader x.1 x.2 c) xs cs'
  | [], cs, _, hc, _ => by
    cases hc
    exact ⟨[], [], rfl, by simp, .nil, .nil⟩
  | b :: bs, cs, hb, hc, hs => by
    cases hc with
    | @cons _ c _ cs h1 h2 =>
      obtain ⟨f1, f2, f3⟩ := hb b (by simp)
      obtain ⟨x, c', k0, k1, k2, k3, k4⟩ := work_rel inflate sched hsched hg f1 h1 f2 (by rintro d rfl; exact hs d (by simp))
      obtain ⟨xs, cs', m0, m1, m2, m3⟩ := works_rel inflate sched hsched hg bs cs (fun b hb' => hb b (by simp [hb'])) h2
        fun d hd => hs d (by simp [hd])
      refine ⟨x :: xs, c' :: cs', ?_, fun y hy => ?_, .cons k3 m2, .cons k4 m3⟩
      · unfold mapRes
        rw [k0, Res.ok_bind, m0]
        rfl
      · rcases List.mem_cons.1 hy with rfl | hy
        · exact ⟨by rw [k1]; exact f3, k2⟩
        · exact m1 y hy

theorem smallFile_rel {P : Int64 → Int64 → Prop} {cs cs' : List Content} (h : Matches (ButRefs P) cs cs') (hs : SmallFile cs) :
    SmallFile cs' := by
  refine ⟨fun b hb => ?_, by rw [matches_length h]; exact hs.2⟩
  obtain ⟨c, hc, hr⟩ := matches_right h _ hb
  cases hr with
  | data a _ hr => exact rel_small hr (hs.1 a hc)

theorem pass_rel (inflate : Inflate) (sched : Block → Sched) (hsched : ∀ b, (sched b).pooled.length < 2 ^ 63)
    {si : SubIdx} {P : Int64 → Int64 → Prop} (hg : Gives si P) {file : List UInt8} (hl : file.length < 2 ^ 63) {cs : List Content}
    (hc : FileHas inflate reader file cs) (hsm : SmallFile cs) (inp out : String) (fs : FS) (hin : Holds fs inp file) :
    ∃ fs' file', (pass inflate sched si inp out).exec fs = .ok ((), fs') ∧ Holds fs' out file' ∧ file'.length < 2 ^ 63 ∧
      (∃ cs', Matches (ButRefs P) cs cs' ∧ FileHas inflate reader file' cs') ∧
      ∀ g, g ≠ out → fs' g = fs g := by
  obtain ⟨bs, h1, h2⟩ := hc
  obtain ⟨hbne, hb⟩ := split_blocks hl h1
  obtain ⟨xs, cs', e3, m1, m2, m3⟩ := works_rel inflate sched hsched hg bs cs hb h2 hsm.1
  obtain ⟨fs3, o1, o2, o3⟩ := output_exec out xs fs
  have hlen : (fileOf xs).length < 2 ^ 63 := by
    have a1 := fileOf_length xs m1
    have a2 := each_length m3
    have a3 := hsm.2
    rw [matches_length m2] at a2
    have : xs.length * (2 ^ 31 + 68) ≤ 2 ^ 31 * (2 ^ 31 + 68) := Nat.mul_le_mul_right _ (by omega)
    omega
  refine ⟨fs3, fileOf xs, ?_, o2, hlen, ⟨cs', m2, fileOf_has inflate reader ?_ m1 hlen m3⟩, o3⟩
  · obtain ⟨pos, hin⟩ := hin
    unfold pass
    rw [Prog.exec_bind, exec_OsOpen_some hin, Res.ok_bind, Prog.exec_bind, exec_MMapMap]
    dsimp only
    rw [hin]
    dsimp only
    have hne : file ≠ [] := ((split_iff file hl bs).1 h1).1
    rw [if_neg hne, Res.ok_bind, Prog.exec_bind, Prog.exec_lift, h1, Res.ok_bind, Res.ok_bind, Prog.exec_bind, Prog.exec_lift,
      e3, Res.ok_bind, Res.ok_bind]
    exact o1
  · rintro rfl
    have := mapRes_len e3
    exact hbne (List.length_eq_zero_iff.1 this.symm)

open Osm.RelIndex (pass_ne_out pass_inj)

/-- All passes, for whatever (`J i`) holds after `i` of them. -/
theorem runPasses_keep (inflate : Inflate) (scheds : Nat → Block → Sched) {ix : NodeIdx}
    (inp out : String) {n : Nat} (subs : List SubIdx) (hlen : subs.length = n)
    (hsub : ∀ (p : Nat) si, subs[p]? = some si → ix.SubIndex (UInt64.ofNat p) (UInt64.ofNat n) = .ok si)
    (J : Nat → List UInt8 → Prop)
    (hpass : ∀ (p : Nat) si, subs[p]? = some si → ∀ (file : List UInt8) (inp out : String) (fs : FS),
      file.length < 2 ^ 63 → J p file → Holds fs inp file →
      ∃ fs' file', (pass inflate (scheds p) si inp out).exec fs = .ok ((), fs') ∧ Holds fs' out file' ∧ file'.length < 2 ^ 63 ∧
        J (p + 1) file' ∧ ∀ g, g ≠ out → fs' g = fs g) :
    ∀ (left i : Nat) (fs : FS) (file : List UInt8), i + (left + 1) = n →
      Holds fs (passInput inp out n i) file → file.length < 2 ^ 63 → J i file →
      ∃ fs' file', (runPasses inflate scheds ix inp out n (left + 1) i).exec fs = .ok ((), fs') ∧
        Holds fs' out file' ∧ file'.length < 2 ^ 63 ∧ J n file' ∧
        (1 < n → ∃ x, fs' (RelIndex.makePassFilename out (n - 1) n) = some x) := by
  have hneq : ∀ p q, p ≠ q → RelIndex.makePassFilename out p n ≠ RelIndex.makePassFilename out q n := fun p q h he => h (pass_inj he)
  intro left
  induction left with
  | zero =>
    intro i fs file hi hin hl hc
    obtain ⟨fs0, z1, z2, z3⟩ := removeOld_exec out n i fs
    have hi1 : i < subs.length := by omega
    have s1 := hsub i subs[i] (List.getElem?_eq_getElem hi1)
    have hin0 : passInput inp out n i = RelIndex.makePassFilename out i n ∧ 1 ≤ i ∨ passInput inp out n i = inp ∧ i = 0 := by
      unfold passInput
      split
      · exact .inl ⟨rfl, by omega⟩
      · exact .inr ⟨rfl, by omega⟩
    have hin1 : Holds fs0 (passInput inp out n i) file := by
      obtain ⟨pos, hin⟩ := hin
      refine ⟨pos, ?_⟩
      rw [z3, hin]
      intro h2
      rcases hin0 with ⟨h, _⟩ | ⟨_, h⟩
      · rw [h]; exact hneq _ _ (by omega)
      · omega
    obtain ⟨fs1, file', h1, h2, h3, h4, h5⟩ := hpass i subs[i] (List.getElem?_eq_getElem hi1) file
      (passInput inp out n i) (passOutput out n i) fs0 hl hc hin1
    have hout : passOutput out n i = out := by unfold passOutput; rw [if_neg (by omega)]
    rw [hout] at h1 h2 h5
    refine ⟨fs1, file', ?_, h2, h3, by rw [show n = i + 1 by omega]; exact h4, ?_⟩
    · unfold runPasses
      rw [Prog.exec_bind, z1, Res.ok_bind, Prog.exec_bind, Prog.exec_lift, s1, Res.ok_bind, Res.ok_bind, Prog.exec_bind,
        hout]
      dsimp only
      rw [h1]
      rfl
    · intro hn
      rw [h5 _ (pass_ne_out _ _ _)]
      rcases hin0 with ⟨h, _⟩ | ⟨_, h⟩
      · obtain ⟨pos, hh⟩ := hin1
        rw [h, show i = n - 1 by omega] at hh
        exact ⟨_, hh⟩
      · omega
  | succ left ih =>
    intro i fs file hi hin hl hc
    obtain ⟨fs0, z1, z2, z3⟩ := removeOld_exec out n i fs
    have hi1 : i < subs.length := by omega
    have s1 := hsub i subs[i] (List.getElem?_eq_getElem hi1)
    have hin0 : passInput inp out n i = RelIndex.makePassFilename out i n ∧ 1 ≤ i ∨ passInput inp out n i = inp ∧ i = 0 := by
      unfold passInput
      split
      · exact .inl ⟨rfl, by omega⟩
      · exact .inr ⟨rfl, by omega⟩
    have hin1 : Holds fs0 (passInput inp out n i) file := by
      obtain ⟨pos, hin⟩ := hin
      refine ⟨pos, ?_⟩
      rw [z3, hin]
      intro h2
      rcases hin0 with ⟨h, _⟩ | ⟨_, h⟩
      · rw [h]; exact hneq _ _ (by omega)
      · omega
    obtain ⟨fs1, file1, h1, h2, h3, h4, h5⟩ := hpass i subs[i] (List.getElem?_eq_getElem hi1) file
      (passInput inp out n i) (passOutput out n i) fs0 hl hc hin1
    have hout : passOutput out n i = RelIndex.makePassFilename out (i + 1) n := by unfold passOutput; rw [if_pos (by omega)]
    have hinp : passInput inp out n (i + 1) = RelIndex.makePassFilename out (i + 1) n := by unfold passInput; rw [if_pos (by omega)]
    rw [hout] at h1 h2 h5
    obtain ⟨fs', file', e1, e2, e3, e4, e6⟩ := ih (i + 1) fs1 file1 (by omega) (by rw [hinp]; exact h2) h3 h4
    refine ⟨fs', file', ?_, e2, e3, e4, e6⟩
    unfold runPasses
    rw [Prog.exec_bind, z1, Res.ok_bind, Prog.exec_bind, Prog.exec_lift, s1, Res.ok_bind, Res.ok_bind, Prog.exec_bind,
      hout]
    dsimp only
    rw [h1, Res.ok_bind]
    exact e1

/-- The whole command, for whatever (`J i`) holds after `i` passes. -/
theorem rewritenodes_keep (inflate : Inflate) (scheds : Nat → Block → Sched) {ix : NodeIdx}
    (memory : Option UInt64) (n : UInt64) (hn : passCount ix memory = .ok n)
    (hn0 : n ≠ 0) {subs : List SubIdx}
    (hsubs : mapRes (fun p => ix.SubIndex (UInt64.ofNat p) n) (List.range n.toNat) = .ok subs)
    (J : Nat → List UInt8 → Prop)
    (hpass : ∀ (p : Nat) si, subs[p]? = some si → ix.SubIndex (UInt64.ofNat p) n = .ok si →
      ∀ (file : List UInt8) (inp out : String) (fs : FS),
      file.length < 2 ^ 63 → J p file → Holds fs inp file →
      ∃ fs' file', (pass inflate (scheds p) si inp out).exec fs = .ok ((), fs') ∧ Holds fs' out file' ∧ file'.length < 2 ^ 63 ∧
        J (p + 1) file' ∧ ∀ g, g ≠ out → fs' g = fs g)
    (inp index out : String) {file ixFile : List UInt8} (hl : file.length < 2 ^ 63) (hc : J 0 file)
    (fs : FS) (hin : Holds fs inp file) (hix : Holds fs index ixFile)
    (hload : NewNodeIndex ixFile = .ok ix) :
    ∃ fs' file', (rewritenodes inflate scheds memory inp index out).exec fs = .ok ((), fs') ∧ Holds fs' out file' ∧
      file'.length < 2 ^ 63 ∧ J n.toNat file' := by
  have hnn : UInt64.ofNat n.toNat = n := UInt64.ofNat_toNat
  have s1 : subs.length = n.toNat := by have := mapRes_len hsubs; simpa using this
  have s2 : ∀ (p : Nat) si, subs[p]? = some si → ix.SubIndex (UInt64.ofNat p) (UInt64.ofNat n.toNat) = .ok si := by
    intro p si hp
    have hlt : p < n.toNat := by
      have := (List.getElem?_eq_some_iff.1 hp).1
      omega
    obtain ⟨b, b1, b2⟩ := mapRes_get hsubs p p (by rw [List.getElem?_range hlt])
    rw [hp] at b1
    cases b1
    rw [hnn]; exact b2
  have hpos : n.toNat ≠ 0 := fun h => hn0 (UInt64.toNat_inj.1 (by simpa using h))
  obtain ⟨left, hleft⟩ : ∃ k, n.toNat = k + 1 := ⟨n.toNat - 1, by omega⟩
  obtain ⟨fs1, file', e1, e2, e3, e4, e6⟩ := runPasses_keep inflate scheds inp out subs s1 s2 J
    (fun p si hp => hpass p si hp (by have := s2 p si hp; rwa [hnn] at this)) left 0 fs
    file (by omega) (by unfold passInput; rw [if_neg (by omega)]; exact hin) hl hc
  obtain ⟨pos, hix⟩ := hix
  have hixne : ixFile ≠ [] := by
    rintro rfl
    cases hload
  have start : (rewritenodes inflate scheds memory inp index out).exec fs = (removeLast out n.toNat).exec fs1 := by
    unfold rewritenodes
    rw [Prog.exec_bind, exec_OsOpen_some hix, Res.ok_bind, Prog.exec_bind, exec_MMapMap]
    dsimp only
    rw [hix]
    dsimp only
    rw [if_neg hixne, Res.ok_bind, Prog.exec_bind, Prog.exec_lift, hload, Res.ok_bind, Res.ok_bind, Prog.exec_bind,
      Prog.exec_lift, hn, Res.ok_bind, Res.ok_bind, Prog.exec_bind]
    dsimp only
    rw [← hleft] at e1
    rw [e1, Res.ok_bind]
  by_cases h1 : 1 < n.toNat
  · obtain ⟨x, hx⟩ := e6 h1
    refine ⟨(FsOp.remove (RelIndex.makePassFilename out (n.toNat - 1) n.toNat)).run fs1, file', ?_, ?_, e3, e4⟩
    · rw [start]
      unfold removeLast OsRemove
      rw [if_pos h1, Prog.exec_bind, exec_OsOpen_some hx, Res.ok_bind, Prog.exec_emit]
    · obtain ⟨p, e2⟩ := e2
      refine ⟨p, ?_⟩
      rw [← e2]
      exact set_other _ _ (RelIndex.pass_ne_out _ _ _).symm
  · refine ⟨fs1, file', ?_, e2, e3, e4⟩
    rw [start]
    unfold removeLast
    rw [if_neg h1]
    rfl

end Osm.Rewrite
