import Verif.Lemmas.Room
import Verif.Lemmas.RelPasses
import Verif.Lemmas.SubIndex

/-! # The passes of the node rewriter -/

namespace Osm.Pbf
open Osm Osm.Spec

theorem Steps.trans {O : Type} {c : Cfg O} {m n : Nat} {a b d : St O} (h1 : Steps c m a b) (h2 : Steps c n b d) :
    Steps c (m + n) a d := by
  induction h2 with
  | refl => exact h1
  | step _ hs ih => exact .step (ih h1) hs

/-- A run on a well-formed file whose blocks can all be processed. -/
theorem clean_run {O : Type} {c : Cfg O} (hl : c.file.length < 2 ^ 63) {bs : List Block} (hs : split c.file = .ok bs)
    (hw : ∀ b ∈ bs, ∃ o, c.work b = .ok o) (hwr : ∀ l, c.write l = .ok ()) (hf : ∀ l, c.finish l = .ok ()) (W : Nat) :
    (∀ s, Reachable c W s → s.crashed = false) ∧
    (0 < W → (∀ s, Reachable c W s → ∃ n s', Steps c n s s' ∧ s'.cancelled = s.cancelled ∧ s'.main = .done) ∧
      ∃ got, Delivers c W got) := by
  have hcl : Clean c bs := by
    refine ⟨hs, fun b hb => ?_, by simp [hwr], by simp [hf]⟩
    obtain ⟨o, ho⟩ := hw b hb
    rw [ho]; simp
  have ht : Total c := by
    refine ⟨fun b _ hb => ?_, by simp [hwr], by simp [hf]⟩
    obtain ⟨o, ho⟩ := hw b (hb bs hs)
    rw [ho]; simp
  have hnp := Props.C55_no_panic c hl bs hcl W
  refine ⟨hnp, fun hW => ?_⟩
  have key : ∀ s, Reachable c W s → ∃ n s', Steps c n s s' ∧ s'.cancelled = s.cancelled ∧ s'.main = .done := by
    intro s hr
    obtain ⟨n, s', h1, h2, h3⟩ := Props.C56_completes c hl ht W hW s hr
    refine ⟨n, s', h1, h2, h3.resolve_left fun h => ?_⟩
    obtain ⟨m, hm⟩ := hr
    rw [hnp s' ⟨_, Steps.trans hm h1⟩] at h
    cases h
  refine ⟨key, ?_⟩
  obtain ⟨n, s', h1, h2, h3⟩ := key _ ⟨0, .refl⟩
  exact ⟨s'.got, s', ⟨n, h1⟩, h3, h2, rfl⟩

end Osm.Pbf

namespace Osm.Rewrite
open Osm Osm.T Osm.Pbf Osm.Spec Osm.NodeIndex

/-! ## Locating refs step by step -/

theorem knownLoc_append (a b : List IndexElement) (locs : List Int64) (id : Nat) :
    knownLoc (a ++ b) locs id = (knownLoc a locs id).or (knownLoc b locs id) := by
  unfold knownLoc
  rw [List.findSome?_append]

theorem knownLoc_neg {es : List IndexElement} {locs : List Int64} (hn : NegativeLocs locs) {id : Nat} {l : Int64}
    (h : knownLoc es locs id = some l) : l < 0 := by
  obtain ⟨e, _, _, h1, h2⟩ := knownLoc_some h
  exact hn l (List.mem_of_getElem? h1) h2

theorem locate_neg {es : List IndexElement} {locs : List Int64} {r : Int64} (h : r < 0) : locate es locs r = r := by
  unfold locate
  rw [if_neg]
  rw [Int64.le_iff_toInt_le]
  rw [Int64.lt_iff_toInt_lt] at h
  omega

theorem locate_comp {locs : List Int64} (hn : NegativeLocs locs) (a b : List IndexElement) (r : Int64) :
    locate b locs (locate a locs r) = locate (a ++ b) locs r := by
  by_cases hr : 0 ≤ r
  · conv => lhs; arg 3; unfold locate
    conv => rhs; unfold locate
    rw [if_pos hr, if_pos hr, knownLoc_append]
    cases hk : knownLoc a locs r.toInt.toNat with
    | some l => simp only [Option.getD_some, Option.some_or]; exact locate_neg (knownLoc_neg hn hk)
    | none =>
      simp only [Option.getD_none, Option.none_or]
      unfold locate
      rw [if_pos hr]
  · have hr' : r < 0 := by
      rw [Int64.le_iff_toInt_le] at hr
      rw [Int64.lt_iff_toInt_lt]
      omega
    rw [locate_neg hr', locate_neg hr', locate_neg hr']

theorem locate_nil (locs : List Int64) (r : Int64) : locate [] locs r = r := by
  unfold locate knownLoc
  simp

theorem content_mapRefs_comp (f g : Int64 → Int64) (c : Content) : (c.mapRefs f).mapRefs g = c.mapRefs (g ∘ f) := by
  cases c with
  | other => rfl
  | data b => simp [Content.mapRefs, Spec.mapRefs]

theorem content_mapRefs_id (c : Content) : c.mapRefs id = c := by
  cases c with
  | other => rfl
  | data b => simp [Content.mapRefs, Spec.mapRefs]

theorem smallFile_map (f : Int64 → Int64) {cs : List Content} (h : SmallFile cs) : SmallFile (cs.map (·.mapRefs f)) := by
  refine ⟨fun b hb => ?_, by rw [List.length_map]; exact h.2⟩
  obtain ⟨c, hc, he⟩ := List.mem_map.1 hb
  cases c with
  | other => cases he
  | data c =>
    cases he
    exact mapRefs_small f (h.1 c hc)

/-! ## A pass succeeds -/

theorem work_small (inflate : Inflate) (sched : Block → Sched) (hsched : ∀ b, (sched b).pooled.length < 2 ^ 63)
    {si : SubIdx} (hw : WellFormedSub si) {b : Block} (hf : b.Data.Fits) {c : Content}
    (hc : HasContent inflate reader b.Kind b.Data.bytes c) (hs : ∀ d, c = .data d → Small d) :
    ∃ x, rewriteWork inflate sched si b = .ok x := by
  unfold rewriteWork
  cases c with
  | other k bs =>
    obtain ⟨h1, h2, h3⟩ := hc
    rw [if_pos h3]
    exact ⟨_, rfl⟩
  | data c =>
    obtain ⟨h1, h2⟩ := hc
    rw [if_neg (by rw [h1]; simp)]
    obtain ⟨raw, pb, r1, r2, r3⟩ := h2 b.Index b.Data.spare (sched b) hf (hsched b)
    obtain ⟨i, ⟨bs, sp⟩, kd⟩ := b
    dsimp only at h1 r1
    subst h1
    rw [r1, Res.ok_bind, r2, Res.ok_bind]
    unfold rewriteDecoded
    split
    · exact ⟨_, rfl⟩
    · rw [rewriteBlock_eq hw]
      have hsm : Small pb := trim_small (by rw [r3]; exact hs c rfl)
      obtain ⟨blob, hb⟩ := small_writes (mapRefs_shape (readBlock_shape _ _ _ r2))
        (mapRefs_small (locate si.element si.locations) hsm)
      rw [hb, Res.ok_bind]
      exact ⟨_, rfl⟩

theorem frame_length {k : GoStr} {x : List UInt8} (hk : k = osmHeader ∨ k = osmData) :
    (frame k x).length ≤ x.length + 68 := by
  rw [Pbf.frame_eq]
  have := headerOf_length (data := x) hk
  simp only [List.length_append, be32_length]
  omega

theorem fileOf_length : ∀ (xs : List Out), (∀ x ∈ xs, Writable x) → (fileOf xs).length ≤ xs.length * (2 ^ 31 + 68)
  | [], _ => by simp [fileOf]
  | x :: xs, h => by
    have h1 := fileOf_length xs fun y hy => h y (by simp [hy])
    obtain ⟨h2, h3⟩ := h x (by simp)
    have h4 := frame_length (x := x.2) h2
    have : fileOf (x :: xs) = frame x.1 x.2 ++ fileOf xs := by simp [fileOf]
    rw [this, List.length_append, List.length_cons]
    omega

theorem matches_mem {α β : Type} {R : α → β → Prop} {as : List α} {bs : List β} (h : Matches R as bs) :
    ∀ a ∈ as, ∃ b ∈ bs, R a b := by
  induction h with
  | nil => simp
  | cons h1 _ ih =>
    intro a ha
    rcases List.mem_cons.1 ha with rfl | ha
    · exact ⟨_, by simp, h1⟩
    · obtain ⟨b, hb, h⟩ := ih a ha
      exact ⟨b, by simp [hb], h⟩

theorem mapRes_all {α β : Type} {f : α → Res β} : ∀ {as : List α}, (∀ a ∈ as, ∃ b, f a = .ok b) → ∃ bs, mapRes f as = .ok bs
  | [], _ => ⟨[], rfl⟩
  | a :: as, h => by
    obtain ⟨b, hb⟩ := h a (by simp)
    obtain ⟨bs, hbs⟩ := mapRes_all (as := as) fun x hx => h x (by simp [hx])
    refine ⟨b :: bs, ?_⟩
    unfold mapRes
    rw [hb, Res.ok_bind, hbs]
    rfl

theorem mapRes_get {α β : Type} {f : α → Res β} : ∀ {as : List α} {bs : List β}, mapRes f as = .ok bs →
    ∀ (i : Nat) a, as[i]? = some a → ∃ b, bs[i]? = some b ∧ f a = .ok b
  | [], bs, h, i, a, ha => by simp at ha
  | x :: xs, bs, h, i, a, ha => by
    unfold mapRes at h
    obtain ⟨y, hy, h⟩ := Res.bind_eq_ok.1 h
    obtain ⟨ys, hys, h⟩ := Res.bind_eq_ok.1 h
    cases h
    cases i with
    | zero =>
      simp only [List.getElem?_cons_zero, Option.some.injEq] at ha
      subst ha
      exact ⟨y, rfl, hy⟩
    | succ i =>
      rw [List.getElem?_cons_succ] at ha
      obtain ⟨b, b1, b2⟩ := mapRes_get hys i a ha
      exact ⟨b, by rw [List.getElem?_cons_succ]; exact b1, b2⟩

theorem pass_ok (inflate : Inflate) (sched : Block → Sched) (hsched : ∀ b, (sched b).pooled.length < 2 ^ 63)
    {si : SubIdx} (hw : WellFormedSub si) {file : List UInt8} (hl : file.length < 2 ^ 63) {cs : List Content}
    (hc : FileHas inflate reader file cs) (hsm : SmallFile cs) (inp out : String) (fs : FS) (hin : Holds fs inp file) :
    ∃ fs' file', (pass inflate sched si inp out).exec fs = .ok ((), fs') ∧ Holds fs' out file' ∧ file'.length < 2 ^ 63 ∧
      FileHas inflate reader file' (cs.map (·.mapRefs (locate si.element si.locations))) ∧
      ∀ g, g ≠ out → fs' g = fs g := by
  obtain ⟨bs, h1, h2⟩ := hc
  obtain ⟨hbne, hb⟩ := split_blocks hl h1
  obtain ⟨xs, e3⟩ := mapRes_all (f := rewriteWork inflate sched si) (as := bs) (by
    intro b hb'
    obtain ⟨c, hc', hcc⟩ := matches_mem h2 b hb'
    exact work_small inflate sched hsched hw (hb b hb').1 hcc (by rintro d rfl; exact hsm.1 d hc'))
  obtain ⟨m1, m2⟩ := works_content inflate sched hsched hw bs cs xs hb h2 e3
  obtain ⟨fs3, o1, o2, o3⟩ := output_exec out xs fs
  have hlen : (fileOf xs).length < 2 ^ 63 := by
    have a1 := fileOf_length xs m1
    have a2 := each_length m2
    have a3 := hsm.2
    rw [List.length_map] at a2
    have : xs.length * (2 ^ 31 + 68) ≤ 2 ^ 31 * (2 ^ 31 + 68) := Nat.mul_le_mul_right _ (by omega)
    omega
  refine ⟨fs3, fileOf xs, ?_, o2, hlen, fileOf_has inflate reader ?_ m1 hlen m2, o3⟩
  · obtain ⟨pos, hin⟩ := hin
    unfold pass
    rw [Prog.exec_bind, exec_OsOpen_some hin, Res.ok_bind, Prog.exec_bind, exec_MMapMap]
    dsimp only
    rw [hin]
    dsimp only
    have hne : file ≠ [] := ((split_iff file hl bs).1 h1).1
    rw [if_neg hne, Res.ok_bind, Prog.exec_bind, Prog.exec_lift, h1, Res.ok_bind, Res.ok_bind, Prog.exec_bind, Prog.exec_lift,
      e3, Res.ok_bind, Res.ok_bind]
    exact o1
  · rintro rfl
    have := mapRes_len e3
    exact hbne (List.length_eq_zero_iff.1 this.symm)

/-! ## All passes -/

open Osm.RelIndex (pass_ne_out pass_inj)

theorem removeOld_exec (out : String) (n i : Nat) (fs : FS) : ∃ fs', (removeOld out n i).exec fs = .ok ((), fs') ∧
    (2 ≤ i → fs' (RelIndex.makePassFilename out (i - 1) n) = none) ∧
    ∀ g, (2 ≤ i → g ≠ RelIndex.makePassFilename out (i - 1) n) → fs' g = fs g := by
  unfold removeOld
  split
  · next h =>
    refine ⟨(FsOp.remove (RelIndex.makePassFilename out (i - 1) n)).run fs, ?_, fun _ => set_same _ _ _, fun g hg => set_other _ _ (hg h)⟩
    unfold OsRemoveTry
    rw [Prog.exec_emit]
  · next h => exact ⟨fs, rfl, fun h' => absurd h' h, fun _ _ => rfl⟩

/-- All passes, for whatever a pass makes (`Hout`) of what it needs (`Hin`). -/
theorem runPasses_gen (inflate : Inflate) (scheds : Nat → Block → Sched) {ix : NodeIdx}
    (hneg : NegativeLocs ix.locations) (inp out : String) {n : Nat} (subs : List SubIdx) (hlen : subs.length = n)
    (hsub : ∀ (p : Nat) si, subs[p]? = some si → ix.SubIndex (UInt64.ofNat p) (UInt64.ofNat n) = .ok si ∧ WellFormedSub si ∧
      si.locations = ix.locations)
    (Hin Hout : List UInt8 → List Content → Prop) (hio : ∀ f cs, Hout f cs → Hin f cs)
    (hpass : ∀ (p : Nat) si, subs[p]? = some si → ∀ (file : List UInt8) (cs : List Content) (inp out : String) (fs : FS),
      file.length < 2 ^ 63 → Hin file cs → SmallFile cs → Holds fs inp file →
      ∃ fs' file', (pass inflate (scheds p) si inp out).exec fs = .ok ((), fs') ∧ Holds fs' out file' ∧ file'.length < 2 ^ 63 ∧
        Hout file' (cs.map (·.mapRefs (locate si.element si.locations))) ∧ ∀ g, g ≠ out → fs' g = fs g) :
    ∀ (left i : Nat) (fs : FS) (file : List UInt8) (cs : List Content), i + (left + 1) = n →
      Holds fs (passInput inp out n i) file → file.length < 2 ^ 63 → Hin file cs → SmallFile cs →
      ∃ fs' file', (runPasses inflate scheds ix inp out n (left + 1) i).exec fs = .ok ((), fs') ∧
        Holds fs' out file' ∧ file'.length < 2 ^ 63 ∧
        Hout file' (cs.map (·.mapRefs (locate ((subs.drop i).flatMap (·.element)) ix.locations))) ∧
        (∀ p, 1 ≤ p → i ≤ p + 1 → p + 1 < n → fs' (RelIndex.makePassFilename out p n) = none) ∧
        (1 < n → ∃ x, fs' (RelIndex.makePassFilename out (n - 1) n) = some x) ∧
        ∀ g, g ≠ out → (∀ p, 1 ≤ p → i ≤ p + 1 → p < n → g ≠ RelIndex.makePassFilename out p n) → fs' g = fs g := by
  have hneq : ∀ p q, p ≠ q → RelIndex.makePassFilename out p n ≠ RelIndex.makePassFilename out q n := fun p q h he => h (pass_inj he)
  intro left
  induction left with
  | zero =>
    intro i fs file cs hi hin hl hc hsm
    obtain ⟨fs0, z1, z2, z3⟩ := removeOld_exec out n i fs
    have hi1 : i < subs.length := by omega
    obtain ⟨s1, s2, s3⟩ := hsub i subs[i] (List.getElem?_eq_getElem hi1)
    have hin0 : passInput inp out n i = RelIndex.makePassFilename out i n ∧ 1 ≤ i ∨ passInput inp out n i = inp ∧ i = 0 := by
      unfold passInput
      split
      · exact .inl ⟨rfl, by omega⟩
      · exact .inr ⟨rfl, by omega⟩
    have hin1 : Holds fs0 (passInput inp out n i) file := by
      obtain ⟨pos, hin⟩ := hin
      refine ⟨pos, ?_⟩
      rw [z3, hin]
      intro h2
      rcases hin0 with ⟨h, _⟩ | ⟨_, h⟩
      · rw [h]; exact hneq _ _ (by omega)
      · omega
    obtain ⟨fs1, file', h1, h2, h3, h4, h5⟩ := hpass i subs[i] (List.getElem?_eq_getElem hi1) file cs
      (passInput inp out n i) (passOutput out n i) fs0 hl hc hsm hin1
    have hout : passOutput out n i = out := by unfold passOutput; rw [if_neg (by omega)]
    rw [hout] at h1 h2 h5
    refine ⟨fs1, file', ?_, h2, h3, ?_, ?_, ?_, ?_⟩
    · unfold runPasses
      rw [Prog.exec_bind, z1, Res.ok_bind, Prog.exec_bind, Prog.exec_lift, s1, Res.ok_bind, Res.ok_bind, Prog.exec_bind,
        hout]
      dsimp only
      rw [h1]
      rfl
    · rw [List.drop_eq_getElem_cons hi1, List.drop_eq_nil_of_le (by omega)]
      simp only [List.flatMap_cons, List.flatMap_nil, List.append_nil]
      rw [← s3]
      exact h4
    · intro p p1 p2 p3
      rw [h5 _ (pass_ne_out _ _ _)]
      have : p = i - 1 := by omega
      subst this
      exact z2 (by omega)
    · intro hn
      rw [h5 _ (pass_ne_out _ _ _)]
      rcases hin0 with ⟨h, _⟩ | ⟨_, h⟩
      · obtain ⟨pos, hh⟩ := hin1
        rw [h, show i = n - 1 by omega] at hh
        exact ⟨_, hh⟩
      · omega
    · intro g g1 g2
      rw [h5 g g1, z3 g fun h => g2 (i - 1) (by omega) (by omega) (by omega)]
  | succ left ih =>
    intro i fs file cs hi hin hl hc hsm
    obtain ⟨fs0, z1, z2, z3⟩ := removeOld_exec out n i fs
    have hi1 : i < subs.length := by omega
    obtain ⟨s1, s2, s3⟩ := hsub i subs[i] (List.getElem?_eq_getElem hi1)
    have hin0 : passInput inp out n i = RelIndex.makePassFilename out i n ∧ 1 ≤ i ∨ passInput inp out n i = inp ∧ i = 0 := by
      unfold passInput
      split
      · exact .inl ⟨rfl, by omega⟩
      · exact .inr ⟨rfl, by omega⟩
    have hin1 : Holds fs0 (passInput inp out n i) file := by
      obtain ⟨pos, hin⟩ := hin
      refine ⟨pos, ?_⟩
      rw [z3, hin]
      intro h2
      rcases hin0 with ⟨h, _⟩ | ⟨_, h⟩
      · rw [h]; exact hneq _ _ (by omega)
      · omega
    obtain ⟨fs1, file1, h1, h2, h3, h4, h5⟩ := hpass i subs[i] (List.getElem?_eq_getElem hi1) file cs
      (passInput inp out n i) (passOutput out n i) fs0 hl hc hsm hin1
    have hout : passOutput out n i = RelIndex.makePassFilename out (i + 1) n := by unfold passOutput; rw [if_pos (by omega)]
    have hinp : passInput inp out n (i + 1) = RelIndex.makePassFilename out (i + 1) n := by unfold passInput; rw [if_pos (by omega)]
    rw [hout] at h1 h2 h5
    obtain ⟨fs', file', e1, e2, e3, e4, e5, e6, e7⟩ := ih (i + 1) fs1 file1 _ (by omega) (by rw [hinp]; exact h2) h3 (hio _ _ h4)
      (smallFile_map _ hsm)
    refine ⟨fs', file', ?_, e2, e3, ?_, ?_, e6, ?_⟩
    · unfold runPasses
      rw [Prog.exec_bind, z1, Res.ok_bind, Prog.exec_bind, Prog.exec_lift, s1, Res.ok_bind, Res.ok_bind, Prog.exec_bind,
        hout]
      dsimp only
      rw [h1, Res.ok_bind]
      exact e1
    · rw [List.map_map] at e4
      have : ((fun c : Content => c.mapRefs (locate ((subs.drop (i + 1)).flatMap (·.element)) ix.locations)) ∘
          fun c : Content => c.mapRefs (locate subs[i].element subs[i].locations)) =
          fun c => c.mapRefs (locate ((subs.drop i).flatMap (·.element)) ix.locations) := by
        funext c
        rw [Function.comp_apply, content_mapRefs_comp, List.drop_eq_getElem_cons hi1, List.flatMap_cons, s3]
        congr 1
        funext r
        exact locate_comp hneg _ _ r
      rw [this] at e4
      exact e4
    · intro p p1 p2 p3
      rcases Nat.lt_or_ge p i with hp | hp
      · have : p = i - 1 := by omega
        subst this
        rw [e7 _ (pass_ne_out _ _ _) fun q q1 q2 q3 => hneq _ _ (by omega), h5 _ (hneq _ _ (by omega))]
        exact z2 (by omega)
      · exact e5 p p1 (by omega) p3
    · intro g g1 g2
      rw [e7 g g1 fun q q1 q2 q3 => g2 q q1 (by omega) q3, h5 g (g2 (i + 1) (by omega) (by omega) (by omega)),
        z3 g fun h => g2 (i - 1) (by omega) (by omega) (by omega)]

theorem runPasses_ok (inflate : Inflate) (scheds : Nat → Block → Sched)
    (hsched : ∀ i b, (scheds i b).pooled.length < 2 ^ 63) {ix : NodeIdx}
    (hneg : NegativeLocs ix.locations) (inp out : String) {n : Nat} (subs : List SubIdx) (hlen : subs.length = n)
    (hsub : ∀ (p : Nat) si, subs[p]? = some si → ix.SubIndex (UInt64.ofNat p) (UInt64.ofNat n) = .ok si ∧ WellFormedSub si ∧
      si.locations = ix.locations) :
    ∀ (left i : Nat) (fs : FS) (file : List UInt8) (cs : List Content), i + (left + 1) = n →
      Holds fs (passInput inp out n i) file → file.length < 2 ^ 63 → FileHas inflate reader file cs → SmallFile cs →
      ∃ fs' file', (runPasses inflate scheds ix inp out n (left + 1) i).exec fs = .ok ((), fs') ∧
        Holds fs' out file' ∧ file'.length < 2 ^ 63 ∧
        FileHas inflate reader file' (cs.map (·.mapRefs (locate ((subs.drop i).flatMap (·.element)) ix.locations))) ∧
        (∀ p, 1 ≤ p → i ≤ p + 1 → p + 1 < n → fs' (RelIndex.makePassFilename out p n) = none) ∧
        (1 < n → ∃ x, fs' (RelIndex.makePassFilename out (n - 1) n) = some x) ∧
        ∀ g, g ≠ out → (∀ p, 1 ≤ p → i ≤ p + 1 → p < n → g ≠ RelIndex.makePassFilename out p n) → fs' g = fs g :=
  runPasses_gen inflate scheds hneg inp out subs hlen hsub (FileHas inflate reader) (FileHas inflate reader)
    (fun _ _ h => h) fun p si hp _ _ inp' out' fs hl hc hsm hin =>
      pass_ok inflate (scheds p) (hsched p) (hsub p si hp).2.1 hl hc hsm inp' out' fs hin

/-! ## What a completed run touches -/

theorem pass_only (inflate : Inflate) (sched : Block → Sched) (si : SubIdx) (inp out : String) (fs fs' : FS)
    (h : (pass inflate sched si inp out).exec fs = .ok ((), fs')) :
    (∃ x, fs inp = some x) ∧ ∀ g, g ≠ out → fs' g = fs g := by
  unfold pass at h
  rw [Prog.exec_bind, exec_OsOpen] at h
  obtain ⟨r1, h1, h⟩ := Res.bind_eq_ok.1 h
  split at h1
  · next hsome =>
    cases h1
    rw [Prog.exec_bind] at h
    obtain ⟨r2, h2, h⟩ := Res.bind_eq_ok.1 h
    have e2 := RelIndex.only_MMapMap _ _ _ h2
    rw [Prog.exec_bind, Prog.exec_lift] at h
    obtain ⟨r3, h3, h⟩ := Res.bind_eq_ok.1 h
    obtain ⟨bs, _, h3⟩ := Res.bind_eq_ok.1 h3
    cases h3
    rw [Prog.exec_bind, Prog.exec_lift] at h
    obtain ⟨r4, h4, h⟩ := Res.bind_eq_ok.1 h
    obtain ⟨xs, _, h4⟩ := Res.bind_eq_ok.1 h4
    cases h4
    dsimp only at h e2
    rw [e2] at h
    obtain ⟨fs3, o1, _, o3⟩ := output_exec out xs fs
    rw [o1] at h
    cases h
    refine ⟨?_, o3⟩
    exact Option.isSome_iff_exists.1 hsome
  · cases h1

theorem runPasses_only (inflate : Inflate) (scheds : Nat → Block → Sched) (ix : NodeIdx) (inp out : String) (n : Nat) :
    ∀ (left i : Nat) (fs fs' : FS), i + left = n →
      (runPasses inflate scheds ix inp out n left i).exec fs = .ok ((), fs') →
      (∀ p, 1 ≤ p → i ≤ p + 1 → p + 1 < n → i < n → fs' (RelIndex.makePassFilename out p n) = none) ∧
      ∀ g, g ≠ out → (∀ p, 1 ≤ p → i ≤ p + 1 → p < n → g ≠ RelIndex.makePassFilename out p n) → fs' g = fs g := by
  have hneq : ∀ p q, p ≠ q → RelIndex.makePassFilename out p n ≠ RelIndex.makePassFilename out q n :=
    fun p q h he => h (pass_inj he)
  intro left
  induction left with
  | zero =>
    intro i fs fs' hi h
    cases h
    exact ⟨fun _ _ _ _ _ => by omega, fun _ _ _ => rfl⟩
  | succ left ih =>
    intro i fs fs' hi h
    obtain ⟨fs0, z1, z2, z3⟩ := removeOld_exec out n i fs
    unfold runPasses at h
    rw [Prog.exec_bind, z1, Res.ok_bind, Prog.exec_bind, Prog.exec_lift] at h
    obtain ⟨r1, h1, h⟩ := Res.bind_eq_ok.1 h
    obtain ⟨si, _, h1⟩ := Res.bind_eq_ok.1 h1
    cases h1
    rw [Prog.exec_bind] at h
    obtain ⟨⟨_, fs1⟩, h2, h⟩ := Res.bind_eq_ok.1 h
    dsimp only at h2 h
    obtain ⟨_, h5⟩ := pass_only _ _ _ _ _ _ _ h2
    obtain ⟨e1, e2⟩ := ih (i + 1) fs1 fs' (by omega) h
    have hout : passOutput out n i = out ∧ i + 1 = n ∨
        passOutput out n i = RelIndex.makePassFilename out (i + 1) n ∧ i + 1 < n := by
      unfold passOutput
      split
      · exact .inr ⟨rfl, by omega⟩
      · exact .inl ⟨rfl, by omega⟩
    constructor
    · intro p p1 p2 p3 _
      rcases Nat.lt_or_ge p i with hp | hp
      · have : p = i - 1 := by omega
        subst this
        rw [e2 _ (pass_ne_out _ _ _) fun q q1 q2 q3 => hneq _ _ (by omega), h5]
        · exact z2 (by omega)
        · rcases hout with ⟨h, _⟩ | ⟨h, _⟩
          · rw [h]; exact pass_ne_out _ _ _
          · rw [h]; exact hneq _ _ (by omega)
      · exact e1 p p1 (by omega) p3 (by omega)
    · intro g g1 g2
      rw [e2 g g1 fun q q1 q2 q3 => g2 q q1 (by omega) q3, h5,
        z3 g fun h => g2 (i - 1) (by omega) (by omega) (by omega)]
      rcases hout with ⟨h, _⟩ | ⟨h, hh⟩
      · rw [h]; exact g1
      · rw [h]; exact g2 (i + 1) (by omega) (by omega) hh

end Osm.Rewrite
