import Verif.Lemmas.FormatFile
import Verif.Lemmas.Interrupt
import Verif.Lemmas.RewritePasses
import Verif.Model.Find
import Verif.Model.Count
import Verif.Spec.Damaged

/-!
# Lemmas about damaged input (C93)
-/

namespace Osm.Damaged
open Osm Osm.T Osm.Pbf Osm.Spec Osm.Spec.OsmFormat Osm.Format

theorem isFile_nil {xs : List (GoStr × List UInt8)} (h : IsFile [] xs) : xs = [] := by
  generalize hf : ([] : List UInt8) = f at h
  cases h with
  | nil => rfl
  | cons size header blob rest kind dataSize xs h1 =>
    exfalso
    have := congrArg List.length hf
    simp only [List.length_append, List.length_nil] at this
    omega

theorem nil_isFile {file : List UInt8} (h : IsFile file []) : file = [] := by
  cases h
  rfl

/-- What is left of a file of blobs, if it can be read at all, ends between two of these. -/
theorem prefix_blockFile {file : List UInt8} {xs : List (GoStr × List UInt8)} (h : IsFile file xs) (hl : file.length < 2 ^ 63) :
    ∀ (n i : Nat) (bs : List Block), BlockFile i (file.take n) bs →
      ∃ j ≤ xs.length, IsFile (file.take n) (xs.take j) ∧ IsFile (file.drop n) (xs.drop j) ∧ bs.map Seen = xs.take j := by
  induction h with
  | nil =>
    intro n i bs hb
    rw [List.take_nil] at hb
    generalize hf : ([] : List UInt8) = f at hb
    cases hb with
    | nil => exact ⟨0, Nat.le_refl _, by simpa using IsFile.nil, by simpa using IsFile.nil, rfl⟩
    | cons _ header data rest kind size bs =>
      have := congrArg List.length hf
      simp [be32_length] at this
      omega
  | cons size header blob rest kind dataSize xs h1 h2 h3 h4 h5 ih =>
    intro n i bs hb
    have hne : n = 0 ∨ 0 < n := Nat.eq_zero_or_pos n
    rcases hne with rfl | hn
    · rw [List.take_zero] at hb
      generalize hf : ([] : List UInt8) = f at hb
      cases hb with
      | nil =>
        refine ⟨0, Nat.zero_le _, by simpa using IsFile.nil, ?_, rfl⟩
        rw [List.drop_zero, List.drop_zero]
        exact .cons size header blob rest kind dataSize xs h1 h2 h3 h4 h5
      | cons _ header data rest kind size bs =>
        have := congrArg List.length hf
        simp [be32_length] at this
        omega
    simp only [List.length_append] at hl
    generalize hc : (size ++ header ++ blob ++ rest).take n = c at hb
    have htot : c ++ (size ++ header ++ blob ++ rest).drop n = size ++ header ++ blob ++ rest := by
      rw [← hc, List.take_append_drop]
    cases hb with
    | nil =>
      exfalso
      have := congrArg List.length hc
      simp only [List.length_take, List.length_append, List.length_nil] at this
      omega
    | cons _ header' data' rest' kind' size' bs g1 g2 g3 g4 g5 =>
      obtain ⟨h6, h7⟩ := be32_of_fold h1 h2
      simp only [List.append_assoc] at htot
      obtain ⟨e1, htot⟩ := append_split htot (by rw [be32_length, h1])
      rw [← h7] at e1
      have e1 := congrArg UInt32.toNat (be32_inj e1)
      have eh : header'.length = header.length := by
        simpa [UInt32.toNat_ofNat', Nat.mod_eq_of_lt g1, Nat.mod_eq_of_lt h6] using e1
      obtain ⟨rfl, htot⟩ := append_split htot eh
      have hfit : (Slice.mk header' (data' ++ rest')).Fits := by
        have := congrArg List.length htot
        unfold Slice.Fits
        simp only [List.length_append] at this ⊢
        omega
      rw [read_header h3 _ hfit] at g2
      cases g2
      have ed : data'.length = blob.length := by omega
      obtain ⟨rfl, htot⟩ := append_split htot ed
      have hn2 : n = size.length + header'.length + data'.length + rest'.length ∨
          size.length + header'.length + data'.length + rest.length ≤ n := by
        have := congrArg List.length hc
        simp only [List.length_take, List.length_append, be32_length] at this
        omega
      have hcut : rest' = rest.take (n - (size.length + header'.length + data'.length)) := by
        have hr : rest' = (rest' ++ (size ++ (header' ++ (data' ++ rest))).drop n).take rest'.length := by
          rw [List.take_append_of_le_length (Nat.le_refl _), List.take_length]
        rw [hr, htot]
        rcases hn2 with e | e
        · congr 1; omega
        · have : rest'.length = rest.length := by
            have h8 := congrArg List.length hc
            simp only [List.length_take, List.length_append, be32_length] at h8
            omega
          rw [this, List.take_length, List.take_of_length_le (by omega)]
      rw [hcut] at g5
      obtain ⟨j, j1, j2, j3, j4⟩ := ih (by omega) _ _ _ g5
      have hn3 : size.length + header'.length + data'.length ≤ n := by omega
      have hdrop : (size ++ (header' ++ (data' ++ rest))).drop n
          = rest.drop (n - (size.length + header'.length + data'.length)) := by
        rw [← List.append_assoc, ← List.append_assoc, List.drop_append,
          List.drop_of_length_le (by simp only [List.length_append]; omega), List.nil_append]
        simp only [List.length_append]
      refine ⟨j + 1, by rw [List.length_cons]; omega, ?_, ?_, ?_⟩
      · rw [h7, List.take_succ_cons, hcut]
        exact .cons size header' data' _ kind dataSize _ h1 h2 h3 h4 j2
      · rw [List.drop_succ_cons, List.append_assoc, List.append_assoc, hdrop]
        exact j3
      · rw [List.map_cons, j4, List.take_succ_cons]
        rfl

/-! ## Runs that complete -/

theorem mapRes_every {α β : Type} {f : α → Res β} : ∀ {as : List α} {bs : List β}, mapRes f as = .ok bs →
    ∀ a ∈ as, ∃ b, f a = .ok b
  | [], _, _ => by simp
  | a :: as, bs, h => by
    unfold mapRes at h
    obtain ⟨b, h1, h⟩ := Res.bind_eq_ok.1 h
    obtain ⟨bs', h2, _⟩ := Res.bind_eq_ok.1 h
    intro x hx
    rcases List.mem_cons.1 hx with rfl | hx
    · exact ⟨b, h1⟩
    · exact mapRes_every h2 x hx

theorem process_ok {α O : Type} {cut : Option Nat} {work : Block → Res O} {inp : String} {output : List O → Prog α} {fs : FS}
    {r : α × FS} (h : (Interrupt.process cut work inp output).exec fs = .ok r) :
    ∃ file bs xs, Holds fs inp file ∧ split file = .ok bs ∧ mapRes work (Interrupt.handed cut bs) = .ok xs := by
  unfold Interrupt.process at h
  rw [Prog.exec_bind] at h
  obtain ⟨a, h1, h⟩ := Res.bind_eq_ok.1 h
  rw [exec_OsOpen] at h1
  cases hf : fs inp with
  | none => rw [hf] at h1; cases h1
  | some x =>
    rw [hf] at h1
    obtain rfl := Res.ok.inj h1
    rw [Prog.exec_bind, Osm.exec_MMapMap] at h
    dsimp only at h
    rw [hf] at h
    obtain ⟨m, h2, h⟩ := Res.bind_eq_ok.1 h
    dsimp only at h2
    split at h2
    · cases h2
    obtain rfl := Res.ok.inj h2
    rw [Prog.exec_bind, Prog.exec_lift] at h
    obtain ⟨y, h3, h⟩ := Res.bind_eq_ok.1 h
    obtain ⟨bs, h4, h5⟩ := Res.bind_eq_ok.1 h3
    obtain rfl := Res.ok.inj h5
    rw [Prog.exec_bind, Prog.exec_lift] at h
    obtain ⟨z, h6, _⟩ := Res.bind_eq_ok.1 h
    obtain ⟨xs, h7, _⟩ := Res.bind_eq_ok.1 h6
    exact ⟨x.data, bs, xs, ⟨x.pos, by rw [hf]⟩, h4, h7⟩

/-- The work on a block of data is done only if it can be unpacked and decoded. -/
def Decodes {O : Type} (inflate : Inflate) (work : Block → Res O) : Prop :=
  ∀ b o, work b = .ok o → b.Kind = osmData →
    ∃ sched raw o pb, rawOf inflate sched b = .ok raw ∧ ReadPrimitiveBlock o raw = .ok pb

/-- See `Decodes`. -/
def Unpacks {O : Type} (inflate : Inflate) (work : Block → Res O) : Prop :=
  ∀ b o, work b = .ok o → b.Kind = osmData → ∃ sched raw, rawOf inflate sched b = .ok raw

theorem decodes_blockWork {O : Type} (inflate : Inflate) (sched : Block → Sched) (r : PBReader)
    (work : Option PrimitiveBlock → Res O) : Decodes inflate (Programs.blockWork inflate sched r work) := by
  intro b o h hk
  unfold Programs.blockWork at h
  obtain ⟨pb, h1, _⟩ := Res.bind_eq_ok.1 h
  unfold Programs.decodeBlock at h1
  rw [if_neg (by simpa using hk)] at h1
  obtain ⟨raw, h2, h1⟩ := Res.bind_eq_ok.1 h1
  obtain ⟨p, h3, _⟩ := Res.bind_eq_ok.1 h1
  exact ⟨_, raw, _, p, h2, h3⟩

theorem decodes_rewrite (inflate : Inflate) (sched : Block → Sched) (si : NodeIndex.SubIdx) :
    Decodes inflate (Rewrite.rewriteWork inflate sched si) := by
  intro b o h hk
  unfold Rewrite.rewriteWork at h
  rw [if_neg (by simpa using hk)] at h
  obtain ⟨raw, h2, h1⟩ := Res.bind_eq_ok.1 h
  obtain ⟨p, h3, _⟩ := Res.bind_eq_ok.1 h1
  exact ⟨_, raw, _, p, h2, h3⟩

theorem decodes_filter (inflate : Inflate) (sched : Block → Sched) : Decodes inflate (TagFilter.filterWork inflate sched) := by
  intro b o h hk
  unfold TagFilter.filterWork at h
  obtain ⟨s, h, _⟩ := Res.bind_eq_ok.1 h
  unfold TagFilter.filterIter at h
  rw [if_neg (by simpa using hk)] at h
  obtain ⟨raw, h2, h1⟩ := Res.bind_eq_ok.1 h
  obtain ⟨p, h3, _⟩ := Res.bind_eq_ok.1 h1
  exact ⟨_, raw, _, p, h2, h3⟩

theorem decodes_find (inflate : Inflate) (sched : Block → Sched) (ids : List UInt64) :
    Decodes inflate (Find.findBlock inflate sched ids) := by
  intro b o h hk
  unfold Find.findBlock at h
  rw [if_neg (by simpa using hk)] at h
  obtain ⟨raw, h2, h1⟩ := Res.bind_eq_ok.1 h
  obtain ⟨p, h3, _⟩ := Res.bind_eq_ok.1 h1
  exact ⟨_, raw, _, p, h2, h3⟩

theorem decodes_count (inflate : Inflate) (sched : Block → Sched) : Decodes inflate (Count.groupsOf inflate sched) := by
  intro b o h hk
  unfold Count.groupsOf at h
  rw [if_neg (by simpa using hk)] at h
  obtain ⟨raw, h2, h1⟩ := Res.bind_eq_ok.1 h
  obtain ⟨p, h3, _⟩ := Res.bind_eq_ok.1 h1
  exact ⟨_, raw, _, p, h2, h3⟩

theorem unpacks_decompress (inflate : Inflate) (sched : Block → Sched) : Unpacks inflate (decompressWork inflate sched) := by
  intro b o h hk
  unfold decompressWork at h
  obtain ⟨raw, h2, h1⟩ := Res.bind_eq_ok.1 h
  exact ⟨_, raw, h2⟩

theorem whole_of {O : Type} {inflate : Inflate} {work : Block → Res O} (hd : Decodes inflate work) {file : List UInt8}
    (hl : file.length < 2 ^ 63) {bs : List Block} (hs : split file = .ok bs) (hw : ∀ b ∈ bs, ∃ o, work b = .ok o) :
    ReadableWhole inflate file := by
  obtain ⟨h1, h2⟩ := (split_iff file hl bs).1 hs
  refine ⟨h1, bs, h2, fun b hb hk => ?_⟩
  obtain ⟨o, ho⟩ := hw b hb
  exact hd b o ho hk

theorem unpackable_of {O : Type} {inflate : Inflate} {work : Block → Res O} (hd : Unpacks inflate work) {file : List UInt8}
    (hl : file.length < 2 ^ 63) {bs : List Block} (hs : split file = .ok bs) (hw : ∀ b ∈ bs, ∃ o, work b = .ok o) :
    UnpackableWhole inflate file := by
  obtain ⟨h1, h2⟩ := (split_iff file hl bs).1 hs
  refine ⟨h1, bs, h2, fun b hb hk => ?_⟩
  obtain ⟨o, ho⟩ := hw b hb
  exact hd b o ho hk

end Osm.Damaged
