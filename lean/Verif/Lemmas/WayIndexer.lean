import Verif.Spec.WayIndexer
import Verif.Lemmas.WayIndex
import Verif.Lemmas.TwoFile
import Verif.Props.Pb

namespace Osm.WayIndexer
open Osm Osm.Pb Osm.T Osm.WayIndex Osm.Spec

/-! ## References -/

theorem filterRefs_squeeze (xs : List Int64) : ∀ x, x :: filterRefs x xs = squeeze (x :: xs) := by
  induction xs with
  | nil => intro x; rfl
  | cons y ys ih =>
    intro x
    unfold filterRefs squeeze
    by_cases h : x = y
    · subst h
      rw [if_neg (by simp), if_pos rfl, ih]
    · rw [if_pos (Ne.symm h), if_neg h, ih]

theorem filterRefs_eq (w : Way) : filterRefs 0 w.Refs = indexedRefs w := by
  unfold indexedRefs
  induction w.Refs with
  | nil => rfl
  | cons y ys ih =>
    unfold filterRefs
    by_cases h : y = 0
    · rw [if_neg (by simpa using h), List.dropWhile_cons_of_pos (by simpa using h)]
      exact ih
    · rw [if_pos h, List.dropWhile_cons_of_neg (by simpa using h)]
      exact filterRefs_squeeze ys y

theorem filterRefs_noRepeat (xs : List Int64) : ∀ x, NoRepeat x (filterRefs x xs) := by
  induction xs with
  | nil => intro x; trivial
  | cons y ys ih =>
    intro x
    unfold filterRefs
    split
    · rename_i h; exact ⟨h, ih y⟩
    · exact ih x

/-! ## One way -/

/-- What is written for a way. -/
def wayData (shift : Int64) (w : Way) : List UInt8 :=
  let e := EncodeS64PackedDeltaZero [] (indexedRefs w)
  e ++ List.replicate (2 ^ shift.toInt.toNat - e.length % 2 ^ shift.toInt.toNat) 0

theorem wayData_length (shift : Int64) (w : Way) :
    (wayData shift w).length = wayBlocks shift w * 2 ^ shift.toInt.toNat := by
  unfold wayData wayBlocks
  dsimp only
  rw [List.length_append, List.length_replicate]
  generalize (EncodeS64PackedDeltaZero [] (indexedRefs w)).length = n
  have hp : 0 < 2 ^ shift.toInt.toNat := Nat.two_pow_pos _
  generalize 2 ^ shift.toInt.toNat = m at *
  have := Nat.div_add_mod n m
  have := Nat.mod_lt n hp
  rw [Nat.add_mul, Nat.one_mul, Nat.mul_comm (n / m)]
  omega

theorem wayData_decode (shift : Int64) (w : Way) (rest : List UInt8) :
    DecodeS64PackedDeltaZero ⟨wayData shift w ++ rest, []⟩ = .ok (indexedRefs w) := by
  unfold wayData
  dsimp only
  rw [List.append_assoc, Props.C05_delta_zero_exact_iff, ← filterRefs_eq]
  exact filterRefs_noRepeat _ _

/-- An index entry. -/
def entry (id : Int64) (off : Nat) : UInt64 := UInt64.ofNat (id.toInt.toNat * 2 ^ 33 + off)

theorem entry_id (id : Int64) (off : Nat) (h1 : id.toInt < 2 ^ 31) (h2 : off < 2 ^ 33) :
    wId (entry id off) = id.toInt.toNat := by
  unfold wId entry
  rw [UInt64.toNat_ofNat']
  omega

theorem entry_off (id : Int64) (off : Nat) (h1 : id.toInt < 2 ^ 31) (h2 : off < 2 ^ 33) :
    wOffset (entry id off) = off := by
  unfold wOffset entry
  rw [UInt64.toNat_ofNat']
  omega

theorem make_ok (id o : Int64) (off : Nat) (h0 : 0 ≤ id.toInt) (h1 : id.toInt < 2 ^ 31) (ho : o.toInt = off)
    (h2 : off < 2 ^ 33) : MakeIndexData id o = .ok (entry id off) := by
  unfold MakeIndexData
  rw [if_neg (by
      rw [gt_iff_lt, Int64.lt_iff_toInt_lt, show (0x80000000 : Int64).toInt = 0x80000000 from rfl]; omega),
    if_neg (by
      rw [gt_iff_lt, Int64.lt_iff_toInt_lt, show (0x200000000 : Int64).toInt = 0x200000000 from rfl]; omega)]
  congr 1
  obtain ⟨k, hk⟩ := Int.eq_ofNat_of_zero_le h0
  have hid : id = Int64.ofNat k := by
    apply Int64.toInt_inj.1
    rw [hk, Int64.toInt_ofNat_of_lt (by omega)]
  have hoo : o = Int64.ofNat off := by
    apply Int64.toInt_inj.1
    rw [ho, Int64.toInt_ofNat_of_lt (by omega)]
  unfold entry
  rw [show id.toInt.toNat = k by omega]
  apply UInt64.toNat.inj
  rw [hid, hoo]
  show ((Int64.ofNat k <<< 33 ||| Int64.ofNat off).toUInt64).toNat = _
  have e : ((Int64.ofNat k <<< 33 ||| Int64.ofNat off).toUInt64) = (UInt64.ofNat k <<< 33 ||| UInt64.ofNat off) := rfl
  rw [e, UInt64.toNat_or, UInt64.toNat_shiftLeft, UInt64.toNat_ofNat', UInt64.toNat_ofNat', UInt64.toNat_ofNat',
    show (33 : UInt64).toNat % 64 = 33 from rfl, Nat.shiftLeft_eq, Nat.mod_eq_of_lt (show k < 2 ^ 64 by omega),
    Nat.mod_eq_of_lt (show off < 2 ^ 64 by omega), Nat.mod_eq_of_lt (show k * 2 ^ 33 < 2 ^ 64 by omega),
    Nat.mod_eq_of_lt (show k * 2 ^ 33 + off < 2 ^ 64 by omega), Nat.mul_comm,
    ← Nat.two_pow_add_eq_or_of_lt h2]

/-- Padding by the alignment. -/
theorem pad_ok (b : List UInt8) (amt : Nat) (h1 : 1 ≤ amt) (h2 : amt < 2 ^ 63) :
    padToAlignment b amt = .ok (b ++ List.replicate (amt - b.length % amt) 0) := by
  unfold padToAlignment
  rw [if_neg (by omega)]
  dsimp only
  rw [← Int.ofNat_tmod]
  have := Nat.mod_lt b.length (show 0 < amt by omega)
  rw [Pb.goInt_small _ (by omega) (by omega), if_neg (by omega)]
  congr 3
  omega

theorem lenShr_ok (s : Int64) (n k : Nat) (h : 0 ≤ s.toInt) (hn : n = k * 2 ^ s.toInt.toNat) :
    lenShr n s = .ok (Int64.ofNat k) := by
  unfold lenShr
  rw [if_neg (by rw [Int64.lt_iff_toInt_lt, show (0 : Int64).toInt = 0 from rfl]; omega), hn,
    Nat.mul_div_cancel _ (Nat.two_pow_pos _)]

/-! ## Several ways -/

/-- The entries of some ways, the first at block `off`. -/
def entries (shift : Int64) : Nat → List Way → List UInt64
  | _, [] => []
  | off, w :: ws => entry w.ID off :: entries shift (off + wayBlocks shift w) ws

theorem entries_append (shift : Int64) (a b : List Way) : ∀ off,
    entries shift off (a ++ b) = entries shift off a ++ entries shift (off + waysBlocks shift a) b := by
  induction a with
  | nil => intro off; simp [entries, waysBlocks]
  | cons w ws ih =>
    intro off
    simp only [List.cons_append, entries, ih, waysBlocks, List.map_cons, List.sum_cons, List.cons_append]
    rw [Nat.add_assoc]

theorem entries_length (shift : Int64) (a : List Way) : ∀ off, (entries shift off a).length = a.length := by
  induction a with
  | nil => intro off; rfl
  | cons w ws ih => intro off; simp [entries, ih]

/-- The location data of some ways. -/
def locData (shift : Int64) (ws : List Way) : List UInt8 := ws.flatMap (wayData shift)

theorem locData_length (shift : Int64) (ws : List Way) :
    (locData shift ws).length = waysBlocks shift ws * 2 ^ shift.toInt.toNat := by
  unfold locData waysBlocks
  induction ws with
  | nil => simp
  | cons w ws ih =>
    rw [List.flatMap_cons, List.length_append, ih, wayData_length, List.map_cons, List.sum_cons, Nat.add_mul]

theorem wayBlocks_pos (shift : Int64) (w : Way) : 1 ≤ wayBlocks shift w :=
  Nat.succ_le_succ (Nat.zero_le _)

theorem waysBlocks_append (shift : Int64) (a b : List Way) :
    waysBlocks shift (a ++ b) = waysBlocks shift a + waysBlocks shift b := by
  simp [waysBlocks]

theorem waysBlocks_cons (shift : Int64) (w : Way) (b : List Way) :
    waysBlocks shift (w :: b) = wayBlocks shift w + waysBlocks shift b := by
  simp [waysBlocks]

/-- The amount of alignment. -/
theorem amt_ok (shift : Int64) (h : 0 ≤ shift.toInt ∧ shift.toInt < 62) :
    ∃ amt, goShl 1 shift = .ok amt ∧ amt.toInt = (2 ^ shift.toInt.toNat : Nat) := by
  have hp : 2 ^ shift.toInt.toNat < 2 ^ 63 := Nat.pow_lt_pow_right (by omega) (by omega)
  obtain ⟨o, h1, h2⟩ := goShl_eq 1 shift 1 rfl h.1 (by omega) (by omega)
  exact ⟨o, h1, by rw [h2, Nat.one_mul]⟩

theorem addWay_ok (shift amt : Int64) (h : 0 ≤ shift.toInt ∧ shift.toInt < 62)
    (ha : amt.toInt = (2 ^ shift.toInt.toNat : Nat)) (ds : List UInt64) (l : List UInt8) (k : Nat)
    (hl : l.length = k * 2 ^ shift.toInt.toNat) (hk : k < 2 ^ 33) (w : Way) (h0 : 0 ≤ w.ID.toInt)
    (h1 : w.ID.toInt < 2 ^ 31) :
    addWay shift amt ⟨ds, l⟩ w = .ok ⟨ds ++ [entry w.ID k], l ++ wayData shift w⟩ := by
  have hp : 2 ^ shift.toInt.toNat < 2 ^ 63 := Nat.pow_lt_pow_right (by omega) (by omega)
  unfold addWay
  dsimp only
  rw [lenShr_ok shift l.length k h.1 hl]
  simp only [Res.ok_bind]
  rw [make_ok w.ID (Int64.ofNat k) k h0 h1 (Int64.toInt_ofNat_of_lt (by omega)) hk]
  simp only [Res.ok_bind]
  rw [ha, pad_ok _ _ (Nat.two_pow_pos _) hp]
  simp only [Res.ok_bind]
  rw [List.length_append, hl, Nat.add_comm (k * _), Nat.add_mul_mod_self_right, filterRefs_eq]
  unfold wayData
  dsimp only
  rw [List.append_assoc]

theorem addWays_ok (shift amt : Int64) (h : 0 ≤ shift.toInt ∧ shift.toInt < 62)
    (ha : amt.toInt = (2 ^ shift.toInt.toNat : Nat)) (ws : List Way) : ∀ (ds : List UInt64) (l : List UInt8) (k : Nat),
    l.length = k * 2 ^ shift.toInt.toNat → k + waysBlocks shift ws ≤ 2 ^ 33 →
    (∀ w ∈ ws, 0 ≤ w.ID.toInt ∧ w.ID.toInt < 2 ^ 31) →
    foldRes (addWay shift amt) ⟨ds, l⟩ ws = .ok ⟨ds ++ entries shift k ws, l ++ locData shift ws⟩ := by
  induction ws with
  | nil => intro ds l k _ _ _; simp [foldRes, entries, locData]
  | cons w ws ih =>
    intro ds l k hl hk hid
    rw [waysBlocks_cons] at hk
    have hpos := wayBlocks_pos shift w
    unfold foldRes
    rw [addWay_ok shift amt h ha ds l k hl (by omega) w (hid w (by simp)).1 (hid w (by simp)).2]
    simp only [Res.ok_bind]
    rw [ih _ _ (k + wayBlocks shift w) (by rw [List.length_append, hl, wayData_length, Nat.add_mul]) (by omega)
      (fun x hx => hid x (by simp [hx]))]
    simp [entries, locData, List.append_assoc]

theorem foldRes_flatMap {α β σ : Type} (f : σ → β → Res σ) (g : α → List β) (xs : List α) : ∀ s,
    foldRes (fun s x => foldRes f s (g x)) s xs = foldRes f s (xs.flatMap g) := by
  have happ : ∀ (ys zs : List β) s, foldRes f s (ys ++ zs) = (foldRes f s ys >>= fun s' => foldRes f s' zs) := by
    intro ys
    induction ys with
    | nil => intro zs s; rfl
    | cons y ys ih =>
      intro zs s
      simp only [List.cons_append, foldRes]
      cases f s y with
      | ok a => simp only [Res.ok_bind]; exact ih zs a
      | panic => rfl
      | hang => rfl
  induction xs with
  | nil => intro s; rfl
  | cons x xs ih =>
    intro s
    rw [List.flatMap_cons, happ]
    rw [show foldRes (fun s x => foldRes f s (g x)) s (x :: xs) =
      (foldRes f s (g x) >>= fun s' => foldRes (fun s x => foldRes f s (g x)) s' xs) from rfl]
    congr 1
    funext s'
    exact ih s'

theorem work_ok (shift amt : Int64) (h : 0 ≤ shift.toInt ∧ shift.toInt < 62)
    (ha : amt.toInt = (2 ^ shift.toInt.toNat : Nat)) (pb : PrimitiveBlock)
    (hk : waysBlocks shift (sourceWays pb) ≤ 2 ^ 33)
    (hid : ∀ w ∈ sourceWays pb, 0 ≤ w.ID.toInt ∧ w.ID.toInt < 2 ^ 31) :
    work shift amt (some pb) = .ok (if sourceWays pb = [] then none
      else some ⟨entries shift 0 (sourceWays pb), locData shift (sourceWays pb)⟩) := by
  show indexBlock shift amt pb = _
  unfold indexBlock
  rw [foldRes_flatMap (addWay shift amt) (fun pg : T.PrimitiveGroup => pg.Ways)]
  have := addWays_ok shift amt h ha (sourceWays pb) [] [] 0 (by simp) (by omega) hid
  unfold sourceWays at this ⊢
  rw [this]
  simp only [Res.ok_bind, List.nil_append]
  generalize (pb.PrimitiveGroup.flatMap fun pg => pg.Ways) = ws
  congr 1
  cases ws with
  | nil => rfl
  | cons w ws => rfl

/-! ## The writer -/

/-- The element of a block's ways. -/
def elementOf (shift : Int64) (ws : List Way) : Option IndexElement :=
  if ws = [] then none else some ⟨entries shift 0 ws, locData shift ws⟩

/-- What the writer's loop writes: element count, index words, location bytes. -/
def batches (shift : Int64) : Int64 → Int64 → List (Option IndexElement) → Res (Int64 × List UInt64 × List UInt8)
  | count, _, [] => .ok (count, [], [])
  | count, len, none :: bs => batches shift count len bs
  | count, len, some b :: bs => do
    let ws ← batchWords len b.blocks
    let n ← lenShr b.locations.length shift
    let r ← batches shift (count + Int64.ofNat b.blocks.length) (len + n) bs
    .ok (r.1, ws ++ r.2.1, b.locations ++ r.2.2)

/-- The same as bytes. -/
def batchBytes (shift count len : Int64) (bs : List (Option IndexElement)) :
    Res (Int64 × List UInt8 × List UInt8) :=
  batches shift count len bs >>= fun r => .ok (r.1, bytesOf r.2.1, r.2.2)

theorem loopSpec (out tmp : String) (hne : out ≠ tmp) (shift : Int64) (bs : List (Option IndexElement)) :
    ∀ count len, LoopSpec out tmp (writeBatches out tmp shift count len bs) (batchBytes shift count len bs) := by
  induction bs with
  | nil =>
    intro count len
    refine ⟨?_, ?_⟩
    · intro fs d t hd ht
      refine ⟨?_, fun h => by simp [batchBytes, batches] at h, fun h => by simp [batchBytes, batches] at h⟩
      intro a A B h
      simp only [batchBytes, batches, Res.ok_bind, Res.ok.injEq, Prod.mk.injEq] at h
      obtain ⟨rfl, rfl, rfl⟩ := h
      exact ⟨fs, rfl, by simpa [bytesOf] using hd, by simpa using ht, fun _ _ _ => rfl⟩
    · intro fs d t z hd _ hz
      exact Prog.always_pure _ ⟨_, hd, hz⟩
  | cons b bs ih =>
    intro count len
    cases b with
    | none => exact ih count len
    | some b =>
      have step : ∀ (ws : List UInt64) (fs : FS) (d t : List UInt8), fs out = some ⟨d, d.length⟩ →
          fs tmp = some ⟨t, t.length⟩ →
          let fs2 := (FsOp.write tmp b.locations).run ((FsOp.write out (bytesOf ws)).run fs)
          fs2 out = some ⟨d ++ bytesOf ws, (d ++ bytesOf ws).length⟩ ∧
          fs2 tmp = some ⟨t ++ b.locations, (t ++ b.locations).length⟩ ∧
          ∀ g, g ≠ out → g ≠ tmp → fs2 g = fs g := by
        intro ws fs d t hd ht
        refine ⟨?_, ?_, ?_⟩
        · simp only [FsOp.run]
          rw [set_other _ _ hne, set_same, hd]
          simp only [Option.map_some, write_end]
        · simp only [FsOp.run, set_same]
          rw [set_other _ _ (Ne.symm hne), ht]
          simp only [Option.map_some, write_end]
        · intro g h1 h2
          simp only [FsOp.run]
          rw [set_other _ _ h2, set_other _ _ h1]
      refine ⟨?_, ?_⟩
      · intro fs d t hd ht
        unfold batchBytes batches writeBatches
        simp only [Prog.exec_bind, Prog.exec_lift]
        cases hw : batchWords len b.blocks with
        | panic => simp
        | hang => simp
        | ok ws =>
          simp only [Res.ok_bind]
          unfold FWriteSliceU64 FWrite
          simp only [Prog.exec_emit, Res.ok_bind]
          cases hn : lenShr b.locations.length shift with
          | panic => simp
          | hang => simp
          | ok n =>
          simp only [Res.ok_bind]
          obtain ⟨e1, e2, e3⟩ := step ws fs d t hd ht
          obtain ⟨r1, r2, r3⟩ := (ih (count + Int64.ofNat b.blocks.length) (len + n)).runs _ _ _ e1 e2
          unfold batchBytes at r1 r2 r3
          cases hb : batches shift (count + Int64.ofNat b.blocks.length) (len + n) bs with
          | panic => rw [hb] at r2; simpa using r2
          | hang => rw [hb] at r3; simpa using r3
          | ok r =>
            refine ⟨?_, by simp, by simp⟩
            intro a A B h
            simp only [Res.ok_bind, Res.ok.injEq, Prod.mk.injEq] at h
            obtain ⟨rfl, rfl, rfl⟩ := h
            obtain ⟨fs', g1, g2, g3, g4⟩ := r1 r.1 _ _ (by rw [hb]; rfl)
            refine ⟨fs', g1, ?_, ?_, ?_⟩
            · rw [g2, bytesOf_append, List.append_assoc]
            · rw [g3, List.append_assoc]
            · intro g h1 h2
              rw [g4 g h1 h2, e3 g h1 h2]
      · intro fs d t z hd ht hz
        unfold writeBatches
        refine Prog.always_bind (Prog.always_lift _ ⟨_, hd, hz⟩) ?_
        intro ws fs1 h1
        have : fs1 = fs := by
          rw [Prog.exec_lift] at h1
          obtain ⟨_, _, h1⟩ := Res.bind_eq_ok.1 h1
          simp only [Res.ok.injEq, Prod.mk.injEq] at h1
          exact h1.2.symm
        subst this
        obtain ⟨e1, e2, e3⟩ := step ws fs1 d t hd ht
        have hw1 : (FsOp.write out (bytesOf ws)).run fs1 out =
            some ⟨d ++ bytesOf ws, (d ++ bytesOf ws).length⟩ := by
          simp only [FsOp.run, set_same]
          rw [hd]
          simp only [Option.map_some, write_end]
        have hz1 := List.IsPrefix.trans hz (List.prefix_append d (bytesOf ws))
        unfold FWriteSliceU64 FWrite
        refine Prog.always_bind (Prog.always_emit _ ⟨_, hd, hz⟩ (startsWith_append hd hz _ _)
          (fun f bs k _ => startsWith_append hd hz _ _)) ?_
        intro _ fs2 h2
        simp only [Prog.exec_emit, Res.ok.injEq, Prod.mk.injEq, true_and] at h2
        subst h2
        refine Prog.always_bind (Prog.always_emit _ ⟨_, hw1, hz1⟩ (startsWith_append hw1 hz1 _ _)
          (fun f bs k _ => startsWith_append hw1 hz1 _ _)) ?_
        intro _ fs3 h3
        simp only [Prog.exec_emit, Res.ok.injEq, Prod.mk.injEq, true_and] at h3
        subst h3
        refine Prog.always_bind (Prog.always_lift _ ⟨_, e1, hz1⟩) ?_
        intro n fs4 h4
        have : fs4 = (FsOp.write tmp b.locations).run ((FsOp.write out (bytesOf ws)).run fs1) := by
          rw [Prog.exec_lift] at h4
          obtain ⟨_, _, h4⟩ := Res.bind_eq_ok.1 h4
          simp only [Res.ok.injEq, Prod.mk.injEq] at h4
          exact h4.2.symm
        subst this
        exact (ih _ _).crash _ _ _ z e1 e2 hz1

/-- The header. -/
def header (shift count : Int64) : List UInt8 := Int64SliceAsByteSlice [count, shift]

theorem output_shape (out : String) (shift : Int64) (sched : Nat → Nat) (cancelled : Nat → Bool)
    (bs : List (Option IndexElement)) :
    Output out shift sched cancelled bs =
      withHeader out (twoFile out sched cancelled (writeBatches out (out ++ ".loc.tmp") shift 0 0 bs))
        (header shift) := rfl

theorem header_length (shift c : Int64) : (header shift c).length = 16 := by
  unfold header Int64SliceAsByteSlice; rw [bytesOf_length]; rfl

theorem entries_ids (shift : Int64) (ws : List Way) : ∀ k, k + waysBlocks shift ws ≤ 2 ^ 33 →
    (∀ w ∈ ws, 0 ≤ w.ID.toInt ∧ w.ID.toInt < 2 ^ 31) → ∀ (len : Nat), len + k + waysBlocks shift ws ≤ 2 ^ 33 →
    batchWords (Int64.ofNat len) (entries shift k ws) = .ok (entries shift (len + k) ws) := by
  unfold batchWords
  induction ws with
  | nil => intro k _ _ len _; rfl
  | cons w ws ih =>
    intro k hk hid len hlen
    rw [waysBlocks_cons] at hk hlen
    have hpos := wayBlocks_pos shift w
    obtain ⟨i0, i1⟩ := hid w (by simp)
    have hwid : WayID (entry w.ID k) = w.ID := by
      apply Int64.toInt_inj.1
      rw [wayID_eq, entry_id _ _ i1 (by omega)]
      omega
    have hoff : (Offset (entry w.ID k) + Int64.ofNat len).toInt = (len + k : Nat) := by
      rw [Int64.toInt_add, offset_eq, entry_off _ _ i1 (by omega), Int64.toInt_ofNat_of_lt (by omega), Int.bmod_def]
      omega
    unfold entries mapRes
    rw [hwid, make_ok w.ID _ (len + k) i0 i1 hoff (by omega)]
    simp only [Res.ok_bind]
    rw [ih (k + wayBlocks shift w) (by omega) (fun x hx => hid x (by simp [hx])) len (by omega)]
    rw [Nat.add_assoc]
    rfl

/-- The writer's loop on the workers' output. -/
theorem batches_ok (shift : Int64) (h : 0 ≤ shift.toInt) (wss : List (List Way)) : ∀ (n len : Nat),
    len + waysBlocks shift wss.flatten ≤ 2 ^ 33 →
    (∀ w ∈ wss.flatten, 0 ≤ w.ID.toInt ∧ w.ID.toInt < 2 ^ 31) →
    batches shift (Int64.ofNat n) (Int64.ofNat len) (wss.map (elementOf shift)) =
      .ok (Int64.ofNat (n + wss.flatten.length), entries shift len wss.flatten, locData shift wss.flatten) := by
  induction wss with
  | nil => intro n len _ _; rfl
  | cons ws wss ih =>
    intro n len hlen hid
    rw [List.flatten_cons] at hlen hid ⊢
    rw [waysBlocks_append] at hlen
    rw [List.map_cons]
    by_cases hws : ws = []
    · subst hws
      have : elementOf shift [] = none := rfl
      rw [this, List.nil_append]
      exact ih n len (by simp [waysBlocks] at hlen ⊢; omega) (fun w hw => hid w (by simpa using hw))
    · have : elementOf shift ws = some ⟨entries shift 0 ws, locData shift ws⟩ := if_neg hws
      rw [this]
      unfold batches
      rw [entries_ids shift ws 0 (by omega) (fun w hw => hid w (by simp [hw])) len (by omega)]
      simp only [Res.ok_bind]
      rw [lenShr_ok shift _ (waysBlocks shift ws) h (locData_length shift ws)]
      simp only [Res.ok_bind]
      rw [← Int64.ofNat_add, ← Int64.ofNat_add, entries_length,
        ih _ _ (by omega) (fun w hw => hid w (by simp [hw]))]
      simp only [Res.ok_bind, Res.ok.injEq, Prod.mk.injEq]
      refine ⟨?_, ?_, ?_⟩
      · rw [List.length_append, Nat.add_assoc]
      · rw [entries_append]; rfl
      · simp [locData]

/-- The ways of each block. -/
def waysOf : Option PrimitiveBlock → List Way
  | none => []
  | some pb => sourceWays pb

theorem allWays_eq (blocks : List (Option PrimitiveBlock)) : allWays blocks = (blocks.map waysOf).flatten := by
  unfold allWays
  rw [List.flatMap_def]
  congr 2

theorem workAll_ok (shift : Int64) (blocks : List (Option PrimitiveBlock))
    (h : WaysIndexable shift (allWays blocks)) :
    workAll shift blocks = .ok ((blocks.map waysOf).map (elementOf shift)) := by
  obtain ⟨amt, h1, h2⟩ := amt_ok shift h.range
  unfold workAll
  rw [h1]
  simp only [Res.ok_bind]
  have hids := h.ids
  have hsp := h.space
  rw [allWays_eq] at hids hsp
  clear h1
  have hr := h.range
  clear h
  induction blocks with
  | nil => rfl
  | cons b bs ih =>
    rw [List.map_cons, List.flatten_cons] at hids hsp
    rw [waysBlocks_append] at hsp
    unfold mapRes
    have hb : work shift amt b = .ok (elementOf shift (waysOf b)) := by
      cases b with
      | none => rfl
      | some pb =>
        exact work_ok shift amt hr h2 pb (by
          have : waysOf (some pb) = sourceWays pb := rfl
          rw [this] at hsp
          omega) (fun w hw => hids w (List.mem_append_left _ hw))
    rw [hb]
    simp only [Res.ok_bind]
    rw [ih (fun w hw => hids w (List.mem_append_right _ hw)) (by omega)]
    rfl

end Osm.WayIndexer
