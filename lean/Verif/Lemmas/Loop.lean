import Verif.Lemmas.Varint
import Verif.Lemmas.ZigZag

namespace Osm
open Osm.Spec Osm.Pb

/-- `Runs body chunk s s'`: wherever the bytes `chunk` stand in a buffer, the loop consumes
exactly them, moving the state from `s` to `s'`. -/
def Runs {σ : Type} (body : Slice → Int → σ → Res (σ × Int)) (chunk : List UInt8) (s s' : σ) :
    Prop :=
  ∀ (buf : Slice) (n : Nat) (rest : List UInt8), buf.Fits → buf.bytes.drop n = chunk ++ rest →
    ∀ fuel, chunk.length + rest.length < fuel → ∃ fuel', rest.length < fuel' ∧
      loopBytes buf (body buf) fuel n s = loopBytes buf (body buf) fuel' (n + chunk.length : Nat) s'

theorem runs_nil {σ : Type} (body : Slice → Int → σ → Res (σ × Int)) (s : σ) :
    Runs body [] s s := by
  intro buf n rest _ _ fuel hf
  exact ⟨fuel, by simpa using hf, by simp⟩

theorem runs_append {σ : Type} {body : Slice → Int → σ → Res (σ × Int)} {c1 c2 : List UInt8}
    {s1 s2 s3 : σ} (h1 : Runs body c1 s1 s2) (h2 : Runs body c2 s2 s3) :
    Runs body (c1 ++ c2) s1 s3 := by
  intro buf n rest hb hd fuel hf
  obtain ⟨f1, hf1, e1⟩ := h1 buf n (c2 ++ rest) hb (by simpa using hd) fuel
    (by simp at hf ⊢; omega)
  obtain ⟨f2, hf2, e2⟩ := h2 buf (n + c1.length) rest hb
    (by rw [← List.drop_drop, hd]; simp) f1 (by simpa using hf1)
  exact ⟨f2, hf2, by rw [e1, e2]; simp [Nat.add_assoc]⟩

/-- One iteration of the loop. -/
theorem runs_step {σ : Type} {body : Slice → Int → σ → Res (σ × Int)} {chunk : List UInt8}
    {s s' : σ} (hne : chunk ≠ [])
    (h : ∀ (buf : Slice) (n : Nat) (rest : List UInt8), buf.Fits →
      buf.bytes.drop n = chunk ++ rest → body buf n s = .ok (s', (n + chunk.length : Nat))) :
    Runs body chunk s s' := by
  intro buf n rest hb hd fuel hf
  have hl : 1 ≤ chunk.length := List.length_pos_iff.2 hne
  have hlen : (buf.bytes.drop n).length = chunk.length + rest.length := by rw [hd]; simp
  have hn : n < buf.bytes.length := by simp at hlen; omega
  obtain ⟨f, rfl⟩ : ∃ f, fuel = f + 1 := ⟨fuel - 1, by omega⟩
  refine ⟨f, by omega, ?_⟩
  conv => lhs; unfold loopBytes
  rw [if_pos (by unfold Slice.len; omega), h buf n rest hb hd]
  rfl

theorem loopBytes_end {σ : Type} (buf : Slice) (body : Int → σ → Res (σ × Int)) (fuel n : Nat)
    (s : σ) (hf : 0 < fuel) (hn : buf.bytes.length ≤ n) : loopBytes buf body fuel n s = .ok s := by
  cases fuel with
  | zero => omega
  | succ f => unfold loopBytes; rw [if_neg (by unfold Slice.len; omega)]

theorem forNext_of_runs {σ : Type} {body : Slice → Int → σ → Res (σ × Int)} {buf : Slice}
    {s s' : σ} (hb : buf.Fits) (h : Runs body buf.bytes s s') :
    forNext buf (body buf) s = .ok s' := by
  obtain ⟨f, hf, e⟩ := h buf 0 [] hb (by simp) (buf.bytes.length + 1) (by simp)
  unfold forNext
  rw [show ((0 : Int)) = ((0 : Nat) : Int) from rfl, e]
  exact loopBytes_end _ _ _ _ _ (by simpa using hf) (by simp)

end Osm

namespace Osm.Pb
open Osm Osm.Spec

theorem goInt_small (x : Int) (h0 : 0 ≤ x) (h : x < 2 ^ 63) : goInt x = x := by
  unfold goInt
  rw [Int.bmod_eq_of_le (by omega) (by omega)]

theorem drop_len {n : Nat} {b : Slice} {l : List UInt8} (hd : b.bytes.drop n = l) :
    l.length = b.bytes.length - n := by rw [← hd]; simp

/-- Reading a length-prefixed section whose bytes stand at the cursor (any varint for the
length, as long as it fits). -/
theorem readBytes_isVarint (b : Slice) (hb : b.Fits) (n : Nat) (enc payload rest : List UInt8)
    (hv : IsVarint enc payload.length) (hl : enc.length ≤ 10)
    (hd : b.bytes.drop n = enc ++ payload ++ rest) :
    ∃ sp, ReadBytes b n = .ok (⟨payload, sp⟩, (n + (enc ++ payload).length : Nat)) ∧
      sp = rest ++ b.spare := by
  have hlen := drop_len hd
  have hb' := hb
  unfold Slice.Fits at hb'
  simp only [List.length_append] at hlen
  have hel := isVarint_length_pos hv
  unfold ReadBytes
  rw [decode_of_isVarint b n enc (payload ++ rest) payload.length (by simpa using hd) hv hl
    (by omega)]
  simp only [Res.ok_bind]
  rw [ofInt_toNat_small _ (by omega)]
  rw [goInt_small _ (by omega) (by omega)]
  unfold Slice.sub
  rw [if_pos (by refine ⟨by omega, by omega, by omega⟩)]
  simp only [Res.ok_bind]
  have e1 : ((n + enc.length : Nat) : Int).toNat = n + enc.length := by omega
  have e2 : (((n + enc.length : Nat) : Int) + (payload.length : Nat)).toNat
      = n + enc.length + payload.length := by omega
  rw [e1, e2]
  have e3 : (b.bytes ++ b.spare).drop (n + enc.length) = payload ++ rest ++ b.spare := by
    rw [List.drop_append_of_le_length (by omega), ← List.drop_drop, hd]; simp
  have e4 : (b.bytes ++ b.spare).drop (n + enc.length + payload.length) = rest ++ b.spare := by
    rw [← List.drop_drop, e3]; simp
  refine ⟨rest ++ b.spare, ?_, rfl⟩
  rw [e3, e4]
  simp only [Res.ok.injEq, Prod.mk.injEq, Slice.mk.injEq, and_true]
  refine ⟨by simp, ?_⟩
  simp; omega

theorem leb128_length_le10 {n : Nat} (h : n < 2 ^ 64) : (leb128 n).length ≤ 10 :=
  leb128_length_le 10 n (by omega) (by omega)

/-- A length-prefixed byte string. -/
def lenBytes (p : List UInt8) : List UInt8 := leb128 p.length ++ p

theorem lenBytes_ne_nil (p : List UInt8) : lenBytes p ≠ [] := by
  simp [lenBytes, leb128_ne_nil]

theorem encodeBuffer_eq (o p : List UInt8) (h : p.length < 2 ^ 64) :
    EncodeBuffer o p = o ++ lenBytes p := by
  unfold EncodeBuffer lenBytes
  rw [encodeVarInt_eq]
  have : (UInt64.ofNat p.length).toNat = p.length := by simp; omega
  rw [this]; simp

theorem readBytes_lenBytes (b : Slice) (hb : b.Fits) (n : Nat) (p rest : List UInt8)
    (hd : b.bytes.drop n = lenBytes p ++ rest) :
    ReadBytes b n = .ok (⟨p, rest ++ b.spare⟩, (n + (lenBytes p).length : Nat)) := by
  have hlen := drop_len hd
  have hb' := hb
  unfold Slice.Fits at hb'
  simp only [lenBytes, List.length_append] at hlen
  obtain ⟨sp, h, rfl⟩ := readBytes_isVarint b hb n (leb128 p.length) p rest (isVarint_leb128 _)
    (leb128_length_le10 (by omega)) (by simpa [lenBytes] using hd)
  exact h

theorem sub_fits {b : Slice} (hb : b.Fits) {n : Nat} {x : List UInt8} {p rest : List UInt8}
    (hd : b.bytes.drop n = x ++ p ++ rest) : (Slice.mk p (rest ++ b.spare)).Fits := by
  have hlen := drop_len hd
  unfold Slice.Fits at *
  simp at *
  omega

/-! ### Packed lists -/

theorem encodeEach_eq {α : Type} (conv : α → UInt64) (buf : List UInt8) (vs : List α) :
    encodeEach conv buf vs = buf ++ (vs.flatMap fun v => leb128 (conv v).toNat) := by
  induction vs generalizing buf with
  | nil => simp [encodeEach]
  | cons v vs ih =>
    unfold encodeEach at ih ⊢
    simp only [List.foldl_cons, List.flatMap_cons]
    rw [ih, encodeVarInt_eq]; simp

/-- The loop body of the packed decoders. -/
def packedBody {α : Type} (conv : UInt64 → α) (inner : Slice) (n : Int) (out : List α) :
    Res (List α × Int) := do
  let (v, n) ← DecodeVarInt inner n
  .ok (out ++ [conv v], n)

theorem packedLoop_eq {α : Type} (conv : UInt64 → α) (inner : Slice) :
    packedLoop conv inner = forNext inner (packedBody conv inner) [] := rfl

theorem runs_packed {α β : Type} (enc : β → UInt64) (conv : UInt64 → α) (vs : List β)
    (out : List α) :
    Runs (packedBody conv) (vs.flatMap fun v => leb128 (enc v).toNat) out
      (out ++ vs.map fun v => conv (enc v)) := by
  induction vs generalizing out with
  | nil => simpa using runs_nil _ _
  | cons v vs ih =>
    rw [List.flatMap_cons]
    refine runs_append (s2 := out ++ [conv (enc v)]) ?_ ?_
    · apply runs_step (leb128_ne_nil _)
      intro buf n rest hb hd
      unfold packedBody
      rw [decode_leb128 buf n (enc v) rest hd]
      rfl
    · have := ih (out ++ [conv (enc v)])
      simpa using this

theorem packedLoop_enc {α β : Type} (enc : β → UInt64) (conv : UInt64 → α) (vs : List β)
    (sp : List UInt8) (hb : (Slice.mk (vs.flatMap fun v => leb128 (enc v).toNat) sp).Fits) :
    packedLoop conv ⟨vs.flatMap fun v => leb128 (enc v).toNat, sp⟩
      = .ok (vs.map fun v => conv (enc v)) := by
  rw [packedLoop_eq]
  have := forNext_of_runs (body := packedBody conv) hb (runs_packed enc conv vs [])
  simpa using this

/-! ### Delta lists -/

/-- The varints of the deltas of a list. -/
def deltaVarints (last : Int64) : List Int64 → List UInt8
  | [] => []
  | v :: vs => leb128 (EncodeZigZag (v - last)).toNat ++ deltaVarints v vs

theorem encodeDeltas_eq (buf : List UInt8) (last : Int64) (vs : List Int64) :
    encodeDeltas buf last vs = buf ++ deltaVarints last vs := by
  induction vs generalizing buf last with
  | nil => simp [encodeDeltas, deltaVarints]
  | cons v vs ih => unfold encodeDeltas deltaVarints; rw [ih, encodeVarInt_eq]; simp

/-- The loop body of `DecodeS64PackedDelta`. -/
def packedDeltaBody (inner : Slice) (n : Int) (st : Int64 × List Int64) :
    Res ((Int64 × List Int64) × Int) := do
  let (v, n) ← DecodeVarInt inner n
  let last := st.1 + DecodeZigZag v
  .ok ((last, st.2 ++ [last]), n)

theorem packedDeltaLoop_eq (inner : Slice) :
    packedDeltaLoop inner = forNext inner (packedDeltaBody inner) (0, []) := rfl

theorem int64_add_sub (a b : Int64) : a + (b - a) = b := by grind

/-- Last element, or the default. -/
def lastOr (d : Int64) : List Int64 → Int64
  | [] => d
  | x :: xs => lastOr x xs

theorem runs_packedDelta (last : Int64) (vs out : List Int64) :
    Runs packedDeltaBody (deltaVarints last vs) (last, out) (lastOr last vs, out ++ vs) := by
  induction vs generalizing last out with
  | nil => simpa [deltaVarints, lastOr] using runs_nil _ _
  | cons v vs ih =>
    unfold deltaVarints lastOr
    refine runs_append (s2 := (v, out ++ [v])) ?_ ?_
    · apply runs_step (leb128_ne_nil _)
      intro buf n rest hb hd
      unfold packedDeltaBody
      rw [decode_leb128 buf n _ rest hd]
      simp only [Res.ok_bind, decodeZigZag_encodeZigZag, int64_add_sub]
    · have := ih v (out ++ [v])
      simpa using this

theorem packedDeltaLoop_enc (vs : List Int64) (sp : List UInt8)
    (hb : (Slice.mk (deltaVarints 0 vs) sp).Fits) :
    packedDeltaLoop ⟨deltaVarints 0 vs, sp⟩ = .ok (lastOr 0 vs, vs) := by
  rw [packedDeltaLoop_eq]
  have := forNext_of_runs (body := packedDeltaBody) hb (runs_packedDelta 0 vs [])
  simpa using this

theorem deltaZeroLoop_enc (buf : Slice) (vs : List Int64) : ∀ (rest : List UInt8) (last : Int64)
    (out : List Int64) (n fuel : Nat),
    buf.bytes.drop n = deltaVarints last vs ++ 0 :: rest → buf.bytes.length - n < fuel →
    deltaZeroLoop buf fuel n last out = .ok (out ++ upToRepeat last vs) := by
  induction vs with
  | nil =>
    intro rest last out n fuel hd hf
    have hlen := drop_len hd
    simp [deltaVarints] at hlen
    obtain ⟨f, rfl⟩ : ∃ f, fuel = f + 1 := ⟨fuel - 1, by omega⟩
    unfold deltaZeroLoop
    rw [if_pos (by unfold Slice.len; omega)]
    rw [decode_leb128 buf n 0 rest (by simpa [deltaVarints, leb128_lt] using hd)]
    simp [upToRepeat]
  | cons v vs ih =>
    intro rest last out n fuel hd hf
    have hlen := drop_len hd
    simp [deltaVarints] at hlen
    obtain ⟨f, rfl⟩ : ∃ f, fuel = f + 1 := ⟨fuel - 1, by omega⟩
    have hpos := leb128_length_pos (EncodeZigZag (v - last)).toNat
    unfold deltaZeroLoop
    rw [if_pos (by unfold Slice.len; omega)]
    rw [decode_leb128 buf n (EncodeZigZag (v - last)) (deltaVarints v vs ++ 0 :: rest)
      (by simpa [deltaVarints] using hd)]
    simp only [Res.ok_bind]
    by_cases hv : v = last
    · subst hv
      rw [if_pos (by rw [encodeZigZag_eq_zero]; grind)]
      simp [upToRepeat]
    · rw [if_neg (by rw [encodeZigZag_eq_zero]; grind)]
      rw [decodeZigZag_encodeZigZag, int64_add_sub]
      rw [ih rest v (out ++ [v]) _ f ?_ (by omega)]
      · simp [upToRepeat, hv]
      · rw [← List.drop_drop, hd]; simp [deltaVarints]

theorem deltaZeroLoop_cut (buf : Slice) (vs : List Int64) : ∀ (last : Int64)
    (out : List Int64) (n fuel : Nat) (q : List UInt8),
    buf.bytes.drop n ++ q = deltaVarints last vs ++ [0] → q ≠ [] → NoRepeat last vs →
    n ≤ buf.bytes.length → buf.bytes.length - n < fuel →
    deltaZeroLoop buf fuel n last out = .panic := by
  induction vs with
  | nil =>
    intro last out n fuel q hd hq _ hn hf
    have hlen := congrArg List.length hd
    simp [deltaVarints] at hlen
    have : 0 < q.length := List.length_pos_iff.2 hq
    obtain ⟨f, rfl⟩ : ∃ f, fuel = f + 1 := ⟨fuel - 1, by omega⟩
    unfold deltaZeroLoop
    rw [if_neg (by unfold Slice.len; omega)]
  | cons v vs ih =>
    intro last out n fuel q hd hq hr hn hf
    obtain ⟨f, rfl⟩ : ∃ f, fuel = f + 1 := ⟨fuel - 1, by omega⟩
    have hpos := leb128_length_pos (EncodeZigZag (v - last)).toNat
    unfold deltaZeroLoop
    by_cases hlt : (n : Int) < buf.len
    · rw [if_pos hlt]
      rw [show deltaVarints last (v :: vs) = leb128 (EncodeZigZag (v - last)).toNat ++ deltaVarints v vs
        from rfl] at hd
      cases hdec : DecodeVarInt buf n with
      | panic => rfl
      | hang => exact absurd hdec (decode_ne_hang _ _)
      | ok r =>
        obtain ⟨x, j⟩ := r
        obtain ⟨enc, rest, hd', hv, hl, hj⟩ := isVarint_of_decode buf n x j hdec
        rw [hd', List.append_assoc, List.append_assoc] at hd
        obtain ⟨he, hx, hrest⟩ := isVarint_unique hv (isVarint_leb128 _) hd
        have hx : x = EncodeZigZag (v - last) := UInt64.toNat_inj.1 hx
        subst hx
        simp only [Res.ok_bind]
        rw [if_neg (by rw [encodeZigZag_eq_zero]; have := hr.1; grind)]
        rw [decodeZigZag_encodeZigZag, int64_add_sub, hj]
        have hlen := congrArg List.length hd'
        simp only [List.length_drop, List.length_append] at hlen
        have := isVarint_length_pos hv
        refine ih v (out ++ [v]) (n + enc.length) f q ?_ hq hr.2 (by omega) (by omega)
        rw [← List.drop_drop, hd', List.drop_left, hrest]
    · rw [if_neg hlt]

theorem upToRepeat_eq_self {last : Int64} {vs : List Int64} :
    upToRepeat last vs = vs ↔ NoRepeat last vs := by
  induction vs generalizing last with
  | nil => simp [upToRepeat, NoRepeat]
  | cons v vs ih =>
    unfold upToRepeat NoRepeat
    by_cases h : v = last <;> simp [h, ih]

end Osm.Pb
