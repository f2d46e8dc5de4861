import Verif.Lemmas.Loop

namespace Osm.Pb
open Osm Osm.Spec

theorem makeIdType_toNat (id t : UInt64) (hid : id.toNat < 2 ^ 61) (ht : t.toNat < 8) :
    (MakeIdType id t).toNat = 8 * id.toNat + t.toNat := by
  unfold MakeIdType
  rw [UInt64.toNat_or, UInt64.toNat_shiftLeft, Nat.shiftLeft_eq]
  rw [show (3 : UInt64).toNat % 64 = 3 from rfl]
  rw [Nat.mod_eq_of_lt (by omega)]
  have := Nat.two_pow_add_eq_or_of_lt (i := 3) (b := t.toNat) (by omega) id.toNat
  rw [Nat.mul_comm, ← this]

/-- The embedder appends `p`. -/
def Appends (e : Embedder) (p : List UInt8) : Prop := ∀ b, e b = .ok (b ++ p)

theorem set_here (pre tl : List UInt8) (a x : UInt8) :
    (pre ++ a :: tl).set pre.length x = pre ++ x :: tl := by
  simp

theorem set_here1 (pre tl : List UInt8) (a0 a x : UInt8) :
    (pre ++ a0 :: a :: tl).set (pre.length + 1) x = pre ++ a0 :: x :: tl := by
  simp

theorem set_here2 (pre tl : List UInt8) (a0 a1 a x : UInt8) :
    (pre ++ a0 :: a1 :: a :: tl).set (pre.length + 2) x = pre ++ a0 :: a1 :: x :: tl := by
  simp

theorem set_here3 (pre tl : List UInt8) (a0 a1 a2 a x : UInt8) :
    (pre ++ a0 :: a1 :: a2 :: a :: tl).set (pre.length + 3) x
      = pre ++ a0 :: a1 :: a2 :: x :: tl := by
  simp

theorem cont_ge (v : UInt64) : 128 ≤ (contByte v).toNat := by rw [contByte_toNat]; omega

/-- One-byte length. -/
def fix1 (n : Nat) : List UInt8 := [(UInt64.ofNat n).toUInt8]
/-- Two-byte length. -/
def fix2 (n : Nat) : List UInt8 :=
  [contByte (UInt64.ofNat n >>> 0), (UInt64.ofNat n >>> 7).toUInt8]
/-- Three-byte length. -/
def fix3 (n : Nat) : List UInt8 :=
  [contByte (UInt64.ofNat n >>> 0), contByte (UInt64.ofNat n >>> 7),
   (UInt64.ofNat n >>> 14).toUInt8]
/-- Four-byte length. -/
def fix4 (n : Nat) : List UInt8 :=
  [contByte (UInt64.ofNat n >>> 0), contByte (UInt64.ofNat n >>> 7),
   contByte (UInt64.ofNat n >>> 14), (UInt64.ofNat n >>> 21).toUInt8]

theorem isVarint_last' {b : UInt8} {n : Nat} (h : b.toNat = n) (hn : n < 128) :
    IsVarint [b] n := h ▸ IsVarint.last b (by omega)

theorem isVarint_more' {v : UInt64} {bs : List UInt8} {n m : Nat} (h : IsVarint bs m)
    (hm : n = v.toNat % 128 + 128 * m) : IsVarint (contByte v :: bs) n := by
  have := IsVarint.more (contByte v) bs m (cont_ge v) h
  rw [contByte_toNat] at this
  rw [hm]
  simpa using this

theorem isVarint_fix1 {n : Nat} (h : n < 128) : IsVarint (fix1 n) n := by
  apply isVarint_last' _ h
  simp; omega

theorem isVarint_fix2 {n : Nat} (h : n < 16384) : IsVarint (fix2 n) n := by
  have e : (UInt64.ofNat n).toNat = n := by simp; omega
  have s0 : (UInt64.ofNat n >>> 0).toNat = n := by
    have := shr_toNat (UInt64.ofNat n) 0 (by omega); simpa [e] using this
  have s7 : (UInt64.ofNat n >>> 7).toNat = n / 128 := by
    have := shr_toNat (UInt64.ofNat n) 7 (by omega); rw [e] at this; exact this
  unfold fix2
  refine isVarint_more' (isVarint_last' (n := n / 128) ?_ (by omega)) (by omega)
  rw [UInt64.toNat_toUInt8]; omega

theorem isVarint_fix3 {n : Nat} (h : n < 2097152) : IsVarint (fix3 n) n := by
  have e : (UInt64.ofNat n).toNat = n := by simp; omega
  have s0 : (UInt64.ofNat n >>> 0).toNat = n := by
    have := shr_toNat (UInt64.ofNat n) 0 (by omega); simpa [e] using this
  have s7 : (UInt64.ofNat n >>> 7).toNat = n / 128 := by
    have := shr_toNat (UInt64.ofNat n) 7 (by omega); rw [e] at this; exact this
  have s14 : (UInt64.ofNat n >>> 14).toNat = n / 16384 := by
    have := shr_toNat (UInt64.ofNat n) 14 (by omega); rw [e] at this; exact this
  unfold fix3
  refine isVarint_more' (m := n / 128) (isVarint_more' (m := n / 16384)
    (isVarint_last' (n := n / 16384) ?_ (by omega)) (by omega)) (by omega)
  rw [UInt64.toNat_toUInt8]; omega

theorem isVarint_fix4 {n : Nat} (h : n < 268435456) : IsVarint (fix4 n) n := by
  have e : (UInt64.ofNat n).toNat = n := by simp; omega
  have s0 : (UInt64.ofNat n >>> 0).toNat = n := by
    have := shr_toNat (UInt64.ofNat n) 0 (by omega); simpa [e] using this
  have s7 : (UInt64.ofNat n >>> 7).toNat = n / 128 := by
    have := shr_toNat (UInt64.ofNat n) 7 (by omega); rw [e] at this; exact this
  have s14 : (UInt64.ofNat n >>> 14).toNat = n / 16384 := by
    have := shr_toNat (UInt64.ofNat n) 14 (by omega); rw [e] at this; exact this
  have s21 : (UInt64.ofNat n >>> 21).toNat = n / 2097152 := by
    have := shr_toNat (UInt64.ofNat n) 21 (by omega); rw [e] at this; exact this
  unfold fix4
  refine isVarint_more' (m := n / 128) (isVarint_more' (m := n / 16384)
    (isVarint_more' (m := n / 2097152)
    (isVarint_last' (n := n / 2097152) ?_ (by omega)) (by omega)) (by omega)) (by omega)
  rw [UInt64.toNat_toUInt8]; omega

/-- The field tag bytes of a length-delimited field. -/
def tagBytes (id t : UInt64) : List UInt8 := leb128 (MakeIdType id t).toNat

theorem embed128_eq {e : Embedder} {p : List UInt8} (he : Appends e p) (id : UInt64)
    (buf : List UInt8) : Embed128 id e buf =
      if p.length < 128 then .ok (buf ++ (tagBytes id PbFixedBytes ++ fix1 p.length ++ p))
      else .panic := by
  unfold Embed128 EmbedInt128 fix1 tagBytes
  rw [encodeVarInt_eq]
  dsimp only
  rw [he _]
  simp only [Res.ok_bind]
  generalize hP : buf ++ leb128 (MakeIdType id PbFixedBytes).toNat = pre
  have hl : (pre ++ [(0 : UInt8)] ++ p).length - (pre.length + 1) = p.length := by
    simp only [List.length_append, List.length_cons, List.length_nil]; omega
  rw [hl]
  rw [show pre ++ [0] ++ p = pre ++ 0 :: p by simp, set_here]
  by_cases h : p.length < 128
  · rw [if_neg (by omega), if_pos h]; simp [← hP]
  · rw [if_pos (by omega), if_neg h]

theorem embed16384_eq {e : Embedder} {p : List UInt8} (he : Appends e p) (id : UInt64)
    (buf : List UInt8) : Embed16384 id e buf =
      if p.length < 16384 then .ok (buf ++ (tagBytes id PbFixedBytes ++ fix2 p.length ++ p))
      else .panic := by
  unfold Embed16384 EmbedInt16384 fix2 tagBytes
  rw [encodeVarInt_eq]
  dsimp only
  rw [he _]
  simp only [Res.ok_bind]
  generalize hP : buf ++ leb128 (MakeIdType id PbFixedBytes).toNat = pre
  have hl : (pre ++ [(0 : UInt8), 0] ++ p).length - (pre.length + 2) = p.length := by
    simp only [List.length_append, List.length_cons, List.length_nil]; omega
  rw [hl]
  rw [show pre ++ [0, 0] ++ p = pre ++ 0 :: 0 :: p by simp, set_here, set_here1]
  by_cases h : p.length < 16384
  · rw [if_neg (by omega), if_pos h]; simp [← hP]
  · rw [if_pos (by omega), if_neg h]

theorem embed2097152_eq {e : Embedder} {p : List UInt8} (he : Appends e p) (id : UInt64)
    (buf : List UInt8) : Embed2097152 id e buf =
      if p.length < 2097152 then .ok (buf ++ (tagBytes id PbFixedBytes ++ fix3 p.length ++ p))
      else .panic := by
  unfold Embed2097152 EmbedInt2097152 fix3 tagBytes
  rw [encodeVarInt_eq]
  dsimp only
  rw [he _]
  simp only [Res.ok_bind]
  generalize hP : buf ++ leb128 (MakeIdType id PbFixedBytes).toNat = pre
  have hl : (pre ++ [(0 : UInt8), 0, 0] ++ p).length - (pre.length + 3) = p.length := by
    simp only [List.length_append, List.length_cons, List.length_nil]; omega
  rw [hl]
  rw [show pre ++ [0, 0, 0] ++ p = pre ++ 0 :: 0 :: 0 :: p by simp, set_here, set_here1, set_here2]
  by_cases h : p.length < 2097152
  · rw [if_neg (by omega), if_pos h]; simp [← hP]
  · rw [if_pos (by omega), if_neg h]

theorem embed268435456_eq {e : Embedder} {p : List UInt8} (he : Appends e p) (id : UInt64)
    (buf : List UInt8) : Embed268435456 id e buf =
      if p.length < 268435456 then .ok (buf ++ (tagBytes id PbFixedBytes ++ fix4 p.length ++ p))
      else .panic := by
  unfold Embed268435456 EmbedInt268435456 fix4 tagBytes
  rw [encodeVarInt_eq]
  dsimp only
  rw [he _]
  simp only [Res.ok_bind]
  generalize hP : buf ++ leb128 (MakeIdType id PbFixedBytes).toNat = pre
  have hl : (pre ++ [(0 : UInt8), 0, 0, 0] ++ p).length - (pre.length + 4) = p.length := by
    simp only [List.length_append, List.length_cons, List.length_nil]; omega
  rw [hl]
  rw [show pre ++ [0, 0, 0, 0] ++ p = pre ++ 0 :: 0 :: 0 :: 0 :: p by simp, set_here, set_here1,
    set_here2, set_here3]
  by_cases h : p.length < 268435456
  · rw [if_neg (by omega), if_pos h]; simp [← hP]
  · rw [if_pos (by omega), if_neg h]

end Osm.Pb
