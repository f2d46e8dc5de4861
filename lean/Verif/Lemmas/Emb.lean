import Verif.Lemmas.Packed
import Verif.Model.T

namespace Osm.Pb
open Osm Osm.Spec

/-- Result of appending an optional payload; `none` is a panic. -/
def appendRes (b : List UInt8) : Option (List UInt8) → Res (List UInt8)
  | some p => .ok (b ++ p)
  | none => .panic

/-- The writer appends `o`, whatever the buffer, or always panics. -/
def EmbSpec (e : Embedder) (o : Option (List UInt8)) : Prop := ∀ b, e b = appendRes b o

theorem EmbSpec.ok {e : Embedder} {o : Option (List UInt8)} (h : EmbSpec e o) {b out : List UInt8}
    (hw : e b = .ok out) : ∃ p, o = some p ∧ out = b ++ p := by
  rw [h b] at hw
  cases o with
  | none => simp [appendRes] at hw
  | some p => exact ⟨p, rfl, by simpa [appendRes] using hw.symm⟩

theorem embSpec_total {f : List UInt8 → List UInt8} {p : List UInt8} (h : ∀ b, f b = b ++ p) :
    EmbSpec (total f) (some p) := by
  intro b; simp [total, appendRes, h]

/-- Concatenation of optional payloads. -/
def optApp (a b : Option (List UInt8)) : Option (List UInt8) :=
  match a, b with
  | some x, some y => some (x ++ y)
  | _, _ => none

theorem optApp_eq_some {a b : Option (List UInt8)} {p : List UInt8} :
    optApp a b = some p ↔ ∃ x y, a = some x ∧ b = some y ∧ p = x ++ y := by
  cases a <;> cases b <;> simp [optApp, eq_comm]

theorem embSpec_bind {e1 e2 : Embedder} {o1 o2 : Option (List UInt8)} (h1 : EmbSpec e1 o1)
    (h2 : EmbSpec e2 o2) : EmbSpec (fun b => e1 b >>= e2) (optApp o1 o2) := by
  intro b
  simp only [h1 b]
  cases o1 with
  | none => rfl
  | some p => cases o2 with
    | none => simp [appendRes, optApp, h2 (b ++ p)]
    | some q => simp [appendRes, optApp, h2 (b ++ p)]

theorem embSpec_nil : EmbSpec (fun b => .ok b) (some []) := by
  intro b; simp [appendRes]

/-- A field with a fixed-width length. -/
def optField (fix : Nat → List UInt8) (limit : Nat) (id : UInt64) (o : Option (List UInt8)) :
    Option (List UInt8) :=
  match o with
  | some p => if p.length < limit then some (tagBytes id PbFixedBytes ++ fix p.length ++ p) else none
  | none => none

theorem optField_eq_some {fix : Nat → List UInt8} {limit : Nat} {id : UInt64}
    {o : Option (List UInt8)} {q : List UInt8} :
    optField fix limit id o = some q ↔
      ∃ p, o = some p ∧ p.length < limit ∧ q = tagBytes id PbFixedBytes ++ fix p.length ++ p := by
  cases o with
  | none => simp [optField]
  | some p =>
    simp only [optField]
    split
    · next h => simp [eq_comm, h]
    · next h => simp; intro h2; omega

theorem embSpec_embed {emb : UInt64 → Embedder → List UInt8 → Res (List UInt8)}
    {fix : Nat → List UInt8} {limit : Nat}
    (heq : ∀ {e : Embedder} {p : List UInt8}, Appends e p → ∀ (id : UInt64) (buf : List UInt8),
      emb id e buf = if p.length < limit then
        .ok (buf ++ (tagBytes id PbFixedBytes ++ fix p.length ++ p)) else .panic)
    (hpanic : ∀ (e : Embedder), (∀ b, e b = .panic) → ∀ id buf, emb id e buf = .panic)
    {e : Embedder} {o : Option (List UInt8)} (h : EmbSpec e o) (id : UInt64) :
    EmbSpec (emb id e) (optField fix limit id o) := by
  intro b
  cases o with
  | none => rw [hpanic e (fun b => h b)]; rfl
  | some p =>
    rw [heq (p := p) (fun b => h b)]
    simp only [optField]
    split <;> rfl

theorem embSpec_embed16384 {e : Embedder} {o : Option (List UInt8)} (h : EmbSpec e o) (id : UInt64) :
    EmbSpec (Embed16384 id e) (optField fix2 16384 id o) :=
  embSpec_embed (emb := Embed16384) embed16384_eq
    (fun e he id buf => by unfold Embed16384; dsimp only; rw [he]; rfl) h id

theorem embSpec_embed2097152 {e : Embedder} {o : Option (List UInt8)} (h : EmbSpec e o)
    (id : UInt64) : EmbSpec (Embed2097152 id e) (optField fix3 2097152 id o) :=
  embSpec_embed (emb := Embed2097152) embed2097152_eq
    (fun e he id buf => by unfold Embed2097152; dsimp only; rw [he]; rfl) h id

theorem embSpec_embed268435456 {e : Embedder} {o : Option (List UInt8)} (h : EmbSpec e o)
    (id : UInt64) : EmbSpec (Embed268435456 id e) (optField fix4 268435456 id o) :=
  embSpec_embed (emb := Embed268435456) embed268435456_eq
    (fun e he id buf => by unfold Embed268435456; dsimp only; rw [he]; rfl) h id

/-- A varint field. -/
def varField (id v : UInt64) : List UInt8 := tagBytes id PbVarInt ++ leb128 v.toNat

theorem encodeIdVarInt_eq (buf : List UInt8) (id v : UInt64) :
    EncodeIdVarInt buf id v = buf ++ varField id v := by
  unfold EncodeIdVarInt varField tagBytes; simp [encodeVarInt_eq]

/-- A length-prefixed field with the length in shortest form. -/
def bufField (id : UInt64) (p : List UInt8) : List UInt8 :=
  tagBytes id PbFixedBytes ++ leb128 (UInt64.ofNat p.length).toNat ++ p

theorem encodeIdBuffer_eq (buf : List UInt8) (id : UInt64) (p : List UInt8) :
    EncodeIdBuffer buf id p = buf ++ bufField id p := by
  unfold EncodeIdBuffer EncodeBuffer bufField tagBytes; simp [encodeVarInt_eq]

theorem foldl_encodeIdBuffer {α : Type} (f : α → List UInt8) (id : UInt64) (xs : List α)
    (buf : List UInt8) :
    xs.foldl (fun b x => EncodeIdBuffer b id (f x)) buf
      = buf ++ xs.flatMap (fun x => bufField id (f x)) := by
  induction xs generalizing buf with
  | nil => simp
  | cons x xs ih => rw [List.foldl_cons, ih, encodeIdBuffer_eq, List.flatMap_cons, List.append_assoc]

/-- Concatenation of the payloads of a list. -/
def optConcat {α : Type} (f : α → Option (List UInt8)) : List α → Option (List UInt8)
  | [] => some []
  | x :: xs => optApp (f x) (optConcat f xs)

theorem embSpec_foldRes {α : Type} {e : α → Embedder} {f : α → Option (List UInt8)} (xs : List α)
    (h : ∀ x ∈ xs, EmbSpec (e x) (f x)) :
    EmbSpec (fun b => foldRes (fun b x => e x b) b xs) (optConcat f xs) := by
  induction xs with
  | nil => intro b; simp [foldRes, optConcat, appendRes]
  | cons x xs ih =>
    have := embSpec_bind (h x (by simp)) (ih fun y hy => h y (by simp [hy]))
    intro b
    exact this b

theorem tagBytes_ne_nil (id t : UInt64) : tagBytes id t ≠ [] := leb128_ne_nil _

theorem decode_tag {buf : Slice} {n : Nat} {id t : UInt64} {rest : List UInt8}
    (hd : buf.bytes.drop n = tagBytes id t ++ rest) :
    DecodeVarInt buf n = .ok (MakeIdType id t, (n + (tagBytes id t).length : Nat)) :=
  decode_leb128 buf n _ rest hd

theorem drop_tag {buf : Slice} {n : Nat} {t : List UInt8} {rest : List UInt8}
    (hd : buf.bytes.drop n = t ++ rest) : buf.bytes.drop (n + t.length) = rest := by
  rw [← List.drop_drop, hd]; simp

/-- The section behind the tag of a field whose length has a fixed width. -/
theorem section_fix {fix : Nat → List UInt8} {limit : Nat}
    (hvar : ∀ n, n < limit → IsVarint (fix n) n) (hshort : ∀ n, (fix n).length ≤ 10)
    {buf : Slice} (hb : buf.Fits) {n : Nat} {id : UInt64} {p rest : List UInt8}
    (hp : p.length < limit)
    (hd : buf.bytes.drop n = tagBytes id PbFixedBytes ++ fix p.length ++ p ++ rest) :
    Section buf (n + (tagBytes id PbFixedBytes).length) (fix p.length) p rest where
  fits := hb
  varint := hvar _ hp
  short := hshort _
  here := by rw [drop_tag (rest := fix p.length ++ p ++ rest) (by simpa using hd)]

theorem section_buf {buf : Slice} (hb : buf.Fits) {n : Nat} {id : UInt64} {p rest : List UInt8}
    (hd : buf.bytes.drop n = bufField id p ++ rest) :
    Section buf (n + (tagBytes id PbFixedBytes).length) (leb128 p.length) p rest ∧
      bufField id p = tagBytes id PbFixedBytes ++ leb128 p.length ++ p := by
  have hl : p.length < 2 ^ 64 := by
    have := drop_len hd
    unfold Slice.Fits at hb
    simp [bufField] at this
    omega
  have he : (UInt64.ofNat p.length).toNat = p.length := by simp; omega
  have he2 : bufField id p = tagBytes id PbFixedBytes ++ leb128 p.length ++ p := by
    unfold bufField; rw [he]
  rw [he2] at hd
  exact ⟨⟨hb, isVarint_leb128 _, leb128_length_le10 hl,
    by rw [drop_tag (rest := leb128 p.length ++ p ++ rest) (by simpa using hd)]⟩, he2⟩

theorem decodeI64_at {buf : Slice} {n : Nat} {v : Int64} {rest : List UInt8}
    (hd : buf.bytes.drop n = leb128 v.toUInt64.toNat ++ rest) :
    DecodeI64 buf n = .ok (v, (n + (leb128 v.toUInt64.toNat).length : Nat)) := by
  unfold DecodeI64
  rw [decode_leb128 buf n _ rest hd]
  rfl

theorem decodeI32_at {buf : Slice} {n : Nat} {v : Int32} {rest : List UInt8}
    (hd : buf.bytes.drop n = leb128 v.toInt64.toUInt64.toNat ++ rest) :
    DecodeI32 buf n = .ok (v, (n + (leb128 v.toInt64.toUInt64.toNat).length : Nat)) := by
  unfold DecodeI32
  rw [decode_leb128 buf n _ rest hd]
  simp only [Res.ok_bind, int32_roundtrip]

theorem fix2_short (n : Nat) : (fix2 n).length ≤ 10 := by simp [fix2]
theorem fix3_short (n : Nat) : (fix3 n).length ≤ 10 := by simp [fix3]
theorem fix4_short (n : Nat) : (fix4 n).length ≤ 10 := by simp [fix4]

end Osm.Pb
