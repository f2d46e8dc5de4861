/-!
# Go semantics used by the model

Everything the model assumes about the Go language itself: results of a call (value, panic,
endless loop), byte slices with capacity, 64-bit `int` wrap-around and byte order.
-/

namespace Osm

/-- Result of running a piece of Go code: it returns a value, it panics (explicit `panic`, index
or slice bounds, nil dereference, failed type assertion, `iio` error), or it never returns. -/
inductive Res (α : Type) where
  | ok (a : α)
  | panic
  | hang
deriving DecidableEq, Repr, Inhabited

namespace Res

/-- Sequencing of Go statements: a panic or an endless loop in the first one is the result. -/
def bind {α β : Type} : Res α → (α → Res β) → Res β
  | ok a, f => f a
  | panic, _ => panic
  | hang, _ => hang

instance : Monad Res where
  pure := ok
  bind := bind

@[simp] theorem pure_eq {α : Type} (a : α) : (pure a : Res α) = ok a := rfl
@[simp] theorem ok_bind {α β : Type} (a : α) (f : α → Res β) : (ok a >>= f) = f a := rfl
@[simp] theorem panic_bind {α β : Type} (f : α → Res β) : ((panic : Res α) >>= f) = panic := rfl
@[simp] theorem hang_bind {α β : Type} (f : α → Res β) : ((hang : Res α) >>= f) = hang := rfl

instance : LawfulMonad Res := LawfulMonad.mk'
  (id_map := by intro α x; cases x <;> rfl)
  (pure_bind := by intros; rfl)
  (bind_assoc := by intro α β γ x f g; cases x <;> rfl)

theorem bind_eq_ok {α β : Type} {x : Res α} {f : α → Res β} {b : β} :
    (x >>= f) = ok b ↔ ∃ a, x = ok a ∧ f a = ok b := by
  cases x <;> simp

/-- The value of a returning call. -/
def isOk {α : Type} : Res α → Bool
  | ok _ => true
  | _ => false

/-- An `Option` lookup where absence is a Go panic (index out of range, missing key …). -/
def ofOption {α : Type} : Option α → Res α
  | some a => ok a
  | none => panic

@[simp] theorem ofOption_some {α : Type} (a : α) : ofOption (some a) = ok a := rfl
@[simp] theorem ofOption_none {α : Type} : ofOption (none : Option α) = panic := rfl

theorem ofOption_eq_ok {α : Type} {o : Option α} {a : α} : ofOption o = ok a ↔ o = some a := by
  cases o <;> simp

end Res

/-- Go's `for _, x := range xs { ... }` building one result per element, stopping at a panic. -/
def mapRes {α β : Type} (f : α → Res β) : List α → Res (List β)
  | [] => .ok []
  | x :: xs => do
    let y ← f x
    let ys ← mapRes f xs
    .ok (y :: ys)

/-- Go's `for _, x := range xs { st = ... }`, stopping at a panic. -/
def foldRes {α σ : Type} (f : σ → α → Res σ) : σ → List α → Res σ
  | s, [] => .ok s
  | s, x :: xs => do
    let s' ← f s x
    foldRes f s' xs

/-- Wrap-around of Go's 64-bit `int`. -/
def goInt (x : Int) : Int := x.bmod (2 ^ 64)

/-- A byte slice being read: the `len` visible bytes, and the array bytes between `len` and `cap`
which reslicing can still reach (Go spec, "Slice expressions": for slices the upper bound is the
capacity). -/
structure Slice where
  bytes : List UInt8
  spare : List UInt8
deriving DecidableEq, Repr

/-- A slice whose capacity is its length (for example a whole memory-mapped file). -/
def Slice.full (bs : List UInt8) : Slice := ⟨bs, []⟩

/-- Go's own invariant on slices: the capacity is an `int`, so it is below 2^63. -/
def Slice.Fits (s : Slice) : Prop := s.bytes.length + s.spare.length < 2 ^ 63

/-- `len(s)`. -/
def Slice.len (s : Slice) : Int := s.bytes.length

/-- `s[i]`. -/
def Slice.index (s : Slice) (i : Int) : Res UInt8 :=
  if 0 ≤ i then Res.ofOption (s.bytes[i.toNat]?) else .panic

/-- `s[i:j]`: panics unless `0 ≤ i ≤ j ≤ cap(s)`; the result keeps the rest of the array as its
spare capacity. -/
def Slice.sub (s : Slice) (i j : Int) : Res Slice :=
  if 0 ≤ i ∧ i ≤ j ∧ j ≤ (s.bytes.length + s.spare.length : Nat) then
    .ok ⟨((s.bytes ++ s.spare).drop i.toNat).take (j.toNat - i.toNat),
         (s.bytes ++ s.spare).drop j.toNat⟩
  else .panic

/-- `for next := 0; next < len(buf); { body }`, where `body` advances the cursor. `fuel` bounds
the number of evaluations of the loop condition. -/
def loopBytes {σ : Type} (buf : Slice) (body : Int → σ → Res (σ × Int)) :
    Nat → Int → σ → Res σ
  | 0, _, _ => .hang
  | fuel + 1, next, st =>
    if next < buf.len then do
      let r ← body next st
      loopBytes buf body fuel r.2 r.1
    else .ok st

/-- The loop run with one iteration per byte (plus the final test): a run exceeding that is
reported as `hang`. -/
def forNext {σ : Type} (buf : Slice) (body : Int → σ → Res (σ × Int)) (st : σ) : Res σ :=
  loopBytes buf body (buf.bytes.length + 1) 0 st

/-- Little-endian bytes of a 64-bit word (`iunsafe.Int64SliceAsByteSlice` on the machines the
code supports, ENCODING.md line 2). -/
def le64 (x : UInt64) : List UInt8 :=
  [x.toUInt8, (x >>> 8).toUInt8, (x >>> 16).toUInt8, (x >>> 24).toUInt8,
   (x >>> 32).toUInt8, (x >>> 40).toUInt8, (x >>> 48).toUInt8, (x >>> 56).toUInt8]

/-- Big-endian bytes of a 32-bit word (`binary.BigEndian.PutUint32`). -/
def be32 (x : UInt32) : List UInt8 :=
  [(x >>> 24).toUInt8, (x >>> 16).toUInt8, (x >>> 8).toUInt8, x.toUInt8]

/-- Go strings are arbitrary byte strings. -/
abbrev GoStr := List UInt8

end Osm
