/-!
# Specification of the protobuf wire primitives

Independent of the model: plain arithmetic on `Nat`/`Int` and byte lists.
-/

namespace Osm.Spec

/-- The shortest base-128 little-endian representation of a number: seven bits per byte, the high
bit set on every byte but the last. -/
def leb128 (n : Nat) : List UInt8 :=
  if n < 128 then [UInt8.ofNat n]
  else UInt8.ofNat (n % 128 + 128) :: leb128 (n / 128)
termination_by n

/-- `IsVarint bs n`: the bytes `bs` are one terminated base-128 group with value `n`
(`Σ (bᵢ mod 128)·128ⁱ`, every byte but the last having its high bit set). Not necessarily
shortest. -/
inductive IsVarint : List UInt8 → Nat → Prop where
  | last (b : UInt8) : b.toNat < 128 → IsVarint [b] b.toNat
  | more (b : UInt8) (bs : List UInt8) (n : Nat) :
      128 ≤ b.toNat → IsVarint bs n → IsVarint (b :: bs) ((b.toNat - 128) + 128 * n)

/-- The zigzag mapping 0,-1,1,-2,2,… ↦ 0,1,2,3,4,… -/
def zigzag (n : Int) : Nat := if 0 ≤ n then (2 * n).toNat else (-2 * n - 1).toNat

/-- The values of a list up to (excluding) the first one that equals its predecessor; the
predecessor of the first value is `last`. -/
def upToRepeat {α : Type} [DecidableEq α] (last : α) : List α → List α
  | [] => []
  | x :: xs => if x = last then [] else x :: upToRepeat x xs

/-- No element equals its predecessor, the predecessor of the first being `last`. -/
def NoRepeat {α : Type} (last : α) : List α → Prop
  | [] => True
  | x :: xs => x ≠ last ∧ NoRepeat x xs

end Osm.Spec
