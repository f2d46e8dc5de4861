/-!
# Specification of the relation index file (C92), without the model
-/

namespace Osm.Spec

/-- A relation with the positions of its ways: its id and, in member order, for each way its id and its locations. -/
structure RelGeo where
  id : Int64
  ways : List (Int64 × List Int64)
deriving DecidableEq, Repr

/-- A way in the file: its id, how many locations it has, and these. -/
def wayRow (w : Int64 × List Int64) : List Int64 := w.1 :: Int64.ofNat w.2.length :: w.2

/-- A relation in the file: its id, how many ways it has, and these. -/
def RelGeo.row (g : RelGeo) : List Int64 := g.id :: Int64.ofNat g.ways.length :: g.ways.flatMap wayRow

/-- The value of bytes, the least significant one first. -/
def leValue : List UInt8 → Nat
  | [] => 0
  | b :: bs => b.toNat + 256 * leValue bs

/-- A file of words of 8 bytes, least significant byte first, in two's complement. -/
inductive IsWords : List UInt8 → List Int64 → Prop where
  | nil : IsWords [] []
  | cons {w rest : List UInt8} {x : Int64} {xs : List Int64} : w.length = 8 → leValue w = (x.toInt % 2 ^ 64).toNat →
      IsWords rest xs → IsWords (w ++ rest) (x :: xs)

/-- The file is the relation index of these relations. -/
def IsRelIndex (file : List UInt8) (gs : List RelGeo) : Prop :=
  IsWords file (gs.flatMap RelGeo.row) ∧
    ∀ g ∈ gs, g.ways.length < 2 ^ 63 ∧ ∀ w ∈ g.ways, w.2.length < 2 ^ 63

end Osm.Spec
