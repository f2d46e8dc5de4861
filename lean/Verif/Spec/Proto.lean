import Verif.Spec.Pb

/-!
# Protocol buffers, as the documentation of the format has it

Nothing here is about the code. A message on the wire is a sequence of fields; a field is a tag (the number of the field and
how its value is written), then a number, or a length and that many bytes. Numbers are varints, which need not be written in
the shortest way.
-/

namespace Osm.Spec.Proto
open Osm.Spec

/-- A varint with a value of 64 bits, in at most ten bytes. -/
def Varint (bs : List UInt8) (n : Nat) : Prop := IsVarint bs n ∧ bs.length ≤ 10 ∧ n < 2 ^ 64

/-- The value of a field: wire type 0 or 2 (the others occur in no OSM file). -/
inductive Val where
  | num (n : Nat)
  | bytes (b : List UInt8)
deriving DecidableEq

/-- A field: its number, its value. -/
abbrev Field := Nat × Val

/-- The bytes are the field. -/
inductive IsField : List UInt8 → Field → Prop where
  | num (tag v : List UInt8) (k n : Nat) : Varint tag (8 * k + 0) → Varint v n → IsField (tag ++ v) (k, .num n)
  | bytes (tag len b : List UInt8) (k : Nat) : Varint tag (8 * k + 2) → Varint len b.length →
      IsField (tag ++ len ++ b) (k, .bytes b)

/-- The bytes are the message with these fields, in this order. -/
inductive IsMessage : List UInt8 → List Field → Prop where
  | nil : IsMessage [] []
  | cons {bs rest : List UInt8} {f : Field} {fs : List Field} : IsField bs f → IsMessage rest fs →
      IsMessage (bs ++ rest) (f :: fs)

/-- A packed list of numbers: one varint after the other. -/
inductive IsPacked : List UInt8 → List Nat → Prop where
  | nil : IsPacked [] []
  | cons {bs rest : List UInt8} {n : Nat} {ns : List Nat} : Varint bs n → IsPacked rest ns →
      IsPacked (bs ++ rest) (n :: ns)

/-- The numbers with field number `k`. -/
def nums (k : Nat) (fs : List Field) : List Nat :=
  fs.filterMap fun f => match f with
    | (j, .num n) => if j = k then some n else none
    | _ => none

/-- The byte strings with field number `k`. -/
def items (k : Nat) (fs : List Field) : List (List UInt8) :=
  fs.filterMap fun f => match f with
    | (j, .bytes b) => if j = k then some b else none
    | _ => none

/-- The value of a number that occurs once: the last one counts, `d` is the default. -/
def scalar (d k : Nat) (fs : List Field) : Nat := (nums k fs).getLast?.getD d

/-- The content of a packed list: all its pieces one after the other. -/
def packed (k : Nat) (fs : List Field) : List UInt8 := (items k fs).flatten

/-- No fields but those numbers and those byte strings. -/
def Only (ns bs : List Nat) (fs : List Field) : Prop :=
  ∀ f ∈ fs, match f with
    | (k, .num _) => k ∈ ns
    | (k, .bytes _) => k ∈ bs

/-- The byte strings with these numbers occur at most once each. -/
def Once (ks : List Nat) (fs : List Field) : Prop := ∀ k ∈ ks, (items k fs).length ≤ 1

/-- The zigzag mapping: 0, 1, 2, 3, 4, … ↦ 0, -1, 1, -2, 2, … -/
def unzigzag (n : Nat) : Int := if n % 2 = 0 then (n / 2 : Nat) else -((n / 2 : Nat) + 1 : Int)

/-- The running sums. -/
def sums (last : Int) : List Int → List Int
  | [] => []
  | d :: ds => (last + d) :: sums (last + d) ds

/-- `repeated uint32 [packed]` -/
def PackedU32 (p : List UInt8) (vs : List UInt32) : Prop := ∃ ns, IsPacked p ns ∧ vs = ns.map UInt32.ofNat
/-- `repeated int32 [packed]` -/
def PackedI32 (p : List UInt8) (vs : List Int32) : Prop := ∃ ns, IsPacked p ns ∧ vs = ns.map Int32.ofNat
/-- `repeated` of an enumeration -/
def PackedEnum (p : List UInt8) (vs : List UInt64) : Prop := ∃ ns, IsPacked p ns ∧ vs = ns.map UInt64.ofNat
/-- `repeated sint64 [packed]`, "delta coded" -/
def PackedDelta (p : List UInt8) (vs : List Int64) : Prop :=
  ∃ ns, IsPacked p ns ∧ vs = (sums 0 (ns.map unzigzag)).map Int64.ofInt

end Osm.Spec.Proto
