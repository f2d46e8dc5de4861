import Verif.Model.WayIndex

/-!
# Specifications for the way index (ENCODING.md, `.wayidx`)
-/

namespace Osm.Spec
open Osm Osm.WayIndex

/-- "The top 31 bits define the Way ID" -/
def wId (d : UInt64) : Nat := d.toNat / 2 ^ 33
/-- "the bottom 33 bits define the block offset" -/
def wOffset (d : UInt64) : Nat := d.toNat % 2 ^ 33
/-- "The block offset is the number of blocks in to the location blocks", in bytes. -/
def wStart (shift : Int64) (d : UInt64) : Nat := wOffset d * 2 ^ shift.toInt.toNat

/-- Ways in ascending order whose data start within the location data, which fits in memory. -/
structure WayOrdered (ids : List UInt64) (loc : List UInt8) (shift : Int64) : Prop where
  range : 0 ≤ shift.toInt ∧ shift.toInt < 63
  memory : loc.length < 2 ^ 63
  starts : ∀ d ∈ ids, wStart shift d ≤ loc.length
  sorted : ids.Pairwise fun a b => wId a < wId b

/-- A sub-index in order, whose `Top` is not below any of its ways. -/
def WayOrderedSub (si : SubIdx) : Prop :=
  WayOrdered si.Ids si.Loc si.AlignmentShift ∧ ∀ d ∈ si.Ids, (wId d : Int) ≤ si.Top.toInt

/-- The locations stored for an entry: those decoded from where its data start. -/
def Stored (loc : List UInt8) (shift : Int64) (d : UInt64) : Res (List Int64) :=
  Pb.DecodeS64PackedDeltaZero ⟨loc.drop (wStart shift d), []⟩

/-- Looking up ways in turn, each with the hint returned by the previous lookup. -/
def wayChain (si : SubIdx) : Int → List Int64 → Res (List (List Int64 × Bool))
  | _, [] => .ok []
  | h, id :: ids => do
    let r ← si.FindLocations id h
    let rest ← wayChain si r.hint ids
    .ok ((r.locs, r.ok) :: rest)

/-- Looking up ways, each afresh. -/
def wayFresh (si : SubIdx) (ids : List Int64) : Res (List (List Int64 × Bool)) :=
  mapRes (fun id => do
    let r ← si.FindLocations id 0
    .ok (r.locs, r.ok)) ids

/-- All passes `0 … n-1` can be created, and every way of the index is in one of them; none of them contains
anything else. -/
def WayPassesCover (ix : WayIdx) (n : Nat) : Prop :=
  ∃ subs, mapRes (fun p => ix.SubIndexWithScaledPass (Int64.ofNat p) (Int64.ofNat n)) (List.range n) = .ok subs ∧
    ∀ d, d ∈ ix.Ids ↔ ∃ s ∈ subs, d ∈ s.Ids

end Osm.Spec
