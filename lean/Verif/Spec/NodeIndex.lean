import Verif.Model.NodeIndex

/-!
# Specifications for the node index (ENCODING.md, `.nodeidx`)
-/

namespace Osm.Spec
open Osm Osm.NodeIndex

/-- "8 bytes defines the start id of a range" -/
def rFirst (e : IndexElement) : Nat := e.baseId.toNat
/-- "The low 24 bits defines the count" -/
def rCount (e : IndexElement) : Nat := e.countOffset.toNat % 2 ^ 24
/-- "The high 40 bits defines the offset in to the location data" -/
def rOffset (e : IndexElement) : Nat := e.countOffset.toNat / 2 ^ 24

/-- The range contains the id. -/
def rHas (e : IndexElement) (id : Nat) : Prop := rFirst e ≤ id ∧ id < rFirst e + rCount e

/-- A well-formed index: non-empty ranges in ascending order, not overlapping, whose slots exist. -/
structure WellFormed (es : List IndexElement) (locs : List Int64) : Prop where
  nonempty : ∀ e ∈ es, 1 ≤ rCount e
  ids : ∀ e ∈ es, rFirst e + rCount e ≤ 2 ^ 64
  slots : ∀ e ∈ es, rOffset e + rCount e ≤ locs.length
  sorted : es.Pairwise fun a b => rFirst a + rCount a ≤ rFirst b

/-- Some range contains the id and its slot holds the non-zero location `l`. -/
def HasLoc (es : List IndexElement) (locs : List Int64) (id : Nat) (l : Int64) : Prop :=
  ∃ e ∈ es, rHas e id ∧ locs[rOffset e + (id - rFirst e)]? = some l ∧ l ≠ 0

/-- `Top` is not below any of the ranges. -/
def TopCovers (si : SubIdx) : Prop := ∀ e ∈ si.element, rFirst e + rCount e ≤ si.Top.toNat + 1

/-- A well-formed sub-index. -/
def WellFormedSub (si : SubIdx) : Prop := WellFormed si.element si.locations ∧ TopCovers si

/-- Looking up ids in turn, each with the hint returned by the previous lookup. -/
def chain (si : SubIdx) : Int → List UInt64 → Res (List (Int64 × Bool))
  | _, [] => .ok []
  | h, id :: ids => do
    let r ← si.findNode id h
    let rest ← chain si r.hint ids
    .ok ((r.loc, r.ok) :: rest)

/-- Looking up ids, each afresh. -/
def fresh (si : SubIdx) (ids : List UInt64) : Res (List (Int64 × Bool)) :=
  mapRes (fun id => do
    let r ← si.findNode id 0
    .ok (r.loc, r.ok)) ids

end Osm.Spec

namespace Osm.Spec
open Osm Osm.NodeIndex

/-- Number of slots of some ranges. -/
def slotCount (es : List IndexElement) : Nat := (es.map rCount).sum

/-- An index whose ranges account for all the locations. -/
def Complete (ix : NodeIdx) : Prop := slotCount ix.elements = ix.locations.length

/-- All passes `0 … n-1` can be created, and together they contain every range once, in order. -/
def PassesCover (ix : NodeIdx) (n : Nat) : Prop :=
  ∃ subs, mapRes (fun p => ix.SubIndex (UInt64.ofNat p) (UInt64.ofNat n)) (List.range n) = .ok subs ∧
    subs.flatMap (·.element) = ix.elements

/-- Shared counters and, per goroutine, the increments it has still to perform. -/
structure Counting where
  hitHint : UInt64
  hitDefault : UInt64
  missDeferred : UInt64
  missDefault : UInt64
  todo : List (List Counter)

/-- `atomic.AddUint64(&counter, 1)`. -/
def Counting.add (s : Counting) : Counter → Counting
  | .hitHint => { s with hitHint := s.hitHint + 1 }
  | .hitDefault => { s with hitDefault := s.hitDefault + 1 }
  | .missDeferred => { s with missDeferred := s.missDeferred + 1 }
  | .missDefault => { s with missDefault := s.missDefault + 1 }

/-- Any goroutine with something left performs its next increment. -/
inductive Counting.Steps : Counting → Counting → Prop
  | refl (s) : Steps s s
  | step {s t : Counting} {pre post : List (List Counter)} {c : Counter} {cs : List Counter} :
      s.todo = pre ++ (c :: cs) :: post →
      Steps { s.add c with todo := pre ++ cs :: post } t → Steps s t

end Osm.Spec
