import Verif.Spec.RelFile

/-!
# Specification of the files between the passes of relindex (C94), without the model
-/

namespace Osm.Spec

/-- A way of a relation in a pass file: not looked up successfully yet (its id is negated), or with its locations. -/
inductive PassWay where
  | pending (w : Int64)
  | done (w : Int64) (locs : List Int64)
deriving DecidableEq, Repr

/-- The words of a way: the negated id alone, or the id, the number of locations, and these. -/
def PassWay.words : PassWay → List Int64
  | .pending w => [w]
  | .done w ls => w :: Int64.ofNat ls.length :: ls

/-- The sign of the first word tells the two kinds of way apart. -/
def PassWay.Valid : PassWay → Prop
  | .pending w => w < 0
  | .done w ls => 0 ≤ w ∧ ls.length < 2 ^ 63

/-- A relation in a pass file. -/
structure PassRel where
  id : Int64
  count : Int64
  ways : List PassWay
deriving DecidableEq, Repr

/-- Its words: the id, the number of ways, the ways. -/
def PassRel.words (r : PassRel) : List Int64 := r.id :: r.count :: r.ways.flatMap PassWay.words

/-- The number of ways is the one announced; a negative number announces none. -/
def PassRel.Valid (r : PassRel) : Prop := r.ways.length = r.count.toInt.toNat ∧ ∀ w ∈ r.ways, w.Valid

/-- The words can be read as these relations. -/
def ReadsAs (words : List Int64) (rels : List PassRel) : Prop :=
  words = rels.flatMap PassRel.words ∧ ∀ r ∈ rels, r.Valid

/-- The file can be read as these relations, but for less than a word at its end. -/
def PassFile (file : List UInt8) (rels : List PassRel) : Prop :=
  ∃ body tail words, file = body ++ tail ∧ tail.length < 8 ∧ IsWords body words ∧ ReadsAs words rels

/-- What a pass does to a way, given what it finds about ways: a way found is done, a way not found stays as it is,
or, in the last pass, is done without locations. -/
def PassWay.settle (look : Int64 → Option (List Int64)) (last : Bool) : PassWay → PassWay
  | .done w ls => .done w ls
  | .pending w =>
    match look (-w) with
    | some ls => .done (-w) ls
    | none => if last then .done (-w) [] else .pending w

/-- What a pass does to a relation. -/
def PassRel.settle (look : Int64 → Option (List Int64)) (last : Bool) (r : PassRel) : PassRel :=
  { r with ways := r.ways.map (PassWay.settle look last) }

/-- The relation as the relation index shows it, once all its ways are done. -/
def PassRel.geo (r : PassRel) : RelGeo :=
  ⟨r.id, r.ways.map fun w => match w with
    | .done w ls => (w, ls)
    | .pending w => (w, [])⟩

end Osm.Spec
