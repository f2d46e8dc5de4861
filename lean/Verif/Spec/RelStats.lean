import Verif.Spec.RelIndex

/-!
# Specification vocabulary for the statistics of relindex (C96)
-/

namespace Osm.Spec
open Osm Osm.T Osm.WayIndex
open _root_.Osm.NodeIndex (Counter)

/-- How the lookup of a way counts in a pass which has the ways `ids`, in ascending order, and ends with `top`: a way after
`top` is deferred, the first way is a hint hit, the others are default hits, the rest is missing. -/
def wayCounter (ids : List Int) (top w : Int) : Counter :=
  if top < w then .missDeferred
  else if ids.head? = some w then .hitHint
  else if w ∈ ids then .hitDefault
  else .missDefault

/-- How the ways count in some passes: each pass looks up what the passes before have not found. -/
def wayPassCounts : List (List Int × Int) → List Int64 → List (List Counter)
  | [], _ => []
  | (ids, top) :: ps, ws =>
    ws.map (fun w => wayCounter ids top w.toInt) :: wayPassCounts ps (ws.filter fun w => w.toInt ∉ ids)

/-- The ways of a part of the way index, and where it ends. -/
def passOf (si : SubIdx) : List Int × Int := (si.Ids.map fun d => (wId d : Int), si.Top.toInt)

/-- The way members of all relations, in order. -/
def allWayMembers (blocks : List (Option PrimitiveBlock)) : List Int64 := (allRelations blocks).flatMap wayMembers

end Osm.Spec
