import Verif.Model.Dump
import Verif.Spec.NodeIndex
import Verif.Spec.WayIndex

/-!
# Specifications for the index dumps
-/

namespace Osm.Spec
open Osm Osm.Dump

/-- What the dump should print for slot `i` of a range: its location, or that it is empty, as extracted and
as found, whichever was asked for; never a mismatch. -/
def slotLines (print search : Bool) (e : NodeIndex.IndexElement) (i : Nat) (l : Int64) : List NodeLine :=
  let x := l.toUInt64
  let p := Morton.DecodeLocation x
  (if print then
    [if l = 0 then .extractSkip else .extract x p.1 p.2 e.baseId (UInt64.ofNat i) (UInt64.ofNat (rFirst e + i))] else []) ++
  (if search then [if l = 0 then .searchSkip else .search x p.1 p.2] else [])

/-- What the dump should print for a range: all its slots, in order. -/
def rangeLines (print search : Bool) (locs : List Int64) (e : NodeIndex.IndexElement) : List NodeLine :=
  (List.range (rCount e)).flatMap fun i => slotLines print search e i (locs[rOffset e + i]?.getD 0)

/-- What the dump should print for a way with these locations; `there` if the searched pass contains it. -/
def wayLines (print search : Bool) (there : Bool) (id : Int64) (ls : List Int64) : List WayLine :=
  (if print then [.extract id ls] else []) ++
  (if search then [if there then .found id ls else .failed id] else [])

end Osm.Spec
