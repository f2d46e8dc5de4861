import Verif.Model.NodeIndex
import Verif.Model.WayIndex

/-!
# What a lookup reads

The lookups of Model/NodeIndex and Model/WayIndex once more, with the positions of the index entries that they read, in
order. (C89 begins with the proof that the answers are those of the other models.)
-/

namespace Osm.Cost
open Osm

/-- A result, and the positions of the entries read. -/
abbrev Read (α : Type) := Res α × List Nat

namespace Node
open NodeIndex

/-- internal/nodeindex/nodesubindex.go:53-64: `si.element[mid]` is read once in a round. -/
def search (es : List IndexElement) (id : UInt64) : Nat → Nat → Nat → Read Nat
  | 0, _, _ => (.hang, [])
  | fuel + 1, lo, hi =>
    if lo < hi then
      let mid := (lo + hi) / 2
      match es[mid]? with
      | none => (.panic, [mid])
      | some e =>
        if e.compareId id < 0 then let r := search es id fuel lo mid; (r.1, mid :: r.2)
        else if e.compareId id = 0 then (.ok mid, [mid])
        else let r := search es id fuel (mid + 1) hi; (r.1, mid :: r.2)
    else (.ok lo, [])

/-- internal/nodeindex/nodesubindex.go:53-74: behind the search, line 66 and lines 68-74 look at `si.element[lowerPoint]`. -/
def findBetween (si : SubIdx) (id : UInt64) (hint : Int) (lo hi : Nat) : Read Found :=
  let s := search si.element id (si.element.length + 1) lo hi
  match s.1 with
  | .panic => (.panic, s.2)
  | .hang => (.hang, s.2)
  | .ok p =>
    match si.element[p]? with
    | none => (.ok ⟨0, hint, false, [.missDefault]⟩, s.2)
    | some e =>
      (if !e.contains id then .ok ⟨0, hint, false, [.missDefault]⟩
       else do
        let o ← e.OffsetForID id
        let loc ← locAt si.locations o
        .ok ⟨loc, p, loc ≠ 0, [.hitDefault]⟩, s.2 ++ [p])

/-- internal/nodeindex/nodesubindex.go:28-74: line 38 looks at `si.element[hint]`. -/
def findNode (si : SubIdx) (id : UInt64) (hint : Int) : Read Found :=
  if id > si.Top then (.ok ⟨0, hint, false, [.missDeferred]⟩, [])
  else if hint < si.element.length then
    if hint < 0 then (.panic, [])
    else match si.element[hint.toNat]? with
      | none => (.panic, [hint.toNat])
      | some e =>
        if e.compareId id = -1 then let r := findBetween si id hint 0 hint.toNat; (r.1, hint.toNat :: r.2)
        else if e.compareId id = 0 then
          (do
            let o ← e.OffsetForID id
            let loc ← locAt si.locations o
            .ok ⟨loc, hint, loc ≠ 0, [.hitHint]⟩, [hint.toNat])
        else let r := findBetween si id hint hint.toNat si.element.length; (r.1, hint.toNat :: r.2)
  else findBetween si id hint 0 si.element.length

end Node

namespace Way
open WayIndex

/-- internal/wayindex/subindex.go:42-53: `si.Ids[mid]` is read in a round. -/
def search (ids : List UInt64) (id : Int64) : Nat → Nat → Nat → Read Nat
  | 0, _, _ => (.hang, [])
  | fuel + 1, lo, hi =>
    if lo < hi then
      let mid := (lo + hi) / 2
      match ids[mid]? with
      | none => (.panic, [mid])
      | some d =>
        if id < WayID d then let r := search ids id fuel lo mid; (r.1, mid :: r.2)
        else if id = WayID d then (.ok mid, [mid])
        else let r := search ids id fuel (mid + 1) hi; (r.1, mid :: r.2)
    else (.ok lo, [])

/-- internal/wayindex/subindex.go:42-62: behind the search, line 55 and lines 60-62 look at `si.Ids[lowerPoint]`. -/
def findBetween (si : SubIdx) (id : Int64) (hint : Int) (lo hi : Nat) : Read Found :=
  let s := search si.Ids id (si.Ids.length + 1) lo hi
  match s.1 with
  | .panic => (.panic, s.2)
  | .hang => (.hang, s.2)
  | .ok p =>
    match si.Ids[p]? with
    | none => (.ok ⟨[], hint, false, [.missDefault]⟩, s.2)
    | some d =>
      (if WayID d ≠ id then .ok ⟨[], hint, false, [.missDefault]⟩
       else do
        let ls ← si.decodeAt d
        .ok ⟨ls, p, true, [.hitDefault]⟩, s.2 ++ [p])

/-- internal/wayindex/subindex.go:18-63, 67-70: line 28 looks at `si.Ids[hint]`. -/
def FindLocations (si : SubIdx) (id : Int64) (hint : Int) : Read Found :=
  if id > si.Top then (.ok ⟨[], hint, false, [.missDeferred]⟩, [])
  else if hint < si.Ids.length then
    if hint < 0 then (.panic, [])
    else match si.Ids[hint.toNat]? with
      | none => (.panic, [hint.toNat])
      | some d =>
        if id < WayID d then let r := findBetween si id hint 0 hint.toNat; (r.1, hint.toNat :: r.2)
        else if id = WayID d then
          (do
            let ls ← si.decodeAt d
            .ok ⟨ls, hint, true, [.hitHint]⟩, [hint.toNat])
        else let r := findBetween si id hint hint.toNat si.Ids.length; (r.1, hint.toNat :: r.2)
  else findBetween si id hint 0 si.Ids.length

end Way

end Osm.Cost
