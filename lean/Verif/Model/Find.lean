import Verif.Model.Raw
import Verif.Model.Hl

/-!
# Model of cmd/entityfind

`pool.ByteSlice.Put` (C62) and argument parsing are not modelled here. What is printed is the list of entities given to
`Printf`; its text is in Model/TextFind.
-/

namespace Osm.Find
open Osm Osm.T Osm.Pbf

/-- What is printed in a line. -/
inductive Entity where
  | node (n : HLNode)
  | way (w : HLWay)
  | relation (r : HLRelation)
deriving DecidableEq

/-- cmd/entityfind/entityfind.go:16-23 -/
def isIn : List UInt64 → UInt64 → Bool
  | [], _ => false
  | id2 :: ids, id => if id2 = id then true else isIn ids id

/-- cmd/entityfind/entityfind.go:27 -/
def reader : PBReader := ⟨false, false, false, false⟩

/-- cmd/entityfind/entityfind.go:43-48 -/
def printNodes (ids : List UInt64) : List HLNode → List Entity
  | [] => []
  | n :: ns => if isIn ids n.Id then .node n :: printNodes ids ns else printNodes ids ns

/-- cmd/entityfind/entityfind.go:50-55 -/
def printWays (ids : List UInt64) : List HLWay → List Entity
  | [] => []
  | w :: ws => if isIn ids w.Id.toUInt64 then .way w :: printWays ids ws else printWays ids ws

/-- cmd/entityfind/entityfind.go:57-62 -/
def printRelations (ids : List UInt64) : List HLRelation → List Entity
  | [] => []
  | r :: rs => if isIn ids r.Id.toUInt64 then .relation r :: printRelations ids rs else printRelations ids rs

/-- cmd/entityfind/entityfind.go:30-64: one iteration of a worker: what it prints. (What it prints before a panic in
the same block is not modelled.) -/
def findBlock (inflate : Inflate) (sched : Block → Sched) (ids : List UInt64) (b : Block) : Res (List Entity) :=
  if b.Kind ≠ osmData then .ok []
  else do
    let raw ← rawOf inflate (sched b) b
    let pb ← ReadPrimitiveBlock reader raw
    let ns ← pb.ToNodes
    let ws ← pb.ToWays
    let rs ← pb.ToRelations
    .ok (printNodes ids ns ++ printWays ids ws ++ printRelations ids rs)

/-- cmd/entityfind/entityfind.go:25-67: what a worker prints, having received the given blocks. -/
def findWorker (inflate : Inflate) (sched : Block → Sched) (ids : List UInt64) (bs : List Block) : Res (List Entity) := do
  let os ← mapRes (findBlock inflate sched ids) bs
  .ok os.flatten

/-- cmd/entityfind/entityfind.go:75-81: the concurrent run over the content of a file; there is no writer. -/
def findCfg (inflate : Inflate) (sched : Block → Sched) (ids : List UInt64) (file : List UInt8) : Cfg (List Entity) where
  file := file
  work := findBlock inflate sched ids
  hasWriter := false
  write _ := .ok ()
  finish _ := .ok ()

/-- `out` is an interleaving of some lists. -/
inductive Interleaved {α : Type} : List (List α) → List α → Prop where
  | nil {ls} : (∀ l ∈ ls, l = []) → Interleaved ls []
  | cons {l1 x xs l2 out} : Interleaved (l1 ++ xs :: l2) out → Interleaved (l1 ++ (x :: xs) :: l2) (x :: out)

/-- What is on the standard output after a run that ended in the state `s`: the lines of the workers, in any interleaving
(a line is a single `Write`). -/
def Prints (inflate : Inflate) (sched : Block → Sched) (ids : List UInt64) (s : St (List Entity)) (out : List Entity) : Prop :=
  ∃ outs, mapRes (fun w => findWorker inflate sched ids w.took) s.workers = .ok outs ∧ Interleaved outs out

end Osm.Find
