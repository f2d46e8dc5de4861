import Verif.Model.Interrupt
import Verif.Lemmas.Fs
import Verif.Model.Rewrite
import Verif.Spec.OsmFormat
import Verif.Spec.Rewrite
import Verif.Spec.NodeIndexer
import Verif.Spec.NodeIndex

/-! # Specification vocabulary for files made by several commands (C112) -/

namespace Osm.Spec
open Osm Osm.T Osm.Pbf Osm.Spec.OsmFormat

/-- The commands that make a file of blocks. -/
inductive Cmd where
  | decompress
  | tagfilter
  | rewritenodes

/-- `b` is what one complete run of the command made of the file `a`, on some disk, with some schedule and
(for rewritenodes) some index and memory target. The payloads of what is decompressed are not empty (C51) and have room for the size
in front of them; what tagfilter leaves is not empty. -/
inductive MadeOf (inflate : Inflate) (a b : List UInt8) : Cmd → Prop where
  | decompress (sched : Block → Sched) (src dst : String) (fs fs' : FS) (xs : List (GoStr × List UInt8)) (ps : List (List UInt8))
      (file : IsFile a xs) (kinds : ∀ x ∈ xs, x.1 = osmHeader ∨ x.1 = osmData)
      (payloads : Matches (fun x p => IsPayload inflate x.2 p) xs ps)
      (sizes : ∀ p ∈ ps, p ≠ [] ∧ p.length < 2 ^ 31 - 32) (inp : Holds fs src a)
      (run : (Interrupt.decompress inflate sched none src dst).exec fs = .ok ((), fs')) (out : Holds fs' dst b)
      (len : b.length < 2 ^ 63) : MadeOf inflate a b .decompress
  | tagfilter (sched : Block → Sched) (hsched : ∀ x, (sched x).pooled.length < 2 ^ 63) (src dst : String) (fs fs' : FS) (n : Nat)
      (inp : Holds fs src a) (run : (Interrupt.tagfilter inflate sched none src dst).exec fs = .ok (n, fs')) (out : Holds fs' dst b)
      (some : b ≠ []) : MadeOf inflate a b .tagfilter
  | rewritenodes (scheds : Nat → Block → Sched) (hsched : ∀ i x, (scheds i x).pooled.length < 2 ^ 63) (src index dst : String)
      (fs fs' : FS) (memory : Option UInt64) (n : UInt64) (ix : NodeIndex.NodeIdx) (ixFile : List UInt8)
      (subs : List NodeIndex.SubIdx) (wf : WellFormed ix.elements ix.locations) (locs : NegativeLocs ix.locations)
      (passes : NodeIndex.passCount ix memory = .ok n)
      (parts : mapRes (fun p => ix.SubIndex (UInt64.ofNat p) n) (List.range n.toNat) = .ok subs)
      (load : NodeIndex.NewNodeIndex ixFile = .ok ix) (inp : Holds fs src a) (inx : Holds fs index ixFile)
      (run : (Rewrite.rewritenodes inflate scheds memory src index dst).exec fs = .ok ((), fs')) (out : Holds fs' dst b) :
      MadeOf inflate a b .rewritenodes

/-- `b` was made of the file `a` by any number of runs of some of the commands, one after the other. -/
inductive Processed (inflate : Inflate) (cmds : Cmd → Prop) (a : List UInt8) : List UInt8 → Prop where
  | start : Processed inflate cmds a a
  | step {b c : List UInt8} {k : Cmd} : Processed inflate cmds a b → cmds k → MadeOf inflate b c k → Processed inflate cmds a c

end Osm.Spec
