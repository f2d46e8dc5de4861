import Verif.Model.Faults
import Verif.Spec.Alongside

/-! # Specification vocabulary for runs in which the operating system reports errors (C106) -/

namespace Osm.Spec
open Osm

/-- Carrying out `c` in `fs` has ended like `r` with the files `fs'`: the operating system answered some calls with errors, or
the disk was full at some time. -/
def Faulty {α : Type} (c : Code α) (fs : FS) (r : Res α) (fs' : FS) : Prop :=
  (∃ answers, c.under answers 0 fs = (r, fs')) ∨ ∃ room, c.onDisk room fs = (r, fs')

/-- The bytes which the operations write, taken together. -/
def written : List FsOp → Nat
  | [] => 0
  | .write _ bs :: ops => bs.length + written ops
  | _ :: ops => written ops

/-- What may be left over of rewritenodes: files between its passes that cannot be removed. -/
def leftByRewrite (stuck : String → Bool) (out : String) : String → Prop :=
  fun f => stuck f = true ∧ ∃ p n, 1 ≤ p ∧ p + 1 < n ∧ f = RelIndex.makePassFilename out p n
/-- What may be left over of relindex. -/
def leftByRelindex (stuck : String → Bool) (out : String) : String → Prop :=
  fun f => stuck f = true ∧ ∃ p n, p < n ∧ f = RelIndex.makePassFilename out p n

end Osm.Spec
