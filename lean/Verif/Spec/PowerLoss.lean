import Verif.Model.Fs
import Verif.Spec.NodeIndex

/-! # Specification vocabulary for a power failure (C100) -/

namespace Osm.Spec
open Osm

/-- The file `f` had the content `x` when some of the operations had been made. -/
def Moment (ops : List FsOp) (fs : FS) (f : String) (x : List UInt8) : Prop :=
  ∃ done rest pos, ops = done ++ rest ∧ runOps done fs f = some ⟨x, pos⟩

/-- What a power failure, at the end or at any time before, can leave of a new file `f` that is written by the given operations:
nothing has asked for any order (`fsync`), so the disk has the file's length of some moment, and of each page what was in it at
some moment, another one for each page; where the file did not reach at that moment there are zeros. -/
def AfterPowerLoss (page : Nat) (ops : List FsOp) (fs : FS) (f : String) (left : List UInt8) : Prop :=
  (∃ x, Moment ops fs f x ∧ left.length = x.length) ∧
  ∀ k, ∃ x, Moment ops fs f x ∧ ∀ i, i / page = k → i < left.length → left[i]? = some (x.getD i 0)

/-- The same, if the last operation, once it reached the disk, found everything else there: as if the file had been
synchronised before it. -/
def AfterPowerLossSynced (page : Nat) (ops : List FsOp) (fs : FS) (f : String) (left : List UInt8) : Prop :=
  AfterPowerLoss page ops.dropLast fs f left ∨
  ∃ x y pos pos', runOps ops.dropLast fs f = some ⟨x, pos⟩ ∧ runOps ops fs f = some ⟨y, pos'⟩ ∧ left.length = y.length ∧
    ∀ k, ∃ z, (z = x ∨ z = y) ∧ ∀ i, i / page = k → left[i]? = z[i]?

end Osm.Spec
