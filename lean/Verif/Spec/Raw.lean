import Verif.Model.Raw
import Verif.Spec.Pbf

/-! # Specification vocabulary for block payloads (C51, C52) -/

namespace Osm.Spec
open Osm Osm.T Osm.Pbf

/-- The payload of a blob: its raw bytes, or what its compressed bytes inflate to if that has the declared size. -/
inductive Payload (inflate : Inflate) : Blob → List UInt8 → Prop where
  | raw (r : Slice) (size : Option Int32) (z : Option Slice) : Payload inflate ⟨some r, size, z⟩ r.bytes
  | zlib (z : Slice) (size : Int32) (p : List UInt8) : inflate z.bytes = some p → size.toInt = p.length →
      Payload inflate ⟨none, some size, some z⟩ p

/-- The payload of a block of a file. -/
def BlockPayload (inflate : Inflate) (b : Block) (p : List UInt8) : Prop :=
  ∃ blob, ReadBlob b.Data = .ok blob ∧ Payload inflate blob p

/-- A completed, uncancelled run of `ProcessFileAsync` with `W` workers delivered `got` to the writer. -/
def Delivers {O : Type} (c : Cfg O) (W : Nat) (got : List O) : Prop :=
  ∃ s, Reachable c W s ∧ s.main = .done ∧ s.cancelled = false ∧ s.got = got

end Osm.Spec
