import Verif.Spec.Programs

/-! # Specification vocabulary: files whose sections are complete in themselves -/

namespace Osm.Spec
open Osm Osm.T Osm.Pbf

/-- A block of a source file whose sections (string table, dense nodes, relations) are complete in themselves: each
reads on its own as it reads where it stands. (A section that claims more bytes than it has may still read, with the
bytes of its neighbour, where it stands.) -/
inductive SoundBlock (inflate : Inflate) : Block → Option PrimitiveBlock → Prop where
  | other (b : Block) : b.Kind ≠ osmData → SoundBlock inflate b none
  | data (b : Block) (blob : Blob) (payload : List UInt8) (part full : PrimitiveBlock) : b.Kind = osmData →
      ReadBlob ⟨b.Data.bytes, []⟩ = .ok blob → Payload inflate blob payload →
      ReadPrimitiveBlock readAll ⟨payload, []⟩ = .ok full →
      ReadPrimitiveBlock waysDecoded ⟨payload, []⟩ = .ok part → BlockAgrees waysDecoded (trimBlock part) full →
      SoundBlock inflate b (some full)

/-- A source file all of whose sections are complete in themselves. -/
def SoundSource (inflate : Inflate) (file : List UInt8) (blocks : List (Option PrimitiveBlock)) : Prop :=
  ∃ bs, split file = .ok bs ∧ Matches (SoundBlock inflate) bs blocks

end Osm.Spec
