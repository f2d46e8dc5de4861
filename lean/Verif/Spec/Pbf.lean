import Verif.Model.Pbf

/-! # Specification vocabulary for block files (C53–C59) -/

namespace Osm.Spec
open Osm Osm.T Osm.Pbf

/-- `bytes` is a sequence of blocks, the first one with index `i`: each is a 4-byte big-endian header
size, a blob header naming one of the two block kinds and the size of the data, and the data. The blocks
are `bs`; the data of each is followed in memory by the rest of the file. -/
inductive BlockFile : Nat → List UInt8 → List Block → Prop where
  | nil (i : Nat) : BlockFile i [] []
  | cons (i : Nat) (header data rest : List UInt8) (kind : GoStr) (size : Int32) (bs : List Block) :
      header.length < 2 ^ 32 →
      ReadBlobHeader ⟨header, data ++ rest⟩ = .ok ⟨kind, size⟩ →
      kind = osmHeader ∨ kind = osmData →
      size.toInt = data.length →
      BlockFile (i + 1) rest bs →
      BlockFile i (be32 (UInt32.ofNat header.length) ++ header ++ data ++ rest) (⟨i, ⟨data, rest⟩, kind⟩ :: bs)

/-- What a caller sees of a block: its kind and its data. -/
def Seen (b : Block) : GoStr × List UInt8 := (b.Kind, b.Data.bytes)

/-- A block that a writer may produce: one of the two kinds, less than 2 GiB of data. -/
def Writable (x : GoStr × List UInt8) : Prop := (x.1 = osmHeader ∨ x.1 = osmData) ∧ x.2.length < 2 ^ 31

/-- A file holding the given blocks. -/
def fileOf (xs : List (GoStr × List UInt8)) : List UInt8 := xs.flatMap fun x => frame x.1 x.2

/-- What the caller of the block processor supplies never loops for ever (on the blocks of the file, if it has any). -/
structure Total {O : Type} (c : Cfg O) : Prop where
  work : ∀ b : Block, b.Data.Fits → (∀ bs, Pbf.split c.file = .ok bs → b ∈ bs) → c.work b ≠ .hang
  write : ∀ l, c.write l ≠ .hang
  finish : ∀ l, c.finish l ≠ .hang

/-- The file splits into `bs`, and nothing panics on its blocks. -/
structure Clean {O : Type} (c : Cfg O) (bs : List Block) : Prop where
  split : split c.file = .ok bs
  work : ∀ b ∈ bs, c.work b ≠ .panic
  write : ∀ l, c.write l ≠ .panic
  finish : ∀ l, c.finish l ≠ .panic

end Osm.Spec
