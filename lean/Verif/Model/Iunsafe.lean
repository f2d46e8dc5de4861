import Verif.Model.Fs

/-!
# Model of internal/iunsafe/slices.go

At the level of slice headers and memory, for a little-endian machine (amd64, arm64); `Model/Fs` has the same functions
at the level of values, and C68 shows that they agree. Lengths are `Nat`: no slice is longer than 2^63 bytes, so
`Len * 8` does not overflow.
-/

namespace Osm.Iunsafe
open Osm

/-- Bytes by address. -/
abbrev Memory := Nat → UInt8

/-- internal/iunsafe/slices.go:8-12 -/
structure SliceHeader where
  Data : Nat
  Len : Nat
  Cap : Nat
deriving DecidableEq

/-- internal/iunsafe/slices.go:19-28 -/
def ByteSliceAsInt64Slice (i : SliceHeader) : SliceHeader := ⟨i.Data, i.Len / 8, i.Cap / 8⟩

/-- internal/iunsafe/slices.go:30-39 -/
def Int64SliceAsByteSlice (i : SliceHeader) : SliceHeader := ⟨i.Data, i.Len * 8, i.Cap * 8⟩

/-- internal/iunsafe/slices.go:41-50 -/
def Uint64SliceAsByteSlice (i : SliceHeader) : SliceHeader := ⟨i.Data, i.Len * 8, i.Cap * 8⟩

/-- What `interfaceO` is: no pointer, a pointer to something else than a slice, or a pointer to a slice of elements of
the given size. -/
inductive Arg where
  | notPtr
  | ptrOther
  | ptrSlice (size : Nat)

/-- internal/iunsafe/slices.go:52-74: the header that is stored. -/
def ByteSliceAsArbSlice (i : SliceHeader) : Arg → Res SliceHeader
  | .notPtr => .panic
  | .ptrOther => .panic
  | .ptrSlice size => if size = 0 then .panic else .ok ⟨i.Data, i.Len / size, i.Len / size⟩

/-- `s[i]` of a `[]byte`, for all `i`. -/
def bytes (mem : Memory) (h : SliceHeader) : List UInt8 := (List.range h.Len).map fun i => mem (h.Data + i)

/-- `s[i]` of a slice of elements of `size` bytes, for all `i`: the bytes of each. -/
def elements (mem : Memory) (size : Nat) (h : SliceHeader) : List (List UInt8) :=
  (List.range h.Len).map fun i => (List.range size).map fun j => mem (h.Data + i * size + j)

/-- `s[i]` of a `[]int64` or `[]uint64` (as unsigned), for all `i`. -/
def words (mem : Memory) (h : SliceHeader) : List UInt64 :=
  (List.range h.Len).map fun i =>
    let a := h.Data + i * 8
    leWord (mem a) (mem (a + 1)) (mem (a + 2)) (mem (a + 3)) (mem (a + 4)) (mem (a + 5)) (mem (a + 6)) (mem (a + 7))

/-- `append(s, e)` for an element of `size` bytes: in place if there is room, else in new memory at `fresh`. -/
def append (mem : Memory) (size : Nat) (h : SliceHeader) (e : List UInt8) (fresh : Nat) : Memory × SliceHeader :=
  if h.Len < h.Cap then
    (fun a => if h.Data + h.Len * size ≤ a ∧ a < h.Data + h.Len * size + size then e.getD (a - (h.Data + h.Len * size)) 0
      else mem a, ⟨h.Data, h.Len + 1, h.Cap⟩)
  else
    (fun a => if fresh ≤ a ∧ a < fresh + h.Len * size then mem (h.Data + (a - fresh))
      else if fresh + h.Len * size ≤ a ∧ a < fresh + h.Len * size + size then e.getD (a - (fresh + h.Len * size)) 0
      else mem a, ⟨fresh, h.Len + 1, h.Len + 1⟩)

end Osm.Iunsafe
