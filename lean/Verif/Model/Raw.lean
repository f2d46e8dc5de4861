import Verif.Model.Pbf
import Verif.Model.Fs

/-!
# Model of internal/t/blob.go: GetRawData, decodeZLib, and of cmd/decompress

zlib itself (compress/zlib) is a parameter: a function from the compressed bytes to what its reader delivers,
together with an arbitrary schedule of `Read` results. The checksum error and the end of the stream are both just
"an error after the last byte", which is all that `decodeZLib` distinguishes.
-/

namespace Osm.T
open Osm Osm.Pb

/-- What zlib makes of compressed bytes: `none` if `zlib.NewReader` reports an error, else the bytes its reader
delivers before it reports an error (`io.EOF` or any other). -/
abbrev Inflate := List UInt8 → Option (List UInt8)

/-- One call of `Read`: at most `n + 1` bytes are delivered; `early` tells whether the error is reported together
with the last bytes (else by the next call). -/
structure ReadCall where
  n : Nat
  early : Bool

/-- What `decodeZLib` meets by chance: the buffer it gets out of the pool (its whole capacity, with whatever an
earlier user left there), and how `Read` delivers the data. -/
structure Sched where
  pooled : List UInt8
  calls : Nat → ReadCall

/-- internal/pool/bytebuffer.go:33-37: a buffer of capacity at least `size`. -/
def poolBuffer (pooled : List UInt8) (size : Nat) : List UInt8 :=
  if pooled.length < size then List.replicate size 0 else pooled

/-- internal/t/blob.go:79-94: the loop. `left` is what the stream has still to deliver, `buf` the whole buffer.
`fuel` bounds the iterations; each delivers a byte or the error. -/
def inflateLoop (calls : Nat → ReadCall) : Nat → Nat → List UInt8 → Int → Nat → List UInt8 → Res (List UInt8)
  | 0, _, _, _, _, _ => .hang
  | fuel + 1, k, left, remaining, start, buf =>
    if remaining > 0 then
      if start > buf.length then .panic
      else
        let n := min ((calls k).n + 1) (min (buf.length - start) left.length)
        let buf' := buf.take start ++ left.take n ++ buf.drop (start + n)
        let left' := left.drop n
        let err := left'.isEmpty && ((calls k).early || n == 0)
        if remaining - n = 0 then .ok buf'
        else if err then .panic
        else inflateLoop calls fuel (k + 1) left' (remaining - n) (start + n) buf'
    else .ok buf

/-- internal/t/blob.go:69-95: `NewReader`, the size, `pool.ByteSlice.Get`, the loop. A missing size is a nil
dereference; a negative one makes `Get` panic (`buf[:sz]` with a huge `sz`, bytebuffer.go:40). -/
def decodeZLib (inflate : Inflate) (sched : Sched) (z : List UInt8) (rawSize : Option Int32) : Res Slice :=
  match inflate z, rawSize with
  | some stream, some size =>
    if size.toInt < 0 then .panic
    else do
      let buf ← inflateLoop sched.calls (stream.length + 2) 0 stream size.toInt 0
        (poolBuffer sched.pooled size.toInt.toNat)
      .ok ⟨buf.take size.toInt.toNat, buf.drop size.toInt.toNat⟩
  | _, _ => .panic

/-- internal/t/blob.go:59-67 -/
def GetRawData (inflate : Inflate) (sched : Sched) (b : Blob) : Res Slice :=
  match b.Raw, b.ZLibData with
  | some r, _ => .ok r
  | none, some z => decodeZLib inflate sched z.bytes b.RawSize
  | none, none => .panic

end Osm.T

namespace Osm.Pbf
open Osm Osm.Pb Osm.T

/-- `ReadBlob` and `GetRawData` on a block, as all commands do it (for instance decompressor_worker.go:27-32). -/
def rawOf (inflate : Inflate) (sched : Sched) (b : Block) : Res Slice := do
  let blob ← ReadBlob b.Data
  GetRawData inflate sched blob

/-- cmd/decompress/decompressor/decompressor_worker.go:23-58: what the worker sends for one block. -/
def decompressWork (inflate : Inflate) (sched : Block → Sched) (b : Block) : Res (List UInt8) := do
  let raw ← rawOf inflate (sched b) b
  let blobBuffer ← (Blob.mk (some raw) none none).Write none []
  .ok (frame b.Kind blobBuffer)

/-- The loop of cmd/decompress/decompressor/decompressor_writer.go:16-20. -/
def writeAll (f : String) : List (List UInt8) → Prog Unit
  | [] => .pure ()
  | x :: xs => do
    FWrite f x
    writeAll f xs

/-- cmd/decompress/decompressor/decompressor_writer.go:11-24 on the blocks it receives. -/
def decompressOutput (f : String) (xs : List (List UInt8)) : Prog Unit := do
  OsCreate f
  writeAll f xs

/-- cmd/decompress/decompress.go:25-32: the run of `ProcessFileAsync`. (The writer's own panics, on I/O errors, are not
modelled here.) -/
def decompressCfg (inflate : Inflate) (sched : Block → Sched) (file : List UInt8) : Cfg (List UInt8) where
  file := file
  work := decompressWork inflate sched
  hasWriter := true
  write _ := .ok ()
  finish _ := .ok ()

end Osm.Pbf
