import Verif.Go

/-!
# Model of internal/pb
-/

namespace Osm.Pb

open Osm

/-! ## pb.go -/

/-- internal/pb/pb.go:5-8 `PbVarInt`. -/
def PbVarInt : UInt64 := 0
/-- internal/pb/pb.go:5-8 `PbFixedBytes`. -/
def PbFixedBytes : UInt64 := 2

/-- internal/pb/pb.go:10-12 -/
def MakeIdType (id : UInt64) (t : UInt64) : UInt64 := (id <<< 3) ||| t

/-! ## varint.go -/

/-- `byte((v>>s)&0x7f|0x80)`, the continuation byte written all over varint.go:9-90 and
embed.go:61-93. -/
def contByte (v : UInt64) : UInt8 := (v &&& 0x7f ||| 0x80).toUInt8

/-- internal/pb/varint.go:9-90 -/
def EncodeVarInt (b : List UInt8) (v : UInt64) : List UInt8 :=
  if v < (1 : UInt64) <<< 7 then
    b ++ [v.toUInt8]
  else if v < (1 : UInt64) <<< 14 then
    b ++ [contByte (v >>> 0), (v >>> 7).toUInt8]
  else if v < (1 : UInt64) <<< 21 then
    b ++ [contByte (v >>> 0), contByte (v >>> 7), (v >>> 14).toUInt8]
  else if v < (1 : UInt64) <<< 28 then
    b ++ [contByte (v >>> 0), contByte (v >>> 7), contByte (v >>> 14), (v >>> 21).toUInt8]
  else if v < (1 : UInt64) <<< 35 then
    b ++ [contByte (v >>> 0), contByte (v >>> 7), contByte (v >>> 14), contByte (v >>> 21),
          (v >>> 28).toUInt8]
  else if v < (1 : UInt64) <<< 42 then
    b ++ [contByte (v >>> 0), contByte (v >>> 7), contByte (v >>> 14), contByte (v >>> 21),
          contByte (v >>> 28), (v >>> 35).toUInt8]
  else if v < (1 : UInt64) <<< 49 then
    b ++ [contByte (v >>> 0), contByte (v >>> 7), contByte (v >>> 14), contByte (v >>> 21),
          contByte (v >>> 28), contByte (v >>> 35), (v >>> 42).toUInt8]
  else if v < (1 : UInt64) <<< 56 then
    b ++ [contByte (v >>> 0), contByte (v >>> 7), contByte (v >>> 14), contByte (v >>> 21),
          contByte (v >>> 28), contByte (v >>> 35), contByte (v >>> 42), (v >>> 49).toUInt8]
  else if v < (1 : UInt64) <<< 63 then
    b ++ [contByte (v >>> 0), contByte (v >>> 7), contByte (v >>> 14), contByte (v >>> 21),
          contByte (v >>> 28), contByte (v >>> 35), contByte (v >>> 42), contByte (v >>> 49),
          (v >>> 56).toUInt8]
  else
    b ++ [contByte (v >>> 0), contByte (v >>> 7), contByte (v >>> 14), contByte (v >>> 21),
          contByte (v >>> 28), contByte (v >>> 35), contByte (v >>> 42), contByte (v >>> 49),
          contByte (v >>> 56), 1]

/-- internal/pb/varint.go:92-173. `*s` is the parameter `start`; the result carries its new
value. -/
def DecodeVarInt (b : Slice) (start : Int) : Res (UInt64 × Int) := do
  let v := (← b.index start).toUInt64
  if v < 0x80 then .ok (v, start + 1) else
  let v := v - 0x80
  let y := (← b.index (start + 1)).toUInt64
  let v := v + (y <<< 7)
  if y < 0x80 then .ok (v, start + 2) else
  let v := v - ((0x80 : UInt64) <<< 7)
  let y := (← b.index (start + 2)).toUInt64
  let v := v + (y <<< 14)
  if y < 0x80 then .ok (v, start + 3) else
  let v := v - ((0x80 : UInt64) <<< 14)
  let y := (← b.index (start + 3)).toUInt64
  let v := v + (y <<< 21)
  if y < 0x80 then .ok (v, start + 4) else
  let v := v - ((0x80 : UInt64) <<< 21)
  let y := (← b.index (start + 4)).toUInt64
  let v := v + (y <<< 28)
  if y < 0x80 then .ok (v, start + 5) else
  let v := v - ((0x80 : UInt64) <<< 28)
  let y := (← b.index (start + 5)).toUInt64
  let v := v + (y <<< 35)
  if y < 0x80 then .ok (v, start + 6) else
  let v := v - ((0x80 : UInt64) <<< 35)
  let y := (← b.index (start + 6)).toUInt64
  let v := v + (y <<< 42)
  if y < 0x80 then .ok (v, start + 7) else
  let v := v - ((0x80 : UInt64) <<< 42)
  let y := (← b.index (start + 7)).toUInt64
  let v := v + (y <<< 49)
  if y < 0x80 then .ok (v, start + 8) else
  let v := v - ((0x80 : UInt64) <<< 49)
  let y := (← b.index (start + 8)).toUInt64
  let v := v + (y <<< 56)
  if y < 0x80 then .ok (v, start + 9) else
  let v := v - ((0x80 : UInt64) <<< 56)
  let y := (← b.index (start + 9)).toUInt64
  let v := v + (y <<< 63)
  if y < 2 then .ok (v, start + 10) else
  .panic

/-- internal/pb/varint.go:175-177 -/
def DecodeZigZag (x : UInt64) : Int64 := (x >>> 1).toInt64 ^^^ ((x.toInt64 <<< 63) >>> 63)

/-- internal/pb/varint.go:179-181 -/
def EncodeZigZag (x : Int64) : UInt64 := (x <<< 1).toUInt64 ^^^ (x >>> 63).toUInt64

/-- internal/pb/varint.go:3-7 -/
def EncodeIdVarInt (buf : List UInt8) (id v : UInt64) : List UInt8 :=
  EncodeVarInt (EncodeVarInt buf (MakeIdType id PbVarInt)) v

/-! ## buffer.go -/

/-- internal/pb/buffer.go:7-12. `int(uint64)` reinterprets the bits, so the length can be
negative; `*next+byteLength` wraps. -/
def ReadBytes (buf : Slice) (next : Int) : Res (Slice × Int) := do
  let (v, next) ← DecodeVarInt buf next
  let byteLength : Int := v.toInt64.toInt
  let out ← buf.sub next (goInt (next + byteLength))
  .ok (out, goInt (next + byteLength))

/-- internal/pb/buffer.go:3-5 -/
def DecodeBytes (buf : Slice) (next : Int) : Res (Slice × Int) := ReadBytes buf next

/-- internal/pb/buffer.go:14-22 (the capacity test has an empty body). -/
def EncodeBuffer (bufOutput bufInput : List UInt8) : List UInt8 :=
  EncodeVarInt bufOutput (UInt64.ofNat bufInput.length) ++ bufInput

/-- internal/pb/buffer.go:24-27: no bounds check at all. -/
def SkipBytes (buf : Slice) (next : Int) : Res Int := do
  let (v, next) ← DecodeVarInt buf next
  .ok (goInt (next + v.toInt64.toInt))

/-- internal/pb/buffer.go:29-33 -/
def EncodeIdBuffer (bufOutput : List UInt8) (id : UInt64) (bufInput : List UInt8) : List UInt8 :=
  EncodeBuffer (EncodeVarInt bufOutput (MakeIdType id PbFixedBytes)) bufInput

/-- internal/pb/buffer.go:40-42 (`string(bytes)` copies the visible bytes). -/
def DecodeString (buf : Slice) (next : Int) : Res (GoStr × Int) := do
  let (s, next) ← DecodeBytes buf next
  .ok (s.bytes, next)

/-- internal/pb/buffer.go:44-46 -/
def EncodeString (bufOutput : List UInt8) (s : GoStr) : List UInt8 := EncodeBuffer bufOutput s

/-! ## 32.go and 64.go: single values -/

/-- internal/pb/32.go:3-5 -/
def DecodeS32 (buf : Slice) (next : Int) : Res (Int32 × Int) := do
  let (v, n) ← DecodeVarInt buf next
  .ok ((DecodeZigZag v).toInt32, n)

/-- internal/pb/32.go:7-9 (`int32(uint64)` keeps the low 32 bits). -/
def DecodeI32 (buf : Slice) (next : Int) : Res (Int32 × Int) := do
  let (v, n) ← DecodeVarInt buf next
  .ok (v.toInt64.toInt32, n)

/-- internal/pb/32.go:11-13 -/
def DecodeU32 (buf : Slice) (next : Int) : Res (UInt32 × Int) := do
  let (v, n) ← DecodeVarInt buf next
  .ok (v.toUInt32, n)

/-- internal/pb/64.go:6-8 -/
def DecodeS64 (buf : Slice) (next : Int) : Res (Int64 × Int) := do
  let (v, n) ← DecodeVarInt buf next
  .ok (DecodeZigZag v, n)

/-- internal/pb/64.go:11-13 -/
def DecodeI64 (buf : Slice) (next : Int) : Res (Int64 × Int) := do
  let (v, n) ← DecodeVarInt buf next
  .ok (v.toInt64, n)

/-- internal/pb/64.go:16-18 -/
def DecodeU64 (buf : Slice) (next : Int) : Res (UInt64 × Int) := DecodeVarInt buf next

/-! ## 32.go and 64.go: packed lists

The decoders share the loop `for innerNext := 0; innerNext < len(innerBuf);`. The Go code for
the 32-bit and S64 variants preallocates `len(innerBuf)` outputs and slices to the number used;
as every varint takes at least one byte the index never overruns, so the model appends. -/

/-- The shared loop of internal/pb/32.go:15-24, 46-55, 75-84 and 64.go:83-101: decode varints
until the inner buffer is exhausted, converting each one with `conv`. -/
def packedLoop {α : Type} (conv : UInt64 → α) (inner : Slice) : Res (List α) :=
  forNext inner (fun n out => do
    let (v, n) ← DecodeVarInt inner n
    .ok (out ++ [conv v], n)) []

/-- internal/pb/32.go:15-24 -/
def DecodeS32Packed (buf : Slice) (next : Int) : Res (List Int32 × Int) := do
  let (inner, next) ← DecodeBytes buf next
  let out ← packedLoop (fun v => (DecodeZigZag v).toInt32) inner
  .ok (out, next)

/-- internal/pb/32.go:46-55 -/
def DecodeI32Packed (buf : Slice) (next : Int) : Res (List Int32 × Int) := do
  let (inner, next) ← DecodeBytes buf next
  let out ← packedLoop (fun v => v.toInt64.toInt32) inner
  .ok (out, next)

/-- internal/pb/32.go:75-84 -/
def DecodeU32Packed (buf : Slice) (next : Int) : Res (List UInt32 × Int) := do
  let (inner, next) ← DecodeBytes buf next
  let out ← packedLoop (fun v => v.toUInt32) inner
  .ok (out, next)

/-- internal/pb/64.go:83-92 -/
def DecodeS64Packed (buf : Slice) (next : Int) : Res (List Int64 × Int) := do
  let (inner, next) ← DecodeBytes buf next
  let out ← packedLoop DecodeZigZag inner
  .ok (out, next)

/-- internal/pb/64.go:94-101 -/
def DecodeU64Packed (buf : Slice) (next : Int) : Res (List UInt64 × Int) := do
  let (inner, next) ← DecodeBytes buf next
  let out ← packedLoop id inner
  .ok (out, next)

/-- The loop of internal/pb/64.go:20-31. State: `(last, output)`. -/
def packedDeltaLoop (inner : Slice) : Res (Int64 × List Int64) :=
  forNext inner (fun n (st : Int64 × List Int64) => do
    let (v, n) ← DecodeVarInt inner n
    let last := st.1 + DecodeZigZag v
    .ok ((last, st.2 ++ [last]), n)) (0, [])

/-- internal/pb/64.go:20-31 -/
def DecodeS64PackedDelta (buf : Slice) (next : Int) : Res (List Int64 × Int) := do
  let (inner, next) ← DecodeBytes buf next
  let st ← packedDeltaLoop inner
  .ok (st.2, next)

/-- The loop of internal/pb/64.go:35-47; falling out of the loop is the panic on line 46. -/
def deltaZeroLoop (buf : Slice) : Nat → Int → Int64 → List Int64 → Res (List Int64)
  | 0, _, _, _ => .hang
  | fuel + 1, next, last, output =>
    if next < buf.len then do
      let (nextDelta, next) ← DecodeVarInt buf next
      if nextDelta = 0 then .ok output
      else
        let last := last + DecodeZigZag nextDelta
        deltaZeroLoop buf fuel next last (output ++ [last])
    else .panic

/-- internal/pb/64.go:35-47 -/
def DecodeS64PackedDeltaZero (buf : Slice) : Res (List Int64) :=
  deltaZeroLoop buf (buf.bytes.length + 1) 0 0 []

/-- The encoding loop of internal/pb/64.go:51-80 and 32.go:26-35: deltas against the previous
value. -/
def encodeDeltas (buf : List UInt8) (last : Int64) : List Int64 → List UInt8
  | [] => buf
  | value :: values => encodeDeltas (EncodeVarInt buf (EncodeZigZag (value - last))) value values

/-- internal/pb/64.go:51-59 -/
def EncodeS64PackedDeltaZero (buf : List UInt8) (values : List Int64) : List UInt8 :=
  encodeDeltas buf 0 values ++ [0]

/-- internal/pb/64.go:61-70 -/
def EncodeS64PackedDelta (buf : List UInt8) (values : List Int64) : List UInt8 :=
  EncodeBuffer buf (encodeDeltas [] 0 values)

/-- internal/pb/64.go:72-80. The returned closure. -/
def EncodeS64PackedDeltaFunc (values : List Int64) (buf : List UInt8) : List UInt8 :=
  encodeDeltas buf 0 values

/-- The encoding loop `for _, value := range values { buf = EncodeVarInt(buf, ...) }` shared by
internal/pb/32.go:37-44, 57-73, 86-93 and 64.go:103-110. -/
def encodeEach {α : Type} (conv : α → UInt64) (buf : List UInt8) (values : List α) : List UInt8 :=
  values.foldl (fun buf v => EncodeVarInt buf (conv v)) buf

/-- internal/pb/32.go:26-35. `value-last` wraps as int32 before widening. -/
def EncodeS32PackedDelta (buf : List UInt8) (values : List Int32) : List UInt8 :=
  EncodeBuffer buf (go [] 0 values)
where
  /-- The loop body. -/
  go (inner : List UInt8) (last : Int32) : List Int32 → List UInt8
    | [] => inner
    | value :: values =>
      go (EncodeVarInt inner (EncodeZigZag (value - last).toInt64)) value values

/-- internal/pb/32.go:37-44 -/
def EncodeS32Packed (buf : List UInt8) (values : List Int32) : List UInt8 :=
  EncodeBuffer buf (encodeEach (fun v : Int32 => EncodeZigZag v.toInt64) [] values)

/-- internal/pb/32.go:57-64 (`uint64(int32)` sign-extends). -/
def EncodeI32Packed (buf : List UInt8) (values : List Int32) : List UInt8 :=
  EncodeBuffer buf (encodeEach (fun v : Int32 => v.toInt64.toUInt64) [] values)

/-- internal/pb/32.go:66-73. The returned closure. -/
def EncodeI32PackedFunc (values : List Int32) (buf : List UInt8) : List UInt8 :=
  encodeEach (fun v : Int32 => v.toInt64.toUInt64) buf values

/-- internal/pb/32.go:86-93. The returned closure. -/
def EncodeU32PackedFunc (values : List UInt32) (buf : List UInt8) : List UInt8 :=
  encodeEach (fun v : UInt32 => v.toUInt64) buf values

/-- internal/pb/64.go:103-110. The returned closure. -/
def EncodeU64Packed (values : List UInt64) (buf : List UInt8) : List UInt8 :=
  encodeEach id buf values

/-! ## embed.go -/

/-- internal/pb/embed.go:3 `type Embedder func(buf []byte) []byte`; it may panic. -/
abbrev Embedder := List UInt8 → Res (List UInt8)

/-- An embedder which cannot panic. -/
def total (f : List UInt8 → List UInt8) : Embedder := fun b => .ok (f b)

/-- internal/pb/embed.go:61-66. The write goes to `buf[start:]`, `v` is the payload length. (Go's
`v` is an `int`; every embedder in the code only appends, so it is never negative.) -/
def EmbedInt128 (buf : List UInt8) (start v : Nat) : Res (List UInt8) :=
  if v ≥ 128 then .panic
  else .ok (buf.set start (UInt64.ofNat v).toUInt8)

/-- internal/pb/embed.go:68-74 -/
def EmbedInt16384 (buf : List UInt8) (start v : Nat) : Res (List UInt8) :=
  if v ≥ 16384 then .panic
  else
    let w := UInt64.ofNat v
    .ok ((buf.set start (contByte (w >>> 0))).set (start + 1) (w >>> 7).toUInt8)

/-- internal/pb/embed.go:76-83 -/
def EmbedInt2097152 (buf : List UInt8) (start v : Nat) : Res (List UInt8) :=
  if v ≥ 2097152 then .panic
  else
    let w := UInt64.ofNat v
    .ok (((buf.set start (contByte (w >>> 0))).set (start + 1) (contByte (w >>> 7))).set
      (start + 2) (w >>> 14).toUInt8)

/-- internal/pb/embed.go:85-93 -/
def EmbedInt268435456 (buf : List UInt8) (start v : Nat) : Res (List UInt8) :=
  if v ≥ 268435456 then .panic
  else
    let w := UInt64.ofNat v
    .ok ((((buf.set start (contByte (w >>> 0))).set (start + 1) (contByte (w >>> 7))).set
      (start + 2) (contByte (w >>> 14))).set (start + 3) (w >>> 21).toUInt8)

/-- internal/pb/embed.go:5-13, with `Reserve128` (lines 45-47) inlined. -/
def Embed128 (id : UInt64) (e : Embedder) (buf : List UInt8) : Res (List UInt8) := do
  let buf := EncodeVarInt buf (MakeIdType id PbFixedBytes)
  let startIndex := buf.length
  let buf ← e (buf ++ [0])
  EmbedInt128 buf startIndex (buf.length - (startIndex + 1))

/-- internal/pb/embed.go:15-23, with `Reserve16384` (lines 49-51) inlined. -/
def Embed16384 (id : UInt64) (e : Embedder) (buf : List UInt8) : Res (List UInt8) := do
  let buf := EncodeVarInt buf (MakeIdType id PbFixedBytes)
  let startIndex := buf.length
  let buf ← e (buf ++ [0, 0])
  EmbedInt16384 buf startIndex (buf.length - (startIndex + 2))

/-- internal/pb/embed.go:25-33, with `Reserve2097152` (lines 53-55) inlined. -/
def Embed2097152 (id : UInt64) (e : Embedder) (buf : List UInt8) : Res (List UInt8) := do
  let buf := EncodeVarInt buf (MakeIdType id PbFixedBytes)
  let startIndex := buf.length
  let buf ← e (buf ++ [0, 0, 0])
  EmbedInt2097152 buf startIndex (buf.length - (startIndex + 3))

/-- internal/pb/embed.go:35-43, with `Reserve268435456` (lines 57-59) inlined. -/
def Embed268435456 (id : UInt64) (e : Embedder) (buf : List UInt8) : Res (List UInt8) := do
  let buf := EncodeVarInt buf (MakeIdType id PbFixedBytes)
  let startIndex := buf.length
  let buf ← e (buf ++ [0, 0, 0, 0])
  EmbedInt268435456 buf startIndex (buf.length - (startIndex + 4))

end Osm.Pb
