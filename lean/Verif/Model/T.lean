import Verif.Model.Pb

/-!
# Model of the protobuf messages, internal/t

Go pointers to freshly allocated structs are values here; `nil` is `none` (or the empty list for
slices which the code only ever builds with `append`, see the comments). Every reader is called in
the code with a zero-valued struct.
-/

namespace Osm.T
open Osm Osm.Pb

/-! ## string_table.go -/

/-- internal/t/string_table.go:9-11 -/
structure StringTable where
  S : List GoStr
deriving DecidableEq, Repr

/-- The loop body of internal/t/string_table.go:17-27. -/
def stringTableBody (buf : Slice) (next : Int) (st : StringTable) : Res (StringTable × Int) := do
  let (id, next) ← DecodeVarInt buf next
  if id = MakeIdType 1 PbFixedBytes then
    let (s, next) ← DecodeString buf next
    .ok (⟨st.S ++ [s]⟩, next)
  else .panic

/-- internal/t/string_table.go:17-27 -/
def ReadStringTable (buf : Slice) : Res StringTable :=
  forNext buf (stringTableBody buf) ⟨[]⟩

/-- internal/t/string_table.go:29-34 -/
def StringTable.Write (st : StringTable) : Embedder := fun buf =>
  .ok (st.S.foldl (fun buf s => EncodeIdBuffer buf 1 s) buf)

/-! ## way.go -/

/-- internal/t/way.go:19-24 -/
structure Way where
  ID : Int64
  Keys : List UInt32
  Vals : List UInt32
  Refs : List Int64
deriving DecidableEq, Repr

/-- The zero `Way`. -/
def Way.zero : Way := ⟨0, [], [], []⟩

/-- The loop body of internal/t/way.go:26-44. -/
def wayBody (buf : Slice) (next : Int) (w : Way) : Res (Way × Int) := do
  let (id, next) ← DecodeVarInt buf next
  if id = MakeIdType 1 PbVarInt then
    let (v, next) ← DecodeI64 buf next
    .ok ({ w with ID := v }, next)
  else if id = MakeIdType 2 PbFixedBytes then
    let (v, next) ← DecodeU32Packed buf next
    .ok ({ w with Keys := v }, next)
  else if id = MakeIdType 3 PbFixedBytes then
    let (v, next) ← DecodeU32Packed buf next
    .ok ({ w with Vals := v }, next)
  else if id = MakeIdType 4 PbFixedBytes then
    let next ← SkipBytes buf next
    .ok (w, next)
  else if id = MakeIdType 8 PbFixedBytes then
    let (v, next) ← DecodeS64PackedDelta buf next
    .ok ({ w with Refs := v }, next)
  else .panic

/-- internal/t/way.go:26-44 -/
def ReadWay (buf : Slice) : Res Way := forNext buf (wayBody buf) Way.zero

/-- internal/t/way.go:46-52 -/
def Way.Write (w : Way) : Embedder := fun buf => do
  let buf := EncodeIdVarInt buf 1 w.ID.toUInt64
  let buf ← Embed16384 2 (total (EncodeU32PackedFunc w.Keys)) buf
  let buf ← Embed16384 3 (total (EncodeU32PackedFunc w.Vals)) buf
  Embed16384 8 (total (EncodeS64PackedDeltaFunc w.Refs)) buf

/-! ## relation.go -/

/-- internal/t/relation.go:25-32 -/
structure Relation where
  ID : Int64
  Keys : List UInt32
  Vals : List UInt32
  RolesSID : List Int32
  MemIDs : List Int64
  MemberType : List UInt64
deriving DecidableEq, Repr

/-- The zero `Relation`. -/
def Relation.zero : Relation := ⟨0, [], [], [], [], []⟩

/-- The loop body of internal/t/relation.go:34-56. -/
def relationBody (buf : Slice) (next : Int) (r : Relation) : Res (Relation × Int) := do
  let (id, next) ← DecodeVarInt buf next
  if id = MakeIdType 1 PbVarInt then
    let (v, next) ← DecodeI64 buf next
    .ok ({ r with ID := v }, next)
  else if id = MakeIdType 2 PbFixedBytes then
    let (v, next) ← DecodeU32Packed buf next
    .ok ({ r with Keys := v }, next)
  else if id = MakeIdType 3 PbFixedBytes then
    let (v, next) ← DecodeU32Packed buf next
    .ok ({ r with Vals := v }, next)
  else if id = MakeIdType 4 PbFixedBytes then
    let next ← SkipBytes buf next
    .ok (r, next)
  else if id = MakeIdType 8 PbFixedBytes then
    let (v, next) ← DecodeI32Packed buf next
    .ok ({ r with RolesSID := v }, next)
  else if id = MakeIdType 9 PbFixedBytes then
    let (v, next) ← DecodeS64PackedDelta buf next
    .ok ({ r with MemIDs := v }, next)
  else if id = MakeIdType 10 PbFixedBytes then
    let (v, next) ← DecodeU64Packed buf next
    .ok ({ r with MemberType := v }, next)
  else .panic

/-- internal/t/relation.go:34-56 -/
def ReadRelation (buf : Slice) : Res Relation := forNext buf (relationBody buf) Relation.zero

/-- internal/t/relation.go:58-66 -/
def Relation.Write (r : Relation) : Embedder := fun buf => do
  let buf := EncodeIdVarInt buf 1 r.ID.toUInt64
  let buf ← Embed16384 2 (total (EncodeU32PackedFunc r.Keys)) buf
  let buf ← Embed16384 3 (total (EncodeU32PackedFunc r.Vals)) buf
  let buf ← Embed2097152 8 (total (EncodeI32PackedFunc r.RolesSID)) buf
  let buf ← Embed2097152 9 (total (EncodeS64PackedDeltaFunc r.MemIDs)) buf
  Embed2097152 10 (total (EncodeU64Packed r.MemberType)) buf

/-! ## dense_nodes.go -/

/-- internal/t/dense_nodes.go:17-25, without the caches (see `GetKeyVals`). -/
structure DenseNodes where
  Id : List Int64
  Lat : List Int64
  Lon : List Int64
  KeyVals : List Int32
deriving DecidableEq, Repr

/-- The zero `DenseNodes`. -/
def DenseNodes.zero : DenseNodes := ⟨[], [], [], []⟩

/-- The loop body of internal/t/dense_nodes.go:27-45. -/
def denseBody (buf : Slice) (next : Int) (dn : DenseNodes) : Res (DenseNodes × Int) := do
  let (id, next) ← DecodeVarInt buf next
  if id = MakeIdType 1 PbFixedBytes then
    let (v, next) ← DecodeS64PackedDelta buf next
    .ok ({ dn with Id := v }, next)
  else if id = MakeIdType 5 PbFixedBytes then
    let next ← SkipBytes buf next
    .ok (dn, next)
  else if id = MakeIdType 8 PbFixedBytes then
    let (v, next) ← DecodeS64PackedDelta buf next
    .ok ({ dn with Lat := v }, next)
  else if id = MakeIdType 9 PbFixedBytes then
    let (v, next) ← DecodeS64PackedDelta buf next
    .ok ({ dn with Lon := v }, next)
  else if id = MakeIdType 10 PbFixedBytes then
    let (v, next) ← DecodeI32Packed buf next
    .ok ({ dn with KeyVals := v }, next)
  else .panic

/-- internal/t/dense_nodes.go:27-45 -/
def ReadDenseNodes (buf : Slice) : Res DenseNodes := forNext buf (denseBody buf) DenseNodes.zero

/-- internal/t/dense_nodes.go:47-55 -/
def DenseNodes.Write (dn : DenseNodes) : Embedder := fun buf => do
  let buf ← Embed2097152 1 (total (EncodeS64PackedDeltaFunc dn.Id)) buf
  let buf ← Embed2097152 8 (total (EncodeS64PackedDeltaFunc dn.Lat)) buf
  let buf ← Embed2097152 9 (total (EncodeS64PackedDeltaFunc dn.Lon)) buf
  if dn.KeyVals.length > 0 then
    Embed268435456 10 (total (EncodeI32PackedFunc dn.KeyVals)) buf
  else .ok buf

/-- The two caches of internal/t/dense_nodes.go:23-24. -/
structure KVCache where
  keys : List (List UInt32)
  vals : List (List UInt32)
deriving DecidableEq, Repr

/-- The loop of internal/t/dense_nodes.go:65-76; the list is `KeyVals[startOfKeyVals:]`. -/
def fillCache (curKeys curVals : List UInt32) (c : KVCache) : List Int32 → Res KVCache
  | [] => .ok c
  | k :: rest =>
    if k = 0 then fillCache [] [] ⟨c.keys ++ [curKeys], c.vals ++ [curVals]⟩ rest
    else match rest with
      | [] => .panic
      | v :: rest => fillCache (curKeys ++ [k.toUInt32]) (curVals ++ [v.toUInt32]) c rest

/-- internal/t/dense_nodes.go:62-76: the caches are filled at the first call. -/
def DenseNodes.ensureCache (dn : DenseNodes) (c : KVCache) : Res KVCache :=
  if c.keys.length = 0 then fillCache [] [] c dn.KeyVals else .ok c

/-- internal/t/dense_nodes.go:57-80. The cache before and after the call is explicit. -/
def DenseNodes.GetKeyVals (dn : DenseNodes) (c : KVCache) (idx : Nat) :
    Res ((List UInt32 × List UInt32) × KVCache) :=
  if dn.KeyVals.length = 0 then .ok (([], []), c)
  else do
    let c ← dn.ensureCache c
    let ks ← Res.ofOption c.keys[idx]?
    let vs ← Res.ofOption c.vals[idx]?
    .ok ((ks, vs), c)

/-! ## reader.go -/

/-- internal/t/reader.go:3-8 -/
structure PBReader where
  SkipStringTable : Bool
  SkipDenseNodes : Bool
  SkipWays : Bool
  SkipRelations : Bool
deriving DecidableEq, Repr

/-! ## primitive_group.go -/

/-- internal/t/primitive_group.go:17-28. `Ways`, `RawWays`, `Relations` and `RawRelations` are
only ever built by appending (lines 45-57, and non-empty lists in primitive_block_*.go), so
`nil` is the empty list. -/
structure PrimitiveGroup where
  RawDense : Option Slice
  Dense : Option DenseNodes
  Ways : List Way
  RawWays : List Slice
  Relations : List Relation
  RawRelations : List Slice
deriving DecidableEq, Repr

/-- The zero `PrimitiveGroup`. -/
def PrimitiveGroup.zero : PrimitiveGroup := ⟨none, none, [], [], [], []⟩

/-- The loop body of internal/t/primitive_group.go:30-65. -/
def groupBody (pbr : PBReader) (buf : Slice) (next : Int) (pg : PrimitiveGroup) :
    Res (PrimitiveGroup × Int) := do
  let (id, next) ← DecodeVarInt buf next
  if id = MakeIdType 1 PbFixedBytes then .panic
  else if id = MakeIdType 2 PbFixedBytes then
    if pbr.SkipDenseNodes then
      let (b, next) ← DecodeBytes buf next
      .ok ({ pg with RawDense := some b }, next)
    else
      let (b, next) ← DecodeBytes buf next
      let dn ← ReadDenseNodes b
      .ok ({ pg with Dense := some dn }, next)
  else if id = MakeIdType 3 PbFixedBytes then
    if pbr.SkipWays then
      let (b, next) ← DecodeBytes buf next
      .ok ({ pg with RawWays := pg.RawWays ++ [b] }, next)
    else
      let (b, next) ← DecodeBytes buf next
      let w ← ReadWay b
      .ok ({ pg with Ways := pg.Ways ++ [w] }, next)
  else if id = MakeIdType 4 PbFixedBytes then
    if pbr.SkipRelations then
      let (b, next) ← DecodeBytes buf next
      .ok ({ pg with RawRelations := pg.RawRelations ++ [b] }, next)
    else
      let (b, next) ← DecodeBytes buf next
      let r ← ReadRelation b
      .ok ({ pg with Relations := pg.Relations ++ [r] }, next)
  else if id = MakeIdType 5 PbFixedBytes then
    let next ← SkipBytes buf next
    .ok (pg, next)
  else .panic

/-- internal/t/primitive_group.go:30-65 -/
def ReadPrimitiveGroup (pbr : PBReader) (buf : Slice) : Res PrimitiveGroup :=
  forNext buf (groupBody pbr buf) PrimitiveGroup.zero

/-- internal/t/primitive_group.go:68-72 -/
def PrimitiveGroup.writeDense (pg : PrimitiveGroup) : Embedder := fun buf =>
  match pg.Dense, pg.RawDense with
  | some dn, _ => Embed268435456 2 dn.Write buf
  | none, some raw => .ok (EncodeIdBuffer buf 2 raw.bytes)
  | none, none => .ok buf

/-- internal/t/primitive_group.go:74-82 -/
def PrimitiveGroup.writeWays (pg : PrimitiveGroup) : Embedder := fun buf =>
  if pg.Ways ≠ [] then foldRes (fun buf w => Embed16384 3 (Way.Write w) buf) buf pg.Ways
  else .ok (pg.RawWays.foldl (fun buf w => EncodeIdBuffer buf 3 w.bytes) buf)

/-- internal/t/primitive_group.go:84-92 -/
def PrimitiveGroup.writeRelations (pg : PrimitiveGroup) : Embedder := fun buf =>
  if pg.Relations ≠ [] then
    foldRes (fun buf r => Embed2097152 4 (Relation.Write r) buf) buf pg.Relations
  else .ok (pg.RawRelations.foldl (fun buf r => EncodeIdBuffer buf 4 r.bytes) buf)

/-- internal/t/primitive_group.go:67-95 -/
def PrimitiveGroup.Write (pg : PrimitiveGroup) : Embedder := fun buf => do
  let buf ← pg.writeDense buf
  let buf ← pg.writeWays buf
  pg.writeRelations buf

/-! ## primitive_block.go -/

/-- internal/t/primitive_block.go:9-17 -/
structure PrimitiveBlock where
  StringTableRaw : Option Slice
  StringTable : Option StringTable
  PrimitiveGroup : List PrimitiveGroup
  Granularity : Int32
  DateGranularity : Int32
  LatOffset : Int64
  LonOffset : Int64
deriving DecidableEq, Repr

/-- A zero `PrimitiveBlock` after internal/t/primitive_block.go:29-30. -/
def PrimitiveBlock.fresh : PrimitiveBlock := ⟨none, none, [], 100, 1000, 0, 0⟩

/-- The loop body of internal/t/primitive_block.go:32-57. -/
def blockBody (pbr : PBReader) (buf : Slice) (next : Int) (pblk : PrimitiveBlock) :
    Res (PrimitiveBlock × Int) := do
  let (id, next) ← DecodeVarInt buf next
  if id = MakeIdType 1 PbFixedBytes then
    if pbr.SkipStringTable then
      let (b, next) ← DecodeBytes buf next
      .ok ({ pblk with StringTableRaw := some b }, next)
    else
      let (b, next) ← DecodeBytes buf next
      let st ← ReadStringTable b
      .ok ({ pblk with StringTable := some st }, next)
  else if id = MakeIdType 2 PbFixedBytes then
    let (b, next) ← DecodeBytes buf next
    let pg ← ReadPrimitiveGroup pbr b
    .ok ({ pblk with PrimitiveGroup := pblk.PrimitiveGroup ++ [pg] }, next)
  else if id = MakeIdType 17 PbVarInt then
    let (v, next) ← DecodeI32 buf next
    .ok ({ pblk with Granularity := v }, next)
  else if id = MakeIdType 18 PbVarInt then
    let (v, next) ← DecodeI32 buf next
    .ok ({ pblk with DateGranularity := v }, next)
  else if id = MakeIdType 19 PbVarInt then
    let (v, next) ← DecodeI64 buf next
    .ok ({ pblk with LatOffset := v }, next)
  else if id = MakeIdType 20 PbVarInt then
    let (v, next) ← DecodeI64 buf next
    .ok ({ pblk with LonOffset := v }, next)
  else .panic

/-- internal/t/primitive_block.go:28-58 -/
def ReadPrimitiveBlock (pbr : PBReader) (buf : Slice) : Res PrimitiveBlock :=
  forNext buf (blockBody pbr buf) PrimitiveBlock.fresh

/-- internal/t/primitive_block.go:61-65 -/
def PrimitiveBlock.writeStringTable (pblk : PrimitiveBlock) : Embedder := fun buf =>
  match pblk.StringTable, pblk.StringTableRaw with
  | some st, _ => Embed268435456 1 st.Write buf
  | none, some raw => .ok (EncodeIdBuffer buf 1 raw.bytes)
  | none, none => .ok buf

/-- internal/t/primitive_block.go:70-81 -/
def PrimitiveBlock.writeTail (pblk : PrimitiveBlock) (buf : List UInt8) : List UInt8 :=
  let buf := if pblk.Granularity ≠ 100 then
    EncodeIdVarInt buf 17 pblk.Granularity.toInt64.toUInt64 else buf
  let buf := if pblk.DateGranularity ≠ 1000 then
    EncodeIdVarInt buf 18 pblk.DateGranularity.toInt64.toUInt64 else buf
  let buf := if pblk.LatOffset ≠ 0 then EncodeIdVarInt buf 19 pblk.LatOffset.toUInt64 else buf
  if pblk.LonOffset ≠ 0 then EncodeIdVarInt buf 20 pblk.LonOffset.toUInt64 else buf

/-- internal/t/primitive_block.go:60-83 -/
def PrimitiveBlock.Write (pblk : PrimitiveBlock) : Embedder := fun buf => do
  let buf ← pblk.writeStringTable buf
  let buf ← foldRes (fun buf pg => Embed268435456 2 (PrimitiveGroup.Write pg) buf) buf
    pblk.PrimitiveGroup
  .ok (pblk.writeTail buf)

/-- internal/t/primitive_block.go:113-115 (a nil `StringTable` is a nil dereference). -/
def PrimitiveBlock.GetString (pblk : PrimitiveBlock) (id : UInt32) : Res GoStr :=
  match pblk.StringTable with
  | none => .panic
  | some st => Res.ofOption st.S[id.toNat]?

/-! ## blob_header.go -/

/-- internal/t/blob_header.go:9-12 (`Kind` is the Go field `Type`). -/
structure BlobHeader where
  Kind : GoStr
  DataSize : Int32
deriving DecidableEq, Repr

/-- The loop body of internal/t/blob_header.go:19-33. -/
def blobHeaderBody (buf : Slice) (next : Int) (bh : BlobHeader) : Res (BlobHeader × Int) := do
  let (id, next) ← DecodeVarInt buf next
  if id = MakeIdType 1 PbFixedBytes then
    let (v, next) ← DecodeString buf next
    .ok ({ bh with Kind := v }, next)
  else if id = MakeIdType 3 PbVarInt then
    let (v, next) ← DecodeI32 buf next
    .ok ({ bh with DataSize := v }, next)
  else .panic

/-- internal/t/blob_header.go:19-33 -/
def ReadBlobHeader (buf : Slice) : Res BlobHeader := forNext buf (blobHeaderBody buf) ⟨[], 0⟩

/-- internal/t/blob_header.go:35-43 -/
def BlobHeader.Write (bh : BlobHeader) (buf : List UInt8) : List UInt8 :=
  let buf := if bh.Kind ≠ [] then EncodeIdBuffer buf 1 bh.Kind else buf
  if bh.DataSize ≠ 0 then EncodeIdVarInt buf 3 bh.DataSize.toInt64.toUInt64 else buf

/-! ## blob.go -/

/-- internal/t/blob.go:18-24, without `RawFunc` (a parameter of `Blob.Write` here). -/
structure Blob where
  Raw : Option Slice
  RawSize : Option Int32
  ZLibData : Option Slice
deriving DecidableEq, Repr

/-- The zero `Blob`. -/
def Blob.zero : Blob := ⟨none, none, none⟩

/-- The loop body of internal/t/blob.go:27-41. -/
def blobBody (buf : Slice) (next : Int) (b : Blob) : Res (Blob × Int) := do
  let (id, next) ← DecodeVarInt buf next
  if id = MakeIdType 1 PbFixedBytes then
    let (v, next) ← DecodeBytes buf next
    .ok ({ b with Raw := some v }, next)
  else if id = MakeIdType 2 PbVarInt then
    let (v, next) ← DecodeI32 buf next
    .ok ({ b with RawSize := some v }, next)
  else if id = MakeIdType 3 PbFixedBytes then
    let (v, next) ← DecodeBytes buf next
    .ok ({ b with ZLibData := some v }, next)
  else .panic

/-- internal/t/blob.go:27-41 -/
def ReadBlob (buf : Slice) : Res Blob := forNext buf (blobBody buf) Blob.zero

/-- `len(x)` of a possibly nil slice. -/
def optLen : Option Slice → Nat
  | none => 0
  | some s => s.bytes.length

/-- The bytes of a possibly nil slice. -/
def optBytes : Option Slice → List UInt8
  | none => []
  | some s => s.bytes

/-- internal/t/blob.go:44-49 -/
def Blob.writeRaw (b : Blob) (rawFunc : Option Embedder) : Embedder := fun buf =>
  match rawFunc with
  | some f => Embed268435456 1 f buf
  | none => if optLen b.Raw > 0 then .ok (EncodeIdBuffer buf 1 (optBytes b.Raw)) else .ok buf

/-- internal/t/blob.go:50-55 -/
def Blob.writeTail (b : Blob) (buf : List UInt8) : List UInt8 :=
  let buf := match b.RawSize with
    | some n => EncodeIdVarInt buf 2 n.toInt64.toUInt64
    | none => buf
  if optLen b.ZLibData > 0 then EncodeIdBuffer buf 3 (optBytes b.ZLibData) else buf

/-- internal/t/blob.go:43-57 -/
def Blob.Write (b : Blob) (rawFunc : Option Embedder) : Embedder := fun buf => do
  let buf ← b.writeRaw rawFunc buf
  .ok (b.writeTail buf)

end Osm.T
