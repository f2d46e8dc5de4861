import Verif.Spec.Proto
import Verif.Spec.Programs

/-!
# The messages of OSM PBF files

After fileformat.proto and osmformat.proto of the OSM project: field numbers, types and defaults. What the code does not
support is left out: unknown fields, nodes that are not dense, info of nodes, ways and relations (skipped), lists in several
pieces.
-/

namespace Osm.Spec.OsmFormat
open Osm Osm.T Osm.Pbf Osm.Spec Osm.Spec.Proto

/-- `message StringTable { repeated bytes s = 1; }` -/
def IsStringTable (bs : List UInt8) (st : StringTable) : Prop :=
  ∃ fs, IsMessage bs fs ∧ Only [] [1] fs ∧ st.S = items 1 fs

/-- ```
message Way {
  required int64 id = 1;
  repeated uint32 keys = 2 [packed = true];
  repeated uint32 vals = 3 [packed = true];
  optional Info info = 4;
  repeated sint64 refs = 8 [packed = true]; // DELTA coded
}
``` -/
def IsWay (bs : List UInt8) (w : Way) : Prop :=
  ∃ fs, IsMessage bs fs ∧ Only [1] [2, 3, 4, 8] fs ∧ Once [2, 3, 8] fs ∧
    w.ID = Int64.ofNat (scalar 0 1 fs) ∧ PackedU32 (packed 2 fs) w.Keys ∧ PackedU32 (packed 3 fs) w.Vals ∧
    PackedDelta (packed 8 fs) w.Refs

/-- ```
message Relation {
  required int64 id = 1;
  repeated uint32 keys = 2 [packed = true];
  repeated uint32 vals = 3 [packed = true];
  optional Info info = 4;
  repeated int32 roles_sid = 8 [packed = true];
  repeated sint64 memids = 9 [packed = true]; // DELTA encoded
  repeated MemberType types = 10 [packed = true];
}
``` -/
def IsRelation (bs : List UInt8) (r : Relation) : Prop :=
  ∃ fs, IsMessage bs fs ∧ Only [1] [2, 3, 4, 8, 9, 10] fs ∧ Once [2, 3, 8, 9, 10] fs ∧
    r.ID = Int64.ofNat (scalar 0 1 fs) ∧ PackedU32 (packed 2 fs) r.Keys ∧ PackedU32 (packed 3 fs) r.Vals ∧
    PackedI32 (packed 8 fs) r.RolesSID ∧ PackedDelta (packed 9 fs) r.MemIDs ∧ PackedEnum (packed 10 fs) r.MemberType

/-- ```
message DenseNodes {
  repeated sint64 id = 1 [packed = true]; // DELTA coded
  optional DenseInfo denseinfo = 5;
  repeated sint64 lat = 8 [packed = true]; // DELTA coded
  repeated sint64 lon = 9 [packed = true]; // DELTA coded
  repeated int32 keys_vals = 10 [packed = true];
}
``` -/
def IsDense (bs : List UInt8) (dn : DenseNodes) : Prop :=
  ∃ fs, IsMessage bs fs ∧ Only [] [1, 5, 8, 9, 10] fs ∧ Once [1, 8, 9, 10] fs ∧
    PackedDelta (packed 1 fs) dn.Id ∧ PackedDelta (packed 8 fs) dn.Lat ∧ PackedDelta (packed 9 fs) dn.Lon ∧
    PackedI32 (packed 10 fs) dn.KeyVals

/-- ```
message PrimitiveGroup {
  repeated Node     nodes = 1; // not supported
  optional DenseNodes dense = 2;
  repeated Way      ways = 3;
  repeated Relation relations = 4;
  repeated ChangeSet changesets = 5;
}
```
The group is decoded in full. -/
def IsGroup (bs : List UInt8) (g : T.PrimitiveGroup) : Prop :=
  ∃ fs, IsMessage bs fs ∧ Only [] [2, 3, 4, 5] fs ∧ Matches IsDense (items 2 fs) g.Dense.toList ∧
    Matches IsWay (items 3 fs) g.Ways ∧ Matches IsRelation (items 4 fs) g.Relations ∧
    g.RawDense = none ∧ g.RawWays = [] ∧ g.RawRelations = []

/-- ```
message PrimitiveBlock {
  required StringTable stringtable = 1;
  repeated PrimitiveGroup primitivegroup = 2;
  optional int32 granularity = 17 [default = 100];
  optional int64 lat_offset = 19 [default = 0];
  optional int64 lon_offset = 20 [default = 0];
  optional int32 date_granularity = 18 [default = 1000];
}
```
The block is decoded in full. -/
def IsBlock (bs : List UInt8) (b : PrimitiveBlock) : Prop :=
  ∃ fs, IsMessage bs fs ∧ Only [17, 18, 19, 20] [1, 2] fs ∧ Matches IsStringTable (items 1 fs) b.StringTable.toList ∧
    Matches IsGroup (items 2 fs) b.PrimitiveGroup ∧ b.Granularity = Int32.ofNat (scalar 100 17 fs) ∧
    b.DateGranularity = Int32.ofNat (scalar 1000 18 fs) ∧ b.LatOffset = Int64.ofNat (scalar 0 19 fs) ∧
    b.LonOffset = Int64.ofNat (scalar 0 20 fs) ∧ b.StringTableRaw = none

/-- `g` shows the group `c` read with options `o`: what is skipped as it stands in the file, everything else decoded. -/
structure ShowsGroup (o : PBReader) (g c : T.PrimitiveGroup) : Prop where
  dense : if o.SkipDenseNodes then g.Dense = none ∧ Matches IsDense (g.RawDense.map (·.bytes)).toList c.Dense.toList
    else g.RawDense = none ∧ g.Dense = c.Dense
  ways : if o.SkipWays then g.Ways = [] ∧ Matches IsWay (g.RawWays.map (·.bytes)) c.Ways
    else g.RawWays = [] ∧ g.Ways = c.Ways
  relations : if o.SkipRelations then g.Relations = [] ∧ Matches IsRelation (g.RawRelations.map (·.bytes)) c.Relations
    else g.RawRelations = [] ∧ g.Relations = c.Relations
  full : c.RawDense = none ∧ c.RawWays = [] ∧ c.RawRelations = []

/-- The same for a block. -/
structure ShowsBlock (o : PBReader) (b c : PrimitiveBlock) : Prop where
  table : if o.SkipStringTable then
      b.StringTable = none ∧ Matches IsStringTable (b.StringTableRaw.map (·.bytes)).toList c.StringTable.toList
    else b.StringTableRaw = none ∧ b.StringTable = c.StringTable
  groups : Matches (ShowsGroup o) b.PrimitiveGroup c.PrimitiveGroup
  numbers : b.Granularity = c.Granularity ∧ b.DateGranularity = c.DateGranularity ∧ b.LatOffset = c.LatOffset ∧
    b.LonOffset = c.LonOffset
  full : c.StringTableRaw = none

/-- ```
message BlobHeader {
  required string type = 1;
  optional bytes indexdata = 2; // not supported
  required int32 datasize = 3;
}
``` -/
def IsBlobHeader (bs : List UInt8) (kind : GoStr) (size : Int32) : Prop :=
  ∃ fs, IsMessage bs fs ∧ Only [3] [1] fs ∧ kind = (items 1 fs).getLast?.getD [] ∧ size = Int32.ofNat (scalar 0 3 fs)

/-- ```
message Blob {
  optional int32 raw_size = 2;
  oneof data {
    bytes raw = 1;
    bytes zlib_data = 3;
    ... // not supported
  }
}
``` -/
def IsBlob (bs : List UInt8) (raw : Option (List UInt8)) (rawSize : Option Int32) (zlib : Option (List UInt8)) : Prop :=
  ∃ fs, IsMessage bs fs ∧ Only [2] [1, 3] fs ∧ raw = (items 1 fs).getLast? ∧
    rawSize = (nums 2 fs).getLast?.map Int32.ofNat ∧ zlib = (items 3 fs).getLast?

/-- The payload: as it stands, or zlib-compressed. -/
def IsPayload (inflate : Inflate) (bs p : List UInt8) : Prop :=
  (∃ size, IsBlob bs (some p) size none) ∨
  ∃ size z, IsBlob bs none (some size) (some z) ∧ inflate z = some p ∧ size.toInt = p.length

/-- A file: "The format is a repeating sequence of: int4: length of the BlobHeader message in network byte order; serialized
BlobHeader message; serialized Blob message (size is given in the header)". Its blobs with their types. -/
inductive IsFile : List UInt8 → List (GoStr × List UInt8) → Prop where
  | nil : IsFile [] []
  | cons (size header blob rest : List UInt8) (kind : GoStr) (dataSize : Int32) (xs : List (GoStr × List UInt8)) :
      size.length = 4 → size.foldl (fun n b => 256 * n + b.toNat) 0 = header.length →
      IsBlobHeader header kind dataSize → dataSize.toInt = blob.length → IsFile rest xs →
      IsFile (size ++ header ++ blob ++ rest) ((kind, blob) :: xs)

/-- What is in the blob of a source file: a header, or data. -/
inductive HasBlock (inflate : Inflate) : GoStr × List UInt8 → Option PrimitiveBlock → Prop where
  | header (bs : List UInt8) : HasBlock inflate (osmHeader, bs) none
  | data (bs p : List UInt8) (b : PrimitiveBlock) : IsPayload inflate bs p → IsBlock p b →
      HasBlock inflate (osmData, bs) (some b)

/-- An OSM PBF file and the content of its blocks (`none`: the header). -/
def IsOsmFile (inflate : Inflate) (file : List UInt8) (blocks : List (Option PrimitiveBlock)) : Prop :=
  ∃ xs, IsFile file xs ∧ Matches (HasBlock inflate) xs blocks

/-- The same with the bytes of the headers: a header, or data decoded in full. -/
inductive IsContent (inflate : Inflate) : GoStr × List UInt8 → Content → Prop where
  | header (bs : List UInt8) : IsContent inflate (osmHeader, bs) (.other osmHeader bs)
  | data (bs p : List UInt8) (b : PrimitiveBlock) : IsPayload inflate bs p → IsBlock p b →
      IsContent inflate (osmData, bs) (.data b)

/-- An OSM PBF file with its contents. -/
def IsOsmContents (inflate : Inflate) (file : List UInt8) (cs : List Content) : Prop :=
  ∃ xs, IsFile file xs ∧ Matches (IsContent inflate) xs cs

end Osm.Spec.OsmFormat
