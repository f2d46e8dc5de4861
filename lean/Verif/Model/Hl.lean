import Verif.Model.T

/-!
# Model of block assembly and extraction: internal/t/string_table_builder.go,
primitive_block_{nodes,ways,relations}.go, primitive_block.go:85-115

Go maps: a map which is only looked up is a function to `Option`; a `map[string]string` which is
also iterated is an association list (`TagMap`) whose order is the order in which Go happens to
iterate it (Go leaves it unspecified; the theorems quantify over all orders).
`sort.Slice`/`sort.Strings` are modelled by merge sort; `sortBy_unique` shows that every correct
sorting algorithm gives the same list here.
-/

namespace Osm.T
open Osm

/-- `strings.Compare(a, b) < 0`, also the order used by `sort.Strings`. -/
def strLt : GoStr → GoStr → Bool
  | [], [] => false
  | [], _ :: _ => true
  | _ :: _, [] => false
  | a :: as, b :: bs => if a < b then true else if b < a then false else strLt as bs

/-- `sort.Slice(xs, less)`. -/
def sortBy {α : Type} (less : α → α → Bool) (xs : List α) : List α :=
  xs.mergeSort (fun a b => !less b a)

/-- A `map[string]string`; keys are distinct. -/
abbrev TagMap := List (GoStr × GoStr)

/-- `m[k]` (the zero value `""` if absent). -/
def TagMap.get (m : TagMap) (k : GoStr) : GoStr :=
  match m.lookup k with
  | some v => v
  | none => []

/-- `m[k] = v`. -/
def TagMap.set (m : TagMap) (k v : GoStr) : TagMap :=
  if (m.lookup k).isSome then m.map (fun e => if e.1 = k then (k, v) else e) else m ++ [(k, v)]

/-! ## string_table_builder.go -/

/-- internal/t/string_table_builder.go:9-13 before `Finalize`. -/
structure Builder where
  stringFrequency : GoStr → Option UInt32
  stringList : List GoStr

/-- internal/t/string_table_builder.go:9-13 after `Finalize` (`stringFrequency` is nil then; adding
to it would panic and no code does). -/
structure Finalized where
  stringIndex : GoStr → Option UInt32
  stringList : List GoStr

/-- internal/t/string_table_builder.go:15-20 -/
def NewStringTableBuilder : Builder :=
  ⟨fun s => if s = [] then some 0xffffffff else none, [[]]⟩

/-- internal/t/string_table_builder.go:29-36. `stb.stringFrequency[s] + 1` wraps at 2^32. -/
def Builder.AddString (stb : Builder) (s : GoStr) : Builder :=
  match stb.stringFrequency s with
  | none => ⟨fun x => if x = s then some 1 else stb.stringFrequency x, stb.stringList ++ [s]⟩
  | some f => ⟨fun x => if x = s then some (f + 1) else stb.stringFrequency x, stb.stringList⟩

/-- internal/t/string_table_builder.go:22-27 -/
def Builder.AddMap (stb : Builder) (m : TagMap) : Builder :=
  m.foldl (fun stb e => (stb.AddString e.1).AddString e.2) stb

/-- The frequency of a string, `0` if absent (Go map lookup). -/
def Builder.freq (stb : Builder) (s : GoStr) : UInt32 := (stb.stringFrequency s).getD 0

/-- The comparison of internal/t/string_table_builder.go:39-48. -/
def Builder.less (stb : Builder) (a b : GoStr) : Bool :=
  if stb.freq a ≠ stb.freq b then stb.freq a > stb.freq b else strLt a b

/-- internal/t/string_table_builder.go:52-54: `uint32(idx)` wraps. -/
def indexAll (m : GoStr → Option UInt32) (idx : Nat) : List GoStr → (GoStr → Option UInt32)
  | [] => m
  | s :: ss => indexAll (fun x => if x = s then some (UInt32.ofNat idx) else m x) (idx + 1) ss

/-- internal/t/string_table_builder.go:38-55 -/
def Builder.Finalize (stb : Builder) : Finalized :=
  let sorted := sortBy stb.less stb.stringList
  ⟨indexAll stb.stringFrequency 0 sorted, sorted⟩

/-- internal/t/string_table_builder.go:57-63 -/
def Finalized.GetIndex (stb : Finalized) (s : GoStr) : Res UInt32 := Res.ofOption (stb.stringIndex s)

/-- internal/t/string_table_builder.go:65-69 -/
def Finalized.ToStringTable (stb : Finalized) : StringTable := ⟨stb.stringList⟩

/-- internal/t/string_table_builder.go:71-86: index pairs of a map, by key. -/
def Finalized.pairs (stb : Finalized) (m : TagMap) : Res (List (UInt32 × UInt32)) :=
  mapRes (fun k => do
    let a ← stb.GetIndex k
    let b ← stb.GetIndex (m.get k)
    .ok (a, b)) (sortBy strLt (m.map (·.1)))

/-- internal/t/string_table_builder.go:71-86 -/
def Finalized.ToKeyVals (stb : Finalized) (m : TagMap) : Res (List UInt32 × List UInt32) := do
  let ps ← stb.pairs m
  .ok (ps.map (·.1), ps.map (·.2))

/-- internal/t/string_table_builder.go:88-102 -/
def Finalized.ToKeyValLinear (stb : Finalized) (m : TagMap) : Res (List Int32) := do
  let ps ← stb.pairs m
  .ok (ps.flatMap fun p => [p.1.toInt32, p.2.toInt32])

/-! ## primitive_block_nodes.go -/

/-- internal/t/primitive_block_nodes.go:5-10 -/
structure HLNode where
  Id : UInt64
  Tags : TagMap
  Lat : Int64
  Lon : Int64
deriving DecidableEq, Repr

/-- internal/t/primitive_block_nodes.go:22-24, also primitive_block_ways.go:17-19 and
primitive_block_relations.go:21-23: `tags[GetString(k)] = GetString(vs[idx])`. -/
def PrimitiveBlock.makeTags (pblk : PrimitiveBlock) (ks vs : List UInt32) : Res TagMap :=
  go [] ks vs
where
  /-- The loop; a missing value is an index out of range. -/
  go (tags : TagMap) : List UInt32 → List UInt32 → Res TagMap
    | [], _ => .ok tags
    | k :: ks, vs => do
      let key ← pblk.GetString k
      let v ← Res.ofOption vs.head?
      let val ← pblk.GetString v
      go (tags.set key val) ks vs.tail

/-- internal/t/primitive_block_nodes.go:19-31, the loop over `i` in one dense section. The caches of
`GetKeyVals` are threaded through. -/
def PrimitiveBlock.denseNodes (pblk : PrimitiveBlock) (dn : DenseNodes) :
    KVCache → Nat → List Int64 → Res (List HLNode)
  | _, _, [] => .ok []
  | c, i, id :: ids => do
    let (kv, c) ← dn.GetKeyVals c i
    let tags ← pblk.makeTags kv.1 kv.2
    let lat ← Res.ofOption dn.Lat[i]?
    let lon ← Res.ofOption dn.Lon[i]?
    let rest ← pblk.denseNodes dn c (i + 1) ids
    .ok (⟨id.toUInt64, tags, pblk.LatOffset + pblk.Granularity.toInt64 * lat,
          pblk.LonOffset + pblk.Granularity.toInt64 * lon⟩ :: rest)

/-- One group of internal/t/primitive_block_nodes.go:17-34. -/
def PrimitiveBlock.groupNodes (pblk : PrimitiveBlock) (pg : T.PrimitiveGroup) : Res (List HLNode) :=
  match pg.Dense with
  | none => .ok []
  | some dn => pblk.denseNodes dn ⟨[], []⟩ 0 dn.Id

/-- internal/t/primitive_block_nodes.go:14-36. The caches are those of a block that was just parsed
or assembled, hence empty. -/
def PrimitiveBlock.ToNodes (pblk : PrimitiveBlock) : Res (List HLNode) := do
  let nss ← mapRes pblk.groupNodes pblk.PrimitiveGroup
  .ok nss.flatten

/-- internal/t/primitive_block_nodes.go:38-42 -/
def nodesAddTags (ns : List HLNode) (stb : Builder) : Builder :=
  ns.foldl (fun stb n => stb.AddMap n.Tags) stb

/-- The key/values of internal/t/primitive_block_nodes.go:51-57. -/
def nodesKeyVals (stb : Finalized) (ns : List HLNode) : Res (List Int32) := do
  let kvs ← mapRes (fun n : HLNode => stb.ToKeyValLinear n.Tags) ns
  .ok (kvs.flatMap fun kv => kv ++ [0])

/-- internal/t/primitive_block_nodes.go:44-68 (`/` on int64 truncates toward zero). -/
def nodesToPrimitiveGroup (stb : Finalized) (ns : List HLNode) : Res PrimitiveGroup := do
  let kv ← nodesKeyVals stb ns
  let kv := if kv.length = ns.length then [] else kv
  .ok { PrimitiveGroup.zero with
    Dense := some ⟨ns.map (·.Id.toInt64), ns.map (·.Lat / 100), ns.map (·.Lon / 100), kv⟩ }

/-! ## primitive_block_ways.go -/

/-- internal/t/primitive_block_ways.go:3-7 -/
structure HLWay where
  Id : Int64
  Tags : TagMap
  Nodes : List UInt64
deriving DecidableEq, Repr

/-- internal/t/primitive_block_ways.go:16-28 -/
def PrimitiveBlock.toHLWay (pblk : PrimitiveBlock) (w : Way) : Res HLWay := do
  let tags ← pblk.makeTags w.Keys w.Vals
  .ok ⟨w.ID, tags, w.Refs.map (·.toUInt64)⟩

/-- internal/t/primitive_block_ways.go:11-33 -/
def PrimitiveBlock.ToWays (pblk : PrimitiveBlock) : Res (List HLWay) := do
  let wss ← mapRes (fun pg : T.PrimitiveGroup => mapRes pblk.toHLWay pg.Ways) pblk.PrimitiveGroup
  .ok wss.flatten

/-- internal/t/primitive_block_ways.go:35-39 -/
def waysAddTags (ws : List HLWay) (stb : Builder) : Builder :=
  ws.foldl (fun stb w => stb.AddMap w.Tags) stb

/-- internal/t/primitive_block_ways.go:44-54 -/
def wayOfHL (stb : Finalized) (w : HLWay) : Res Way := do
  let kv ← stb.ToKeyVals w.Tags
  .ok ⟨w.Id, kv.1, kv.2, w.Nodes.map (·.toInt64)⟩

/-- internal/t/primitive_block_ways.go:41-59 -/
def waysToPrimitiveGroup (stb : Finalized) (ws : List HLWay) : Res PrimitiveGroup := do
  let nws ← mapRes (wayOfHL stb) ws
  .ok { PrimitiveGroup.zero with Ways := nws }

/-! ## primitive_block_relations.go -/

/-- internal/t/primitive_block_relations.go:5-11 (`MemberType []int`, 64-bit). -/
structure HLRelation where
  Id : Int64
  Tags : TagMap
  Roles : List GoStr
  Members : List Int64
  MemberType : List Int64
deriving DecidableEq, Repr

/-- internal/t/primitive_block_relations.go:20-40 -/
def PrimitiveBlock.toHLRelation (pblk : PrimitiveBlock) (r : Relation) : Res HLRelation := do
  let tags ← pblk.makeTags r.Keys r.Vals
  let roles ← mapRes (fun role : Int32 => pblk.GetString role.toUInt32) r.RolesSID
  .ok ⟨r.ID, tags, roles, r.MemIDs, r.MemberType.map (·.toInt64)⟩

/-- internal/t/primitive_block_relations.go:15-45 -/
def PrimitiveBlock.ToRelations (pblk : PrimitiveBlock) : Res (List HLRelation) := do
  let rss ← mapRes (fun pg : T.PrimitiveGroup => mapRes pblk.toHLRelation pg.Relations)
    pblk.PrimitiveGroup
  .ok rss.flatten

/-- internal/t/primitive_block_relations.go:47-54 -/
def relationsAddTags (rs : List HLRelation) (stb : Builder) : Builder :=
  rs.foldl (fun stb r => r.Roles.foldl Builder.AddString (stb.AddMap r.Tags)) stb

/-- internal/t/primitive_block_relations.go:59-77 -/
def relationOfHL (stb : Finalized) (r : HLRelation) : Res Relation := do
  let kv ← stb.ToKeyVals r.Tags
  let roles ← mapRes (fun role => do
    let i ← stb.GetIndex role
    .ok i.toInt32) r.Roles
  .ok ⟨r.Id, kv.1, kv.2, roles, r.Members, r.MemberType.map (·.toUInt64)⟩

/-- internal/t/primitive_block_relations.go:56-82 -/
def relationsToPrimitiveGroup (stb : Finalized) (rs : List HLRelation) : Res PrimitiveGroup := do
  let nrs ← mapRes (relationOfHL stb) rs
  .ok { PrimitiveGroup.zero with Relations := nrs }

/-! ## primitive_block.go -/

/-- internal/t/primitive_block.go:86-90 -/
def assembleStrings (ns : List HLNode) (ws : List HLWay) (rs : List HLRelation) : Finalized :=
  (relationsAddTags rs (waysAddTags ws (nodesAddTags ns NewStringTableBuilder))).Finalize

/-- `if len(xs) > 0 { groups = append(groups, f(xs)) }`, internal/t/primitive_block.go:101-109. -/
def groupIf {α : Type} (xs : List α) (f : List α → Res PrimitiveGroup) : Res (List PrimitiveGroup) :=
  if xs.length > 0 then do
    let g ← f xs
    .ok [g]
  else .ok []

/-- internal/t/primitive_block.go:85-111 -/
def MakePrimitiveBlock (ns : List HLNode) (ws : List HLWay) (rs : List HLRelation) :
    Res PrimitiveBlock := do
  let stb := assembleStrings ns ws rs
  let g1 ← groupIf ns (nodesToPrimitiveGroup stb)
  let g2 ← groupIf ws (waysToPrimitiveGroup stb)
  let g3 ← groupIf rs (relationsToPrimitiveGroup stb)
  .ok ⟨none, some stb.ToStringTable, g1 ++ g2 ++ g3, 100, 1000, 0, 0⟩

end Osm.T
