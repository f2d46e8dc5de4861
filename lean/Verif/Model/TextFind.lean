import Verif.Model.Text
import Verif.Model.Find

/-!
# Model of the text that cmd/entityfind prints

`fmt.Printf("%#v\n", …)` of a pointer to a struct, as the documentation of packages `fmt` and `strconv` says: an unsigned
number as `0x1f`, a signed one in decimal, a map with its keys in ascending order, a string as by `strconv.Quote`. Which
characters `strconv.IsPrint` accepts is a parameter. Text is a list of characters, written in UTF-8.
-/

namespace Osm.TextFind
open Osm Osm.T Osm.Text

/-- `strconv.IsPrint`, which does not accept a newline; whether U+007F is written as `\x7f` (newer versions of Go) or
`\u007f`. -/
structure Printing where
  isPrint : Char → Bool
  newline : isPrint '\n' = false
  newer : Bool

/-- The lowest `k` hexadecimal digits. -/
def hexDigits : Nat → Nat → Text
  | 0, _ => []
  | k + 1, n => hexDigits k (n / 16) ++ [(n % 16).digitChar]

/-- `strconv.appendEscapedRune` with `quote = '"'`. -/
def escaped (P : Printing) (c : Char) : Text :=
  if c = '"' ∨ c = '\\' then ['\\', c]
  else if P.isPrint c then [c]
  else if c.toNat = 7 then ['\\', 'a']
  else if c.toNat = 8 then ['\\', 'b']
  else if c.toNat = 12 then ['\\', 'f']
  else if c.toNat = 10 then ['\\', 'n']
  else if c.toNat = 13 then ['\\', 'r']
  else if c.toNat = 9 then ['\\', 't']
  else if c.toNat = 11 then ['\\', 'v']
  else if c.toNat < 32 ∨ (c.toNat = 127 ∧ P.newer = true) then '\\' :: 'x' :: hexDigits 2 c.toNat
  else if c.toNat < 65536 then '\\' :: 'u' :: hexDigits 4 c.toNat
  else '\\' :: 'U' :: hexDigits 8 c.toNat

/-- `utf8.DecodeRuneInString`; nothing if there is no valid encoding of a character at the start. -/
def decodeRune (s : List UInt8) : Option Char := s.toByteArray.utf8DecodeChar? 0

/-- The loop of `strconv.appendQuotedWith`; `skip` is the number of bytes that belong to the character already written. -/
def quotedBytes (P : Printing) : Nat → List UInt8 → Text
  | _, [] => []
  | skip + 1, _ :: s => quotedBytes P skip s
  | 0, b :: s =>
    match decodeRune (b :: s) with
    | none => '\\' :: 'x' :: (hexDigits 2 b.toNat ++ quotedBytes P 0 s)
    | some c => escaped P c ++ quotedBytes P (c.utf8Size - 1) s

/-- `strconv.Quote` -/
def quote (P : Printing) (s : GoStr) : Text := '"' :: (quotedBytes P 0 s ++ ['"'])

/-- `%#v` of the elements of a slice or map. -/
def commas : List Text → Text
  | [] => []
  | [t] => t
  | t :: ts => t ++ ", ".toList ++ commas ts

/-- `%#v` of an unsigned number. -/
def sharpX (n : UInt64) : Text := "0x".toList ++ fmtX n

/-- The order of `internal/fmtsort` for strings. -/
def keyLe (a b : GoStr × GoStr) : Bool := decide (a.1 ≤ b.1)

/-- `%#v` of a `map[string]string`. -/
def sharpMap (P : Printing) (m : TagMap) : Text :=
  "map[string]string{".toList ++ commas ((m.mergeSort keyLe).map fun p => quote P p.1 ++ ':' :: quote P p.2) ++ "}".toList

/-- The lines of cmd/entityfind/entityfind.go:46, 53, 60: the structs are internal/t/primitive_block_nodes.go:5-10,
primitive_block_ways.go:3-7 and primitive_block_relations.go:5-11. None of their slices and maps is nil. -/
def entityLine (P : Printing) : Find.Entity → Text
  | .node n => "&t.HLNode{Id:".toList ++ sharpX n.Id ++ ", Tags:".toList ++ sharpMap P n.Tags ++ ", Lat:".toList ++
      fmtD n.Lat.toInt ++ ", Lon:".toList ++ fmtD n.Lon.toInt ++ "}\n".toList
  | .way w => "&t.HLWay{Id:".toList ++ fmtD w.Id.toInt ++ ", Tags:".toList ++ sharpMap P w.Tags ++ ", Nodes:[]t.NodeId{".toList ++
      commas (w.Nodes.map sharpX) ++ "}}\n".toList
  | .relation r => "&t.HLRelation{Id:".toList ++ fmtD r.Id.toInt ++ ", Tags:".toList ++ sharpMap P r.Tags ++
      ", Roles:[]string{".toList ++ commas (r.Roles.map (quote P)) ++ "}, Members:[]int64{".toList ++
      commas (r.Members.map fun m => fmtD m.toInt) ++ "}, MemberType:[]int{".toList ++
      commas (r.MemberType.map fun m => fmtD m.toInt) ++ "}}\n".toList

/-- What is on the standard output. -/
def findText (P : Printing) (es : List Find.Entity) : Text := es.flatMap (entityLine P)

end Osm.TextFind
