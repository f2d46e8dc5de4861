import Verif.Spec.Text
import Verif.Spec.Find

/-!
# Specification vocabulary for what entityfind prints (C97)

How a line is read: as the Go expression that it is.
-/

namespace Osm.Spec.Text
open Osm Osm.T

/-- A piece of a string between quotes, and the bytes that it stands for. -/
inductive Piece : Text → List UInt8 → Prop where
  | plain {c} : c ≠ '"' → c ≠ '\\' → c ≠ '\n' → Piece [c] (String.utf8EncodeChar c)
  | escape {c b} : (c, b) ∈ [('"', 34), ('\\', 92), ('a', 7), ('b', 8), ('t', 9), ('n', 10), ('v', 11), ('f', 12), ('r', 13)] →
      Piece ['\\', c] [b]
  | byte {h b} : Hex h b.toNat → h.length = 2 → Piece ('\\' :: 'x' :: h) [b]
  | short {h c} : Hex h c.toNat → h.length = 4 → Piece ('\\' :: 'u' :: h) (String.utf8EncodeChar c)
  | long {h c} : Hex h c.toNat → h.length = 8 → Piece ('\\' :: 'U' :: h) (String.utf8EncodeChar c)

/-- The pieces of a string. -/
inductive Pieces : Text → List UInt8 → Prop where
  | nil : Pieces [] []
  | cons {t b u s} : Piece t b → Pieces u s → Pieces (t ++ u) (b ++ s)

/-- A string with its quotes. -/
inductive Quoted : Text → List UInt8 → Prop where
  | mk {t s} : Pieces t s → Quoted ('"' :: (t ++ ['"'])) s

/-- Things with a comma and a space between them. -/
inductive Listed {α : Type} (R : Text → α → Prop) : Text → List α → Prop where
  | nil : Listed R [] []
  | one {t a} : R t a → Listed R t [a]
  | more {t a s b bs} : R t a → Listed R s (b :: bs) → Listed R (t ++ ',' :: ' ' :: s) (a :: b :: bs)

/-- `0x1f` -/
inductive HexLit : Text → Nat → Prop where
  | mk {t n} : Hex t n → HexLit ('0' :: 'x' :: t) n

/-- `"key":"value"` -/
inductive Pair : Text → GoStr × GoStr → Prop where
  | mk {t k u v} : Quoted t k → Quoted u v → Pair (t ++ ':' :: u) (k, v)

/-- What a line of entityfind says. -/
inductive EntitySays where
  | node (id : Nat) (tags : List (GoStr × GoStr)) (lat lon : Int)
  | way (id : Int) (tags : List (GoStr × GoStr)) (nodes : List Nat)
  | relation (id : Int) (tags : List (GoStr × GoStr)) (roles : List GoStr) (members types : List Int)

/-- `&t.HLWay{Id:17, Tags:map[string]string{"a":"b", "c":"d"}, Nodes:[]t.NodeId{0x1, 0x2}}` and so on. -/
inductive EntityLine : Text → EntitySays → Prop where
  | node {a id b tags c lat d lon} : HexLit a id → Listed Pair b tags → Numeral c lat → Numeral d lon →
      EntityLine ("&t.HLNode{Id:".toList ++ (a ++ (", Tags:map[string]string{".toList ++ (b ++ ("}, Lat:".toList ++ (c ++
        (", Lon:".toList ++ (d ++ "}".toList)))))))) (.node id tags lat lon)
  | way {a id b tags c ns} : Numeral a id → Listed Pair b tags → Listed HexLit c ns →
      EntityLine ("&t.HLWay{Id:".toList ++ (a ++ (", Tags:map[string]string{".toList ++ (b ++ ("}, Nodes:[]t.NodeId{".toList ++
        (c ++ "}}".toList)))))) (.way id tags ns)
  | relation {a id b tags c roles d ms e ts} : Numeral a id → Listed Pair b tags → Listed Quoted c roles →
      Listed Numeral d ms → Listed Numeral e ts →
      EntityLine ("&t.HLRelation{Id:".toList ++ (a ++ (", Tags:map[string]string{".toList ++ (b ++ ("}, Roles:[]string{".toList ++
        (c ++ ("}, Members:[]int64{".toList ++ (d ++ ("}, MemberType:[]int{".toList ++ (e ++ "}}".toList))))))))))
        (.relation id tags roles ms ts)

/-- The tags that are listed are those of an entity, with the keys in ascending order. -/
def TagsListed (m : TagMap) (ps : List (GoStr × GoStr)) : Prop := ps.Perm m ∧ ps.Pairwise fun p q => p.1 ≤ q.1

/-- What is said of an entity is true, and complete. -/
inductive Describes : Find.Entity → EntitySays → Prop where
  | node {n : HLNode} {tags} : TagsListed n.Tags tags → Describes (.node n) (.node n.Id.toNat tags n.Lat.toInt n.Lon.toInt)
  | way {w : HLWay} {tags} : TagsListed w.Tags tags → Describes (.way w) (.way w.Id.toInt tags (w.Nodes.map (·.toNat)))
  | relation {r : HLRelation} {tags} : TagsListed r.Tags tags →
      Describes (.relation r) (.relation r.Id.toInt tags r.Roles (r.Members.map (·.toInt)) (r.MemberType.map (·.toInt)))

/-- The same entity, but for the order in which its tags are stored. -/
inductive SameEntity : Find.Entity → Find.Entity → Prop where
  | node {n m : HLNode} : n.Id = m.Id → n.Tags.Perm m.Tags → n.Lat = m.Lat → n.Lon = m.Lon → SameEntity (.node n) (.node m)
  | way {n m : HLWay} : n.Id = m.Id → n.Tags.Perm m.Tags → n.Nodes = m.Nodes → SameEntity (.way n) (.way m)
  | relation {n m : HLRelation} : n.Id = m.Id → n.Tags.Perm m.Tags → n.Roles = m.Roles → n.Members = m.Members →
      n.MemberType = m.MemberType → SameEntity (.relation n) (.relation m)

/-- The tags of an entity. -/
def tagsOf : Find.Entity → TagMap
  | .node n => n.Tags
  | .way w => w.Tags
  | .relation r => r.Tags

end Osm.Spec.Text
