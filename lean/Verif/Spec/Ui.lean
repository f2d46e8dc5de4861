/-!
# Specification of the markup of tcell's `SimpleStyledText.SetMarkup`

From its documentation: `%%` emits a single `%` in the current style, `%` and another letter changes the style.
Here for text of one byte per character.
-/

namespace Osm.Spec

/-- The characters shown, each with the letter of its style, starting in style `st`. -/
def shown (st : UInt8) : List UInt8 → List (UInt8 × UInt8)
  | [] => []
  | [c] => if c = '%'.toUInt8 then [] else [(st, c)]
  | c :: d :: rest =>
    if c = '%'.toUInt8 then
      if d = '%'.toUInt8 then (st, d) :: shown st rest else shown d rest
    else (st, c) :: shown st (d :: rest)

/-- The text shown, without styles. -/
def shownText (s : List UInt8) : List UInt8 := (shown 'N'.toUInt8 s).map (·.2)

/-- The text filled up with spaces to the width. -/
def filled (s : List UInt8) (w : Nat) : List UInt8 := s ++ List.replicate (w - s.length) ' '.toUInt8

end Osm.Spec
