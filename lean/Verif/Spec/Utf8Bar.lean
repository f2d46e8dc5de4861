import Verif.Spec.Ui

/-!
# Specification of lines with any characters (C99)

How Go makes characters of bytes (`[]rune(s)`), and what `SetMarkup` of tcell does with them.
-/

namespace Osm.Spec

/-- The bytes of a text. -/
def utf8 (t : List Char) : List UInt8 := t.flatMap String.utf8EncodeChar

/-- The character at the start, if there is a valid one. -/
def firstChar (s : List UInt8) : Option Char := s.toByteArray.utf8DecodeChar? 0

/-- What is shown for a byte that is not part of a character. -/
def garbage : Char := '\uFFFD'

/-- `[]rune(s)`; `skip` is the number of bytes that belong to the character before. -/
def runes : Nat → List UInt8 → List Char
  | _, [] => []
  | skip + 1, _ :: s => runes skip s
  | 0, b :: s =>
    match firstChar (b :: s) with
    | none => garbage :: runes 0 s
    | some c => c :: runes (c.utf8Size - 1) s

/-- The characters shown, each with the letter of its style, starting in style `st`. -/
def shownRunes (st : Char) : List Char → List (Char × Char)
  | [] => []
  | [c] => if c = '%' then [] else [(st, c)]
  | c :: d :: rest =>
    if c = '%' then
      if d = '%' then (st, d) :: shownRunes st rest else shownRunes d rest
    else (st, c) :: shownRunes st (d :: rest)

/-- What is on the screen for the bytes given to `SetMarkup`. -/
def onScreen (s : List UInt8) : List (Char × Char) := shownRunes 'N' (runes 0 s)

/-- A text filled up with spaces until it has `w` bytes. -/
def widened (t : List Char) (w : Nat) : List Char := t ++ List.replicate (w - (utf8 t).length) ' '

end Osm.Spec
