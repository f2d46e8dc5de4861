/-!
# Specification vocabulary for what is printed (C95)

How a text is read: numerals, lines, and the lines of the reports. These are relations between texts and what they say; they
do not say how a text is made, and they allow more than is printed (leading zeros, for instance).
-/

namespace Osm.Spec.Text

abbrev Text := List Char

/-- Decimal digits, at least one. -/
def Digits (t : Text) : Prop := t ≠ [] ∧ ∀ c ∈ t, c ∈ "0123456789".toList

/-- What a digit stands for, decimal or hexadecimal. -/
def digitValue (c : Char) : Nat := "0123456789abcdef".toList.idxOf c

/-- What digits stand for. -/
def positional (base : Nat) (t : Text) : Nat := t.foldl (fun n c => base * n + digitValue c) 0

/-- A decimal numeral, possibly with a minus sign. -/
inductive Numeral : Text → Int → Prop where
  | pos {t} : Digits t → Numeral t (positional 10 t)
  | neg {t} : Digits t → Numeral ('-' :: t) (-(positional 10 t : Int))

/-- A hexadecimal numeral. -/
inductive Hex : Text → Nat → Prop where
  | mk {t} : t ≠ [] → (∀ c ∈ t, c ∈ "0123456789abcdef".toList) → Hex t (positional 16 t)

/-- A decimal fraction with six digits after the point, in millionths. -/
inductive Millionths : Text → Int → Prop where
  | pos {a b} : Digits a → Digits b → b.length = 6 → Millionths (a ++ '.' :: b) (positional 10 (a ++ b))
  | neg {a b} : Digits a → Digits b → b.length = 6 → Millionths ('-' :: (a ++ '.' :: b)) (-(positional 10 (a ++ b) : Int))

/-- Numerals with single spaces between them. -/
inductive Numerals : Text → List Int → Prop where
  | none : Numerals [] []
  | one {t z} : Numeral t z → Numerals t [z]
  | more {t z s zs} : Numeral t z → Numerals s zs → zs ≠ [] → Numerals (t ++ ' ' :: s) (z :: zs)

/-- Lines, each of which says something. -/
inductive Lines {α : Type} (L : Text → α → Prop) : Text → List α → Prop where
  | nil : Lines L [] []
  | cons {t a rest as} : L t a → Lines L rest as → Lines L (t ++ '\n' :: rest) (a :: as)

/-- What a line of dumpwayindex says. -/
inductive WaySays where
  | way (id : Int) (locs : List Int)
  | missing (id : Int)
deriving DecidableEq

/-- `17 [1 2 3]` or `XX failed to find way 17`. -/
inductive WayLine : Text → WaySays → Prop where
  | way {t id s zs} : Numeral t id → Numerals s zs → WayLine (t ++ ' ' :: '[' :: (s ++ [']'])) (.way id zs)
  | missing {t id} : Numeral t id → WayLine ("XX failed to find way ".toList ++ t) (.missing id)

/-- What a line of dumpnodeindex says. Coordinates are in millionths of a degree. -/
inductive NodeSays where
  /-- Nothing is stored. -/
  | empty
  | stored (loc : Nat) (lng lat : Int) (first idx id : Int)
  | notFound
  | found (loc : Nat) (lng lat : Int)
  | mismatch
deriving DecidableEq

/-- `Extract: 1f (1.000000, -2.500000) [17+0=17]` and so on. -/
inductive NodeLine : Text → NodeSays → Prop where
  | empty : NodeLine "Extract: skip".toList .empty
  | stored {x loc a lng b lat c first d idx e id} : Hex x loc → Millionths a lng → Millionths b lat → Numeral c first →
      Numeral d idx → Numeral e id →
      NodeLine ("Extract: ".toList ++ (x ++ ' ' :: '(' :: (a ++ ',' :: ' ' :: (b ++ ')' :: ' ' :: '[' :: (c ++ '+' ::
        (d ++ '=' :: (e ++ [']']))))))) (.stored loc lng lat first idx id)
  | notFound : NodeLine " Search: skip".toList .notFound
  | found {x loc a lng b lat} : Hex x loc → Millionths a lng → Millionths b lat →
      NodeLine (" Search: ".toList ++ (x ++ ' ' :: '(' :: (a ++ ',' :: ' ' :: (b ++ [')'])))) (.found loc lng lat)
  | mismatch : NodeLine "XX MISMATCH!".toList .mismatch

/-- What entitycount says. -/
structure Counts where
  blocks : Int
  nodes : Int
  maxNode : Int
  ways : Int
  maxWay : Int
  refs : Int
  maxRefs : Int
  relations : Int
  maxRelation : Int
deriving DecidableEq

/-- `before number after` -/
def Says (before after : String) (t : Text) (z : Int) : Prop :=
  ∃ n, Numeral n z ∧ t = before.toList ++ (n ++ after.toList)

/-- `before number middle number after` -/
def SaysTwo (before middle after : String) (t : Text) (y z : Int) : Prop :=
  ∃ m n, Numeral m y ∧ Numeral n z ∧ t = before.toList ++ (m ++ middle.toList ++ (n ++ after.toList))

/-- The report of entitycount. -/
def CountReport (t : Text) (c : Counts) : Prop :=
  ∃ t1 t2 t3 t4 t5, t = t1 ++ '\n' :: (t2 ++ '\n' :: (t3 ++ '\n' :: (t4 ++ '\n' :: (t5 ++ ['\n'])))) ∧
    Says "Counted " " blocks" t1 c.blocks ∧
    SaysTwo "Counted " " nodes, " " max" t2 c.nodes c.maxNode ∧
    SaysTwo "Counted " " ways, " " max" t3 c.ways c.maxWay ∧
    SaysTwo "Counted " " ways refs, " " maximum length" t4 c.refs c.maxRefs ∧
    SaysTwo "Counted " " relations, " " max" t5 c.relations c.maxRelation

/-- A bucket of the timing of lookups, with the number of lookups in it; `bounds` is what the line says about its bounds. -/
inductive TimeLine : Text → Int × Int → Prop where
  | mk {n i bounds m count} : Numeral n i → ' ' ∉ bounds → '\n' ∉ bounds → Numeral m count →
      TimeLine ("time: ".toList ++ (n ++ ' ' :: (bounds ++ ' ' :: '=' :: ' ' :: m))) (i, count)

/-- The statistics of an index: hits at the hint, other hits, misses, deferred misses, and the buckets. -/
def StatsReport (t : Text) (hitHint hitDefault missDefault missDeferred : Int) (buckets : List (Int × Int)) : Prop :=
  ∃ t1 t2 t3 t4 rest, t = t1 ++ '\n' :: (t2 ++ '\n' :: (t3 ++ '\n' :: (t4 ++ '\n' :: rest))) ∧
    Says "hitHint:      " "" t1 hitHint ∧ Says "hitDefault:   " "" t2 hitDefault ∧
    Says "missDefault:  " "" t3 missDefault ∧ Says "missDeferred: " "" t4 missDeferred ∧ Lines TimeLine rest buckets

end Osm.Spec.Text
