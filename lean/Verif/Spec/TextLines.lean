import Verif.Spec.Text
import Verif.Spec.Display
import Verif.Spec.Progress
import Mathlib.Algebra.Order.Field.Rat

/-!
# Specification vocabulary for the lines on the screen (C98)

How a line is read: as one of a few forms with numbers in them.
-/

namespace Osm.Spec.Text
open Osm Osm.Display

/-- A percentage with one digit after the point, in tenths, or none. -/
inductive Percentage : Text → Option Int → Prop where
  | tenths {a b} : Digits a → Digits b → b.length = 1 → Percentage (a ++ '.' :: b) (some (positional 10 (a ++ b)))
  | none : Percentage "NaN".toList none

/-- A part of a line: words, a number, or a percentage. -/
inductive Part where
  | words (t : Text)
  | number
  | percentage

/-- A text has the form; the numbers in it. -/
inductive Fills : List Part → Text → List (Option Int) → Prop where
  | nil : Fills [] [] []
  | words {w ps t zs} : Fills ps t zs → Fills (.words w :: ps) (w ++ t) zs
  | number {n z ps t zs} : Numeral n z → Fills ps t zs → Fills (.number :: ps) (n ++ t) (some z :: zs)
  | percentage {n z ps t zs} : Percentage n z → Fills ps t zs → Fills (.percentage :: ps) (n ++ t) (z :: zs)

/-- A form, and what it says is being done. -/
structure Form where
  what : What
  parts : List Part

/-- Just words. -/
def plain (what : What) (words : String) : Form := ⟨what, [.words words.toList]⟩

/-- Words and the number of a block. -/
def withBlock (what : What) (words : String) : Form := ⟨what, [.words words.toList, .number]⟩

/-- A text can be read as one of the forms: what is done, and the numbers. -/
inductive Reads (fs : List Form) : Text → What → List (Option Int) → Prop where
  | mk {f t zs} : f ∈ fs → Fills f.parts t zs → Reads fs t f.what zs

/-- nodeindex, wayindex, relindex -/
def indexWorkerForms : List Form :=
  [plain .waiting "Worker: waiting for block", withBlock .decoding "Worker: decoding block ",
    withBlock .processing "Worker: processing block ", withBlock .sending "Worker: sending block "]

def decompressWorkerForms : List Form :=
  [plain .waiting "Worker: waiting for block", withBlock .decoding "Worker: decoding blob ",
    withBlock .decompressing "Worker: decompressing blob ", withBlock .encoding "Worker: encoding blob ",
    withBlock .sending "Worker: sending block "]

/-- Words, the number of a block, nodes kept, nodes dropped. -/
def withKept (what : What) (words : String) : Form :=
  ⟨what, [.words words.toList, .number, .words ", ".toList, .number, .words " kept, ".toList, .number, .words " dropped".toList]⟩

def tagfilterWorkerForms : List Form :=
  [plain .waiting "Worker: waiting for block", withKept .decoding "Worker: decoding block ",
    withKept .processing "Worker: processing block ", withKept .encoding "Worker: encoding block ",
    withKept .sending "Worker: sending block "]

/-- A block, a way of it, and how many there are. -/
def rewriteWorkerForms : List Form :=
  [plain .waiting "Worker: waiting for block", withBlock .decoding "Worker: decoding block ",
    ⟨.processing, [.words "Worker: working on block ".toList, .number, .words ", way ".toList, .number, .words "/".toList, .number]⟩,
    withBlock .sending "Worker: sending block "]

/-- decompress, rewritenodes -/
def blockWriterForms : List Form := [plain .waiting "Writer: waiting for block", withBlock .writing "Writer: writing block "]

def relWriterForms : List Form := [plain .waiting "Writer: waiting for block", withBlock .writing "Writer: writing index block "]

/-- Blocks dropped, and another number. -/
def tagfilterWriterForms : List Form :=
  [⟨.waiting, [.words "Writer: waiting for block, dropped ".toList, .number, .words "/".toList, .number, .words " blocks".toList]⟩,
    ⟨.writing, [.words "Writer: writing block, dropped ".toList, .number, .words "/".toList, .number, .words " blocks".toList]⟩]

/-- nodeindex, wayindex; the bytes copied, how many there are, and their share. -/
def indexWriterForms : List Form :=
  [plain .waiting "Writer: waiting for block", withBlock .writing "Writer: writing index block ",
    plain .writingLocations "Writer: writing locations",
    ⟨.copying, [.words "Writer: copying locations (".toList, .number, .words "/".toList, .number, .words ") ".toList, .percentage,
      .words "%".toList]⟩,
    plain .finalizing "Writer: finalizing index"]

/-- What can be said about the file that is read: waiting is initializing, decoding is loading a block, sending is sending one,
finalizing is shutting down. -/
def fileForms (pre : Text) : List Form :=
  [⟨.waiting, [.words pre, .words "initializing".toList]⟩,
    ⟨.decoding, [.words pre, .words "loading block ".toList, .number, .words "/".toList, .number, .words " ".toList, .percentage,
      .words "%".toList]⟩,
    ⟨.sending, [.words pre, .words "sending block ".toList, .number, .words "/".toList, .number, .words " ".toList, .percentage,
      .words "%".toList]⟩,
    ⟨.finalizing, [.words pre, .words "shutting down".toList]⟩]

/-- Whenever and however long a redraw takes, it shows a line that can be read; and however it is read, at the moment the redraw
looked at the state that was being done; the first number, if there is one, is that of a block that was in hand at some moment
while the redraw was going on. -/
def TruthfulText (es : List Event) (text : (Nat → Mem) → Option Text) (fs : List Form) : Prop :=
  ∀ τ, Ordered τ → ∃ t, text (seen es τ) = some t ∧ (∃ what zs, Reads fs t what zs) ∧
    ∀ what zs, Reads fs t what zs → ∃ i, Spec.Says es (τ 0) what i ∧
      ∀ z, zs.head? = some z → (∃ b, received es (τ 0) = some b ∧ i = some b.index) ∧
        ∃ t b, τ 0 ≤ t ∧ t ≤ τ 3 ∧ received es t = some b ∧ z = some (b.index.toNat : Int)

/-- What the percentage says: nothing when there is nothing to do, otherwise the share in tenths of a percent, to the nearest one (or,
when it is all but half way between two, perhaps the other one). -/
def SaysShare (a m : Nat) (z : Option Int) : Prop :=
  (m = 0 → z = none) ∧ (m ≠ 0 → ∃ k, z = some k ∧ 0 ≤ k ∧ k ≤ 1000 ∧
    |(k : Rat) - 1000 * Spec.fileShare a m| ≤ 1 / 2 + 1 / 2 ^ 39)

/-- The bytes of a text without other characters than those of ASCII. -/
def bytes (t : Text) : List UInt8 := t.map fun c => UInt8.ofNat c.toNat

end Osm.Spec.Text
