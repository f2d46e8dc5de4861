import Verif.Lemmas.Fs
import Verif.Model.Iunsafe

/-! # Views of memory -/

namespace Osm.Iunsafe
open Osm

theorem le64_leWord (b0 b1 b2 b3 b4 b5 b6 b7 : UInt8) :
    le64 (leWord b0 b1 b2 b3 b4 b5 b6 b7) = [b0, b1, b2, b3, b4, b5, b6, b7] := by
  unfold le64 leWord
  simp only [List.cons.injEq, and_true]
  refine ⟨?_, ?_, ?_, ?_, ?_, ?_, ?_, ?_⟩ <;>
  · apply UInt8.toBitVec_inj.1
    apply BitVec.eq_of_getLsbD_eq
    intro i hi
    have : i = 0 ∨ i = 1 ∨ i = 2 ∨ i = 3 ∨ i = 4 ∨ i = 5 ∨ i = 6 ∨ i = 7 := by omega
    rcases this with rfl | rfl | rfl | rfl | rfl | rfl | rfl | rfl <;> simp

/-- The `n` bytes at an address. -/
def span (mem : Memory) (a n : Nat) : List UInt8 := (List.range n).map fun i => mem (a + i)

theorem span_length (mem : Memory) (a n : Nat) : (span mem a n).length = n := by simp [span]

theorem span_add (mem : Memory) (a m n : Nat) : span mem a (m + n) = span mem a m ++ span mem (a + m) n := by
  unfold span
  rw [List.range_add, List.map_append, List.map_map]
  congr 1
  apply List.map_congr_left
  intro i _
  simp only [Function.comp]
  rw [Nat.add_assoc]

theorem span_take (mem : Memory) (a m n : Nat) (h : m ≤ n) : (span mem a n).take m = span mem a m := by
  obtain ⟨k, rfl⟩ := Nat.exists_eq_add_of_le h
  rw [span_add, List.take_left' (span_length mem a m)]

theorem bytes_eq (mem : Memory) (h : SliceHeader) : bytes mem h = span mem h.Data h.Len := rfl

theorem elements_eq (mem : Memory) (size : Nat) (h : SliceHeader) :
    elements mem size h = (List.range h.Len).map fun i => span mem (h.Data + i * size) size := rfl

theorem elements_flatten (mem : Memory) (size : Nat) (a : Nat) : ∀ n : Nat,
    ((List.range n).map fun i => span mem (a + i * size) size).flatten = span mem a (n * size) := by
  intro n
  induction n with
  | zero => simp [span]
  | succ n ih =>
    rw [List.range_succ, List.map_append, List.flatten_append, ih, Nat.succ_mul, span_add]
    simp

theorem leWord_span (mem : Memory) (a : Nat) :
    le64 (leWord (mem a) (mem (a + 1)) (mem (a + 2)) (mem (a + 3)) (mem (a + 4)) (mem (a + 5)) (mem (a + 6)) (mem (a + 7)))
      = span mem a 8 := by
  rw [le64_leWord]
  rfl

theorem words_bytes (mem : Memory) (h : SliceHeader) : bytesOf (words mem h) = span mem h.Data (h.Len * 8) := by
  rw [← elements_flatten]
  unfold bytesOf words
  rw [List.flatMap_def, List.map_map]
  congr 1
  apply List.map_congr_left
  intro i _
  simp only [Function.comp]
  rw [leWord_span]

/-- The values of the bytes as words are the words in memory. -/
theorem wordsOf_bytes (mem : Memory) (h : SliceHeader) :
    wordsOf (bytes mem h) = words mem (ByteSliceAsInt64Slice h) := by
  have e : bytes mem h = bytesOf (words mem (ByteSliceAsInt64Slice h)) ++ span mem (h.Data + h.Len / 8 * 8) (h.Len % 8) := by
    rw [words_bytes, bytes_eq]
    show span mem h.Data h.Len = span mem h.Data (h.Len / 8 * 8) ++ _
    rw [← span_add, show h.Len / 8 * 8 + h.Len % 8 = h.Len by omega]
  rw [e, wordsOf_bytesOf _ _ (by rw [span_length]; omega)]

end Osm.Iunsafe
