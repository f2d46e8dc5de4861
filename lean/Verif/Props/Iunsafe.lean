import Verif.Lemmas.Iunsafe

/-! # Reinterpreting slices (C68)

Everything here holds for every content of the memory, so also after writes through one of the views: they alias. -/

namespace Osm.Props
open Osm Osm.Iunsafe

/-- C68: bytes seen as words: there are `len / 8` of them, the bytes of which are the bytes of the slice but for the
`len % 8` last ones; and appending to the result stays within the capacity of the slice. -/
theorem C68_to_words (mem : Memory) (h : SliceHeader) :
    let w := Iunsafe.ByteSliceAsInt64Slice h
    (words mem w).length = h.Len / 8 ∧ ((words mem w).map le64).flatten = (bytes mem h).take (h.Len - h.Len % 8) ∧
    w.Data = h.Data ∧ 8 * w.Cap ≤ h.Cap := by
  dsimp only
  refine ⟨?_, ?_, rfl, ?_⟩
  · unfold words Iunsafe.ByteSliceAsInt64Slice; simp
  · rw [← List.flatMap_def]
    show bytesOf _ = _
    rw [words_bytes, bytes_eq, span_take _ _ _ _ (by omega)]
    show span mem h.Data (h.Len / 8 * 8) = _
    rw [show h.Len / 8 * 8 = h.Len - h.Len % 8 by omega]
  · unfold Iunsafe.ByteSliceAsInt64Slice; dsimp only; omega

/-- C68: words seen as bytes are the bytes of the words, eight for each, in little-endian order. -/
theorem C68_to_bytes (mem : Memory) (h : SliceHeader) :
    bytes mem (Iunsafe.Int64SliceAsByteSlice h) = ((words mem h).map le64).flatten ∧
    bytes mem (Iunsafe.Uint64SliceAsByteSlice h) = ((words mem h).map le64).flatten ∧
    (bytes mem (Iunsafe.Int64SliceAsByteSlice h)).length = 8 * h.Len := by
  have hw : ((words mem h).map le64).flatten = span mem h.Data (h.Len * 8) := by
    rw [← List.flatMap_def]
    exact words_bytes mem h
  rw [hw]
  refine ⟨rfl, rfl, ?_⟩
  rw [bytes_eq, span_length]
  show h.Len * 8 = _
  omega

/-- C68: from words to bytes and back is the same slice; from bytes to words and back drops the partial word. -/
theorem C68_round_trip (mem : Memory) (h : SliceHeader) :
    Iunsafe.ByteSliceAsInt64Slice (Iunsafe.Int64SliceAsByteSlice h) = h ∧
    Iunsafe.ByteSliceAsInt64Slice (Iunsafe.Uint64SliceAsByteSlice h) = h ∧
    bytes mem (Iunsafe.Int64SliceAsByteSlice (Iunsafe.ByteSliceAsInt64Slice h)) =
      (bytes mem h).take (h.Len - h.Len % 8) := by
  refine ⟨?_, ?_, ?_⟩
  · unfold Iunsafe.ByteSliceAsInt64Slice Iunsafe.Int64SliceAsByteSlice
    cases h
    simp
  · unfold Iunsafe.ByteSliceAsInt64Slice Iunsafe.Uint64SliceAsByteSlice
    cases h
    simp
  · rw [bytes_eq, bytes_eq, span_take _ _ _ _ (by omega)]
    show span mem h.Data (h.Len / 8 * 8) = _
    rw [show h.Len / 8 * 8 = h.Len - h.Len % 8 by omega]

/-- C68: bytes seen as elements of any size: there are `len / size` of them, each of `size` bytes, together the bytes of the
slice but for the `len % size` last ones. It panics exactly for what is no pointer to a slice, and for elements without
size. -/
theorem C68_elements (mem : Memory) (h : SliceHeader) (size : Nat) (hs : size ≠ 0) :
    ∃ e, Iunsafe.ByteSliceAsArbSlice h (.ptrSlice size) = .ok e ∧
      (elements mem size e).length = h.Len / size ∧ (∀ x ∈ elements mem size e, x.length = size) ∧
      (elements mem size e).flatten = (bytes mem h).take (h.Len - h.Len % size) := by
  refine ⟨⟨h.Data, h.Len / size, h.Len / size⟩, ?_, ?_, ?_, ?_⟩
  · unfold Iunsafe.ByteSliceAsArbSlice
    dsimp only
    rw [if_neg hs]
  · rw [elements_eq]; simp
  · intro x hx
    rw [elements_eq, List.mem_map] at hx
    obtain ⟨i, -, rfl⟩ := hx
    exact span_length _ _ _
  · rw [elements_eq, elements_flatten, bytes_eq, span_take _ _ _ _ (by omega)]
    have := Nat.div_add_mod h.Len size
    dsimp only
    rw [show h.Len / size * size = h.Len - h.Len % size by rw [Nat.mul_comm]; omega]

/-- C68: the misuses. -/
theorem C68_panics (h : SliceHeader) :
    Iunsafe.ByteSliceAsArbSlice h .notPtr = .panic ∧ Iunsafe.ByteSliceAsArbSlice h .ptrOther = .panic ∧
    Iunsafe.ByteSliceAsArbSlice h (.ptrSlice 0) = .panic := ⟨rfl, rfl, rfl⟩

/-- C68: appending to a slice of elements never changes memory in which the bytes are (nor any other in use): it moves. And
the elements are the old ones and the new one. -/
theorem C68_append (mem : Memory) (h : SliceHeader) (size : Nat) (hs : size ≠ 0) (e : SliceHeader)
    (he : Iunsafe.ByteSliceAsArbSlice h (.ptrSlice size) = .ok e) (x : List UInt8) (hx : x.length = size) (fresh : Nat)
    (inUse : Nat → Prop) (hf : ∀ a, inUse a → a < fresh ∨ fresh + (e.Len + 1) * size ≤ a)
    (hu : ∀ i, i < h.Len → inUse (h.Data + i)) :
    let r := Iunsafe.append mem size e x fresh
    (∀ a, inUse a → r.1 a = mem a) ∧ bytes r.1 h = bytes mem h ∧
    elements r.1 size r.2 = elements mem size e ++ [x] ∧ r.2.Len ≤ r.2.Cap := by
  unfold Iunsafe.ByteSliceAsArbSlice at he
  dsimp only at he
  rw [if_neg hs, Res.ok.injEq] at he
  subst he
  dsimp only at hf ⊢
  have hdm := Nat.div_add_mod h.Len size
  have hmul : h.Len / size * size ≤ h.Len := Nat.div_mul_le_self _ _
  generalize hn : h.Len / size = n at *
  have hsucc : (n + 1) * size = n * size + size := Nat.succ_mul n size
  unfold Iunsafe.append
  dsimp only
  rw [if_neg (by omega)]
  dsimp only
  refine ⟨?_, ?_, ?_, Nat.le_refl _⟩
  · intro a ha
    have := hf a ha
    rw [if_neg (by omega), if_neg (by omega)]
  · unfold bytes
    apply List.map_congr_left
    intro i hi
    have := hf _ (hu i (List.mem_range.1 hi))
    dsimp only
    rw [if_neg (by omega), if_neg (by omega)]
  · unfold elements
    dsimp only
    rw [List.range_succ, List.map_append]
    congr 1
    · apply List.map_congr_left
      intro i hi
      apply List.map_congr_left
      intro j hj
      have hi := List.mem_range.1 hi
      have hj := List.mem_range.1 hj
      have h1 : i * size + size ≤ n * size := by
        rw [← Nat.succ_mul]
        exact Nat.mul_le_mul_right _ hi
      rw [if_pos (by omega)]
      congr 1
      omega
    · simp only [List.map_cons, List.map_nil, List.cons.injEq, and_true]
      apply List.ext_getElem
      · simp [hx]
      · intro j h1 h2
        simp only [List.length_map, List.length_range] at h1
        rw [List.getElem_map, List.getElem_range, if_neg (by omega), if_pos (by omega),
          show fresh + n * size + j - (fresh + n * size) = j by omega]
        simp [List.getD, List.getElem?_eq_getElem h2]

/-- C68: with the spare capacity kept (as by `ByteSliceAsInt64Slice`) an append would write into the bytes after the slice:
here it overwrites the byte at address 8. -/
theorem C68_words_append : ∃ (mem : Memory) (h : SliceHeader) (x : List UInt8) (fresh : Nat),
    (Iunsafe.append mem 8 (Iunsafe.ByteSliceAsInt64Slice h) x fresh).1 8 ≠ mem 8 ∧ h.Len ≤ 8 ∧ fresh > 1000 :=
  ⟨fun _ => 0, ⟨0, 8, 16⟩, [7, 0, 0, 0, 0, 0, 0, 0], 2000, by decide, by decide, by decide⟩

/-- C68: what the model of the programs uses for these functions is what the headers and the memory give. -/
theorem C68_values (mem : Memory) (h : SliceHeader) :
    Osm.ByteSliceAsInt64Slice (bytes mem h) = (words mem (Iunsafe.ByteSliceAsInt64Slice h)).map (·.toInt64) ∧
    Osm.Int64SliceAsByteSlice ((words mem h).map (·.toInt64)) = bytes mem (Iunsafe.Int64SliceAsByteSlice h) ∧
    bytesOf (words mem h) = bytes mem (Iunsafe.Uint64SliceAsByteSlice h) := by
  refine ⟨?_, ?_, words_bytes mem h⟩
  · unfold Osm.ByteSliceAsInt64Slice
    rw [wordsOf_bytes]
  · unfold Osm.Int64SliceAsByteSlice
    rw [List.map_map]
    have : ((fun x : Int64 => x.toUInt64) ∘ fun x : UInt64 => x.toInt64) = id := by
      funext x
      simp
    rw [this, List.map_id]
    exact words_bytes mem h

/-- C68: the same for elements of two words. -/
theorem C68_pairs (mem : Memory) (h : SliceHeader) (e : SliceHeader)
    (he : Iunsafe.ByteSliceAsArbSlice h (.ptrSlice 16) = .ok e) :
    (pairsOf (wordsOf (bytes mem h))).map (fun p => le64 p.1 ++ le64 p.2) = elements mem 16 e := by
  unfold Iunsafe.ByteSliceAsArbSlice at he
  dsimp only at he
  rw [if_neg (by decide), Res.ok.injEq] at he
  subst he
  rw [wordsOf_bytes]
  have key : ∀ (n r a : Nat), r < 2 →
      (pairsOf (words mem ⟨a, 2 * n + r, 2 * n + r⟩)).map (fun p => le64 p.1 ++ le64 p.2) =
        (List.range n).map fun i => span mem (a + i * 16) 16 := by
    intro n
    induction n with
    | zero =>
      intro r a hr
      have : r = 0 ∨ r = 1 := by omega
      rcases this with rfl | rfl <;> rfl
    | succ n ih =>
      intro r a hr
      have hw : words mem ⟨a, 2 * (n + 1) + r, 2 * (n + 1) + r⟩ =
          words mem ⟨a, 2, 2⟩ ++ words mem ⟨a + 16, 2 * n + r, 2 * n + r⟩ := by
        unfold words
        dsimp only
        rw [show 2 * (n + 1) + r = 2 + (2 * n + r) by omega, List.range_add, List.map_append, List.map_map]
        congr 1
        apply List.map_congr_left
        intro i _
        simp only [Function.comp]
        rw [show a + (2 + i) * 8 = a + 16 + i * 8 by omega]
      rw [hw, List.range_succ_eq_map, List.map_cons, List.map_map]
      show ((pairsOf (_ :: _ :: words mem ⟨a + 16, 2 * n + r, 2 * n + r⟩)).map fun p => le64 p.1 ++ le64 p.2) = _
      rw [pairsOf, List.map_cons, ih r (a + 16) hr]
      congr 1
      · dsimp only
        rw [leWord_span, leWord_span, ← span_add]
      · apply List.map_congr_left
        intro i _
        simp only [Function.comp]
        rw [show a + 16 + i * 16 = a + i.succ * 16 by rw [Nat.succ_mul]; omega]
  have hk := key (h.Len / 16) (h.Len / 8 % 2) h.Data (by omega)
  rw [elements_eq, ← hk]
  have hw : words mem (Iunsafe.ByteSliceAsInt64Slice h) =
      words mem ⟨h.Data, 2 * (h.Len / 16) + h.Len / 8 % 2, 2 * (h.Len / 16) + h.Len / 8 % 2⟩ := by
    unfold words Iunsafe.ByteSliceAsInt64Slice
    dsimp only
    rw [show 2 * (h.Len / 16) + h.Len / 8 % 2 = h.Len / 8 by omega]
  rw [hw]

/-! ## Examples -/

/-- A memory in which the byte at each address is the address. -/
def counting : Memory := fun a => UInt8.ofNat a

/-- Nineteen bytes at address 3: two words, three bytes dropped. -/
example : words counting (Iunsafe.ByteSliceAsInt64Slice ⟨3, 19, 32⟩) = [0x0a09080706050403, 0x1211100f0e0d0c0b] := by
  decide

/-- Ten bytes as elements of four: the hypotheses of `C68_append` hold for the bytes 3 to 12 in use. -/
example : elements (Iunsafe.append counting 4 ⟨3, 2, 2⟩ [1, 2, 3, 4] 100).1 4
    (Iunsafe.append counting 4 ⟨3, 2, 2⟩ [1, 2, 3, 4] 100).2 = [[3, 4, 5, 6], [7, 8, 9, 10], [1, 2, 3, 4]] ∧
    bytes (Iunsafe.append counting 4 ⟨3, 2, 2⟩ [1, 2, 3, 4] 100).1 ⟨3, 10, 10⟩ = bytes counting ⟨3, 10, 10⟩ := by
  have := C68_append counting ⟨3, 10, 10⟩ 4 (by decide) ⟨3, 2, 2⟩ rfl [1, 2, 3, 4] rfl 100 (fun a => a < 50)
    (by intro a h; exact Or.inl (by omega)) (by intro i h; show 3 + i < 50; have : i < 10 := h; omega)
  exact ⟨this.2.2.1.trans (by decide), this.2.1⟩

end Osm.Props
