import Verif.Spec.Raw
import Verif.Lemmas.PipelineLive
import Verif.Lemmas.RelIndex

namespace Osm.T
open Osm Osm.Pb Osm.Spec

theorem inflateLoop_spec (calls : Nat → ReadCall) : ∀ (fuel k : Nat) (left : List UInt8) (rem start : Nat)
    (buf : List UInt8), 0 < rem → start + rem ≤ buf.length → left.length + 2 ≤ fuel →
    (left.length < rem → inflateLoop calls fuel k left rem start buf = .panic) ∧
    (left.length = rem → ∃ buf', inflateLoop calls fuel k left rem start buf = .ok buf' ∧
      buf'.length = buf.length ∧ buf'.take (start + rem) = buf.take start ++ left) ∧
    (inflateLoop calls fuel k left rem start buf = .panic ∨
      ∃ buf', inflateLoop calls fuel k left rem start buf = .ok buf' ∧
        buf'.length = buf.length ∧ buf'.take (start + rem) = buf.take start ++ left.take rem) := by
  intro fuel
  induction fuel with
  | zero => intro k left rem start buf _ _ h; omega
  | succ fuel ih =>
    intro k left rem start buf hr hs hf
    unfold inflateLoop
    rw [if_pos (by omega), if_neg (by omega)]
    dsimp only
    generalize hn : min ((calls k).n + 1) (min (buf.length - start) left.length) = n
    have hnl : n ≤ left.length := by omega
    have hroom : start + n ≤ buf.length := by omega
    have hbl : (buf.take start ++ left.take n ++ buf.drop (start + n)).length = buf.length := by
      simp only [List.length_append, List.length_take, List.length_drop]; omega
    have htake : (buf.take start ++ left.take n ++ buf.drop (start + n)).take (start + n)
        = buf.take start ++ left.take n := by
      rw [List.take_left' (by simp only [List.length_append, List.length_take]; omega)]
    have htake' : ∀ m, m ≤ n → (buf.take start ++ left.take n ++ buf.drop (start + n)).take (start + m)
        = buf.take start ++ left.take m := by
      intro m hm
      have := congrArg (List.take (start + m)) htake
      rw [List.take_take, Nat.min_eq_left (by omega)] at this
      rw [this, List.take_append, List.take_take, List.take_take, List.length_take]
      rw [Nat.min_eq_right (by omega), Nat.min_eq_left (by omega : start ≤ buf.length),
        show start + m - start = m by omega, Nat.min_eq_left hm]
    by_cases h0 : n = rem
    · subst h0
      rw [if_pos (by omega)]
      refine ⟨fun h => by omega, fun h => ⟨_, rfl, hbl, ?_⟩, Or.inr ⟨_, rfl, hbl, htake⟩⟩
      rw [htake, List.take_of_length_le (Nat.le_of_eq h)]
    · rw [if_neg (by omega)]
      by_cases herr : ((left.drop n).isEmpty && ((calls k).early || n == 0)) = true
      · rw [if_pos herr]
        refine ⟨fun _ => rfl, fun h => ?_, Or.inl rfl⟩
        exfalso
        simp only [Bool.and_eq_true, List.isEmpty_iff, List.drop_eq_nil_iff] at herr
        omega
      · rw [if_neg herr]
        have hn0 : 0 < n := by
          apply Nat.pos_of_ne_zero
          intro e
          have : left = [] := by
            apply List.length_eq_zero_iff.1
            omega
          apply herr
          subst e this
          simp
        by_cases hlt : n < rem
        · have e : (rem : Int) - (n : Int) = ((rem - n : Nat) : Int) := by omega
          rw [e]
          have hd : (left.drop n).length = left.length - n := List.length_drop
          obtain ⟨i1, i2, i3⟩ := ih (k + 1) (left.drop n) (rem - n) (start + n)
            (buf.take start ++ left.take n ++ buf.drop (start + n)) (by omega) (by rw [hbl]; omega) (by rw [hd]; omega)
          have e1 : start + n + (rem - n) = start + rem := by clear i1 i2 i3; omega
          have e2 : n + (rem - n) = rem := by clear i1 i2 i3; omega
          have e3 : left.length < rem → left.length - n < rem - n := by clear i1 i2 i3; omega
          have e4 : left.length = rem → left.length - n = rem - n := by clear i1 i2 i3; omega
          rw [htake, hbl, hd, e1] at i2
          rw [htake, hbl, e1] at i3
          rw [hd] at i1
          refine ⟨fun h => i1 (e3 h), fun h => ?_, ?_⟩
          · obtain ⟨buf', j1, j2, j3⟩ := i2 (e4 h)
            refine ⟨buf', j1, j2, ?_⟩
            rw [j3, List.append_assoc, List.take_append_drop]
          · rcases i3 with i3 | ⟨buf', j1, j2, j3⟩
            · exact Or.inl i3
            · refine Or.inr ⟨buf', j1, j2, ?_⟩
              rw [j3, List.append_assoc]
              congr 1
              conv => rhs; rw [← e2, List.take_add]
        · -- more than declared
          cases fuel with
          | zero => omega
          | succ fuel =>
            unfold inflateLoop
            rw [if_neg (by omega)]
            refine ⟨fun h => by omega, fun h => by omega, Or.inr ⟨_, rfl, hbl, htake' rem (by omega)⟩⟩

theorem poolBuffer_length (pooled : List UInt8) (size : Nat) : size ≤ (poolBuffer pooled size).length := by
  unfold poolBuffer
  split
  · simp
  · omega

theorem poolBuffer_fits (pooled : List UInt8) (size : Nat) (h1 : pooled.length < 2 ^ 63) (h2 : size < 2 ^ 63) :
    (poolBuffer pooled size).length < 2 ^ 63 := by
  unfold poolBuffer
  split
  · simpa using h2
  · exact h1

theorem decodeZLib_exact {inflate : Inflate} (sched : Sched) {z p : List UInt8} {size : Int32}
    (hi : inflate z = some p) (hs : size.toInt = p.length) :
    ∃ spare, decodeZLib inflate sched z (some size) = .ok ⟨p, spare⟩ ∧
      p.length + spare.length = (poolBuffer sched.pooled p.length).length := by
  unfold decodeZLib
  rw [hi]
  dsimp only
  rw [if_neg (by omega), hs]
  simp only [Int.toNat_natCast]
  have hb := poolBuffer_length sched.pooled p.length
  by_cases h0 : p.length = 0
  · have hp : p = [] := List.length_eq_zero_iff.1 h0
    subst hp
    unfold inflateLoop
    rw [if_neg (by simp)]
    refine ⟨_, rfl, ?_⟩
    simp
  · obtain ⟨_, h2, _⟩ := inflateLoop_spec sched.calls (p.length + 2) 0 p p.length 0 (poolBuffer sched.pooled p.length)
      (by omega) (by omega) (by omega)
    obtain ⟨buf', e1, e2, e3⟩ := h2 rfl
    rw [e1]
    simp only [Nat.zero_add, List.take_zero, List.nil_append] at e3
    rw [Res.ok_bind, e3]
    refine ⟨_, rfl, ?_⟩
    rw [List.length_drop, e2]
    omega

theorem decodeZLib_short {inflate : Inflate} (sched : Sched) {z p : List UInt8} {size : Int32}
    (hi : inflate z = some p) (hs : p.length < size.toInt) :
    decodeZLib inflate sched z (some size) = .panic := by
  unfold decodeZLib
  rw [hi]
  dsimp only
  rw [if_neg (by omega)]
  have hb := poolBuffer_length sched.pooled size.toInt.toNat
  have this := (inflateLoop_spec sched.calls (p.length + 2) 0 p size.toInt.toNat 0
    (poolBuffer sched.pooled size.toInt.toNat) (by omega) (by omega) (by omega)).1 (by omega)
  rw [show ((size.toInt.toNat : Nat) : Int) = size.toInt by omega] at this
  rw [this]
  rfl

theorem decodeZLib_any {inflate : Inflate} (sched : Sched) {z p : List UInt8} {size : Int32}
    (hi : inflate z = some p) :
    decodeZLib inflate sched z (some size) = .panic ∨
    ∃ spare, decodeZLib inflate sched z (some size) = .ok ⟨p.take size.toInt.toNat, spare⟩ := by
  unfold decodeZLib
  rw [hi]
  dsimp only
  by_cases hneg : size.toInt < 0
  · rw [if_pos hneg]; exact Or.inl rfl
  · rw [if_neg hneg]
    have hb := poolBuffer_length sched.pooled size.toInt.toNat
    by_cases h0 : size.toInt.toNat = 0
    · unfold inflateLoop
      rw [if_neg (by omega), h0]
      exact Or.inr ⟨_, rfl⟩
    · have e : ((size.toInt.toNat : Nat) : Int) = size.toInt := by omega
      obtain ⟨_, _, h3⟩ := inflateLoop_spec sched.calls (p.length + 2) 0 p size.toInt.toNat 0
        (poolBuffer sched.pooled size.toInt.toNat) (by omega) (by omega) (by omega)
      rw [e] at h3
      rcases h3 with h3 | ⟨buf', e1, e2, e3⟩
      · rw [h3]; exact Or.inl rfl
      · rw [e1]
        simp only [Nat.zero_add, List.take_zero, List.nil_append] at e3
        rw [Res.ok_bind, e3]
        exact Or.inr ⟨_, rfl⟩

theorem getRawData_ne_hang (inflate : Inflate) (sched : Sched) (b : Blob) : GetRawData inflate sched b ≠ .hang := by
  unfold GetRawData
  split
  · simp
  · next z _ _ =>
    cases hi : inflate z.bytes with
    | none => simp [decodeZLib, hi]
    | some p =>
      cases hs : b.RawSize with
      | none => simp [decodeZLib]
      | some size =>
        rcases decodeZLib_any sched (size := size) hi with h | ⟨sp, h⟩ <;> rw [h] <;> simp
  · simp

theorem payload_raw {inflate : Inflate} (sched : Sched) {b : Blob} {p : List UInt8} (h : Payload inflate b p) :
    ∃ s : Slice, GetRawData inflate sched b = .ok s ∧ s.bytes = p ∧
      ((∃ r, b.Raw = some r ∧ s = r) ∨ p.length + s.spare.length = (poolBuffer sched.pooled p.length).length) := by
  cases h with
  | raw r size z => exact ⟨r, rfl, rfl, Or.inl ⟨r, rfl, rfl⟩⟩
  | zlib z size p hi hs =>
    obtain ⟨spare, h1, h2⟩ := decodeZLib_exact sched hi hs
    exact ⟨_, h1, rfl, Or.inr h2⟩

theorem payload_unique {inflate : Inflate} {b : Blob} {p q : List UInt8} (h1 : Payload inflate b p)
    (h2 : Payload inflate b q) : p = q := by
  cases h1 with
  | raw r size z => cases h2; rfl
  | zlib z size p hi hs =>
    cases h2 with
    | zlib _ _ q hi' hs' => rw [hi] at hi'; cases hi'; rfl

end Osm.T

namespace Osm.Pbf
open Osm Osm.Pb Osm.T Osm.Spec Osm.RelIndex

theorem blockFile_kind {i : Nat} {f : List UInt8} {bs : List Block} (h : BlockFile i f bs) :
    ∀ b ∈ bs, b.Kind = osmHeader ∨ b.Kind = osmData := by
  induction h with
  | nil => simp
  | cons _ _ _ _ _ _ _ _ _ hk _ _ ih =>
    intro b hb
    rcases List.mem_cons.1 hb with rfl | hb
    · exact hk
    · exact ih b hb

theorem blockFile_fits {i : Nat} {f : List UInt8} {bs : List Block} (h : BlockFile i f bs) :
    f.length < 2 ^ 63 → ∀ b ∈ bs, b.Data.Fits := by
  induction h with
  | nil => intro _ b hb; simp at hb
  | cons _ header data rest _ _ _ _ _ _ _ _ ih =>
    intro hlen b hb
    simp only [List.length_append] at hlen
    rcases List.mem_cons.1 hb with rfl | hb
    · show data.length + rest.length < 2 ^ 63
      omega
    · exact ih (by omega) b hb

theorem writeAll_exec (f : String) : ∀ (xs : List (List UInt8)) (fs : FS) (d : List UInt8),
    fs f = some ⟨d, d.length⟩ →
    ∃ fs', (writeAll f xs).exec fs = .ok ((), fs') ∧ fs' f = some ⟨d ++ xs.flatten, (d ++ xs.flatten).length⟩ ∧
      ∀ g, g ≠ f → fs' g = fs g
  | [], fs, d, h => ⟨fs, rfl, by simpa using h, fun _ _ => rfl⟩
  | x :: xs, fs, d, h => by
    obtain ⟨w1, w2⟩ := append_exec f fs d x h
    obtain ⟨fs', e1, e2, e3⟩ := writeAll_exec f xs _ (d ++ x) w1
    refine ⟨fs', ?_, ?_, ?_⟩
    · show (FWrite f x >>= fun _ => writeAll f xs).exec fs = _
      rw [Prog.exec_bind]
      show ((Prog.emit (.write f x)).exec fs >>= _) = _
      rw [Prog.exec_emit, Res.ok_bind]
      exact e1
    · simpa using e2
    · intro g hg
      rw [e3 g hg, w2 g hg]

theorem decompressOutput_exec (f : String) (xs : List (List UInt8)) (fs : FS) :
    ∃ fs', (decompressOutput f xs).exec fs = .ok ((), fs') ∧ Holds fs' f xs.flatten ∧ ∀ g, g ≠ f → fs' g = fs g := by
  obtain ⟨fs', e1, e2, e3⟩ := writeAll_exec f xs ((FsOp.create f).run fs) [] (by simp [FsOp.run, FS.set])
  refine ⟨fs', ?_, ?_, ?_⟩
  · unfold decompressOutput
    rw [Prog.exec_bind]
    show ((Prog.emit (.create f)).exec fs >>= _) = _
    rw [Prog.exec_emit, Res.ok_bind]
    exact e1
  · unfold Holds
    rw [e2]
    exact ⟨_, rfl⟩
  · intro g hg
    rw [e3 g hg]
    simp [FsOp.run, FS.set, hg]

end Osm.Pbf
