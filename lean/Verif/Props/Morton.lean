import Verif.Lemmas.Morton

/-!
# C25–C26: Morton codes and locations
-/

namespace Osm.Props
open Osm Osm.Morton

/-! ## C25 -/

/-- C25: encoding never panics; bit `i` of the first value is bit `2i` of the code and bit `i` of the
second is bit `2i+1`. -/
theorem C25_interleaves (e o : Int32) : ∃ c, Encode e o = .ok c ∧ ∀ i < 32,
    c.toNat.testBit (2 * i) = e.toUInt32.toNat.testBit i ∧
    c.toNat.testBit (2 * i + 1) = o.toUInt32.toNat.testBit i := by
  obtain ⟨c, h, hb⟩ := encode_bits e o
  refine ⟨c, h, fun i _ => ⟨?_, ?_⟩⟩
  · rw [hb, if_pos (by omega)]; congr 1; omega
  · rw [hb, if_neg (by omega)]; congr 1; omega

/-- C25: decoding recovers both values. -/
theorem C25_decode_encode (e o : Int32) (c : UInt64) (h : Encode e o = .ok c) :
    Decode c = (e.toUInt32, o.toUInt32) := decode_encode e o c h

/-- C25: encoding what was decoded gives back the code, for every 64-bit word. -/
theorem C25_encode_decode (x : UInt64) :
    Encode (Decode x).1.toInt32 (Decode x).2.toInt32 = .ok x := encode_decode x

example : Encode 3 (-1) = .ok 0xaaaaaaaaaaaaaaaf ∧ Decode 0xaaaaaaaaaaaaaaaf = (3, 0xffffffff) := by
  decide +kernel

/-! ## C26 -/

/-- C26: whatever the coordinates, the stored location is negative. -/
theorem C26_location_negative (lon lat : Int32) :
    ∃ l, location lon lat = .ok l ∧ l.toInt < 0 := by
  obtain ⟨l, h1, h2, _⟩ := location_neg lon lat
  exact ⟨l, h1, h2⟩

/-- C26: for a latitude in [-2^30, 2^30) decoding gives back the coordinates exactly. -/
theorem C26_location_recoverable (lon lat : Int32) (h1 : -(2 ^ 30) ≤ lat.toInt)
    (h2 : lat.toInt < 2 ^ 30) (l : Int64) (h : location lon lat = .ok l) :
    DecodeLocation l.toUInt64 = (lon, lat) := by
  obtain ⟨l', h', _, hd⟩ := location_neg lon lat
  rw [h] at h'
  simp only [Res.ok.injEq] at h'
  subst h'
  rw [hd, latitude_back lat h1 h2]

/-- C26: degrees -90 to 90 in ten-millionths are in that range. -/
theorem C26_range_covers_earth (lat : Int32) (h1 : -900000000 ≤ lat.toInt)
    (h2 : lat.toInt ≤ 900000000) : -(2 ^ 30) ≤ lat.toInt ∧ lat.toInt < 2 ^ 30 := by omega

/-- Different coordinates in range have different locations, so equality of stored locations is
equality of positions. -/
theorem C26_location_injective (lon lat lon' lat' : Int32) (h1 : -(2 ^ 30) ≤ lat.toInt)
    (h2 : lat.toInt < 2 ^ 30) (h1' : -(2 ^ 30) ≤ lat'.toInt) (h2' : lat'.toInt < 2 ^ 30)
    (h : location lon lat = location lon' lat') : lon = lon' ∧ lat = lat' := by
  obtain ⟨l, hl, _⟩ := C26_location_negative lon lat
  have a := C26_location_recoverable lon lat h1 h2 l hl
  have b := C26_location_recoverable lon' lat' h1' h2' l (h ▸ hl)
  rw [a] at b
  simpa using b

/-- The South Pole, and a place at negative longitude. -/
example : ∃ l, location (-1234567890) (-900000000) = .ok l ∧
    DecodeLocation l.toUInt64 = (-1234567890, -900000000) := by
  obtain ⟨l, h, _⟩ := C26_location_negative (-1234567890) (-900000000)
  exact ⟨l, h, C26_location_recoverable _ _ (by decide) (by decide) l h⟩

end Osm.Props
