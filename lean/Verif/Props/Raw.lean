import Verif.Lemmas.Raw
import Verif.Props.Pbf
import Verif.Props.Messages

/-!
# C51, C52: payloads and decompression
-/

namespace Osm.Props
open Osm Osm.T Osm.Pb Osm.Pbf Osm.Spec Osm.RelIndex

/-! ## C52 -/

/-- C52: a stream of exactly the declared size is returned as it is, however `Read` delivers it and whatever the pooled
buffer held before. -/
theorem C52_exact (inflate : Inflate) (z : Slice) (p : List UInt8) (size : Int32) (hi : inflate z.bytes = some p)
    (hs : size.toInt = p.length) (sched : Sched) :
    ∃ spare, GetRawData inflate sched ⟨none, some size, some z⟩ = .ok ⟨p, spare⟩ :=
  let ⟨spare, h, _⟩ := decodeZLib_exact sched hi hs
  ⟨spare, h⟩

/-- C52: a shorter stream panics. -/
theorem C52_short (inflate : Inflate) (z : Slice) (p : List UInt8) (size : Int32) (hi : inflate z.bytes = some p)
    (hs : p.length < size.toInt) (sched : Sched) :
    GetRawData inflate sched ⟨none, some size, some z⟩ = .panic := decodeZLib_short sched hi hs

/-- C52: whatever the stream and the schedule, the result is a panic or the first bytes of the stream, as many as
declared: never stale bytes of the buffer, and never an endless loop. -/
theorem C52_only_stream (inflate : Inflate) (z : Slice) (p : List UInt8) (size : Int32) (hi : inflate z.bytes = some p)
    (sched : Sched) :
    GetRawData inflate sched ⟨none, some size, some z⟩ = .panic ∨
    ∃ spare, GetRawData inflate sched ⟨none, some size, some z⟩ = .ok ⟨p.take size.toInt.toNat, spare⟩ :=
  decodeZLib_any sched hi

/-- C52: compressed data that zlib rejects, a missing size and missing data panic. -/
theorem C52_rejects (inflate : Inflate) (sched : Sched) :
    (∀ z size, inflate z.bytes = none → GetRawData inflate sched ⟨none, size, some z⟩ = .panic) ∧
    (∀ z, GetRawData inflate sched ⟨none, none, some z⟩ = .panic) ∧
    (∀ z (size : Int32), size.toInt < 0 → GetRawData inflate sched ⟨none, some size, some z⟩ = .panic) ∧
    ∀ size, GetRawData inflate sched ⟨none, size, none⟩ = .panic := by
  refine ⟨fun z size h => ?_, fun z => ?_, fun z size h => ?_, fun size => rfl⟩
  · simp [GetRawData, decodeZLib, h]
  · simp [GetRawData, decodeZLib]
  · simp only [GetRawData, decodeZLib]
    cases inflate z.bytes with
    | none => rfl
    | some p => dsimp only; rw [if_pos h]

/-- C52 says nothing of a stream longer than declared, with reason: there the outcome depends on how `Read` delivers the
data. Here five bytes for a declared size of three: read one by one, the surplus goes unnoticed; read at once with the
end of the stream, it panics. -/
theorem C52_longer_varies :
    (∃ spare, GetRawData (fun _ => some [1, 2, 3, 4, 5]) ⟨[9, 9, 9, 9, 9, 9], fun _ => ⟨0, true⟩⟩
      ⟨none, some 3, some ⟨[7], []⟩⟩ = .ok ⟨[1, 2, 3], spare⟩) ∧
    GetRawData (fun _ => some [1, 2, 3, 4, 5]) ⟨[9, 9, 9, 9, 9, 9], fun _ => ⟨9, true⟩⟩
      ⟨none, some 3, some ⟨[7], []⟩⟩ = .panic :=
  ⟨⟨[9, 9, 9], by rfl⟩, by rfl⟩

example : ∃ spare, GetRawData (fun _ => some [1, 2, 3]) ⟨[9, 9, 9, 9, 9, 9], fun k => ⟨k, false⟩⟩
      ⟨none, some 3, some ⟨[7], []⟩⟩ = .ok ⟨[1, 2, 3], spare⟩ :=
  C52_exact (fun _ => some [1, 2, 3]) ⟨[7], []⟩ [1, 2, 3] 3 rfl (by decide) _

/-! ## C51 -/

/-- A block that decompression preserves: it has a payload, which is not empty and leaves room for the headers. -/
def Decompressible (inflate : Inflate) (b : Block) : Prop :=
  ∃ p, BlockPayload inflate b p ∧ p ≠ [] ∧ p.length < 2 ^ 31 - 32

/-- What the worker makes of it. -/
def rawBlob (p : List UInt8) : List UInt8 := bufField 1 p

theorem rawBlob_length (p : List UInt8) (h : p.length < 2 ^ 31 - 32) : (rawBlob p).length < 2 ^ 31 := by
  unfold rawBlob bufField tagBytes
  have h1 := leb128_length_le10 (UInt64.ofNat p.length)
  have h2 := leb128_length_le10 (MakeIdType 1 PbFixedBytes)
  simp only [List.length_append]
  omega

theorem rawBlob_write (s : Slice) (h : s.bytes ≠ []) : (Blob.mk (some s) none none).Write none [] = .ok (rawBlob s.bytes) := by
  unfold Blob.Write
  rw [blob_writeRaw_none]
  have : nonEmpty (some s) = some s.bytes := by
    unfold nonEmpty
    cases hb : s.bytes with
    | nil => exact absurd hb h
    | cons x xs => simp [hb]
  simp only [Res.ok_bind, blob_writeTail_eq, this]
  simp [blobTailBytes, nonEmpty, rawBlob]

theorem rawBlob_read (inflate : Inflate) (p sp : List UInt8) (hp : p ≠ []) (hf : (Slice.mk (rawBlob p) sp).Fits) (i : Nat)
    (kind : GoStr) : BlockPayload inflate ⟨i, ⟨rawBlob p, sp⟩, kind⟩ p := by
  have hne : nonEmpty (some (Slice.mk p [])) = some p := by
    unfold nonEmpty
    cases p with
    | nil => exact absurd rfl hp
    | cons x xs => simp
  obtain ⟨b', h1, h2⟩ := blob_read_none ⟨some ⟨p, []⟩, none, none⟩ sp (rawBlob p)
    (by rw [hne]; simp [blobTailBytes, nonEmpty, rawBlob]) hf
  refine ⟨b', h1, ?_⟩
  obtain ⟨r, size, z⟩ := b'
  simp only [blobObs, hne, Prod.mk.injEq] at h2
  obtain ⟨h3, rfl, h5⟩ := h2
  cases r with
  | none => cases h3
  | some r =>
    simp only [Option.map_some, Option.some.injEq] at h3
    subst h3
    exact .raw r _ _

theorem decompressWork_eq (inflate : Inflate) (sched : Block → Sched) (b : Block) (p : List UInt8)
    (h : BlockPayload inflate b p) (hp : p ≠ []) :
    decompressWork inflate sched b = .ok (frame b.Kind (rawBlob p)) := by
  obtain ⟨blob, h1, h2⟩ := h
  obtain ⟨s, h3, rfl, _⟩ := payload_raw (sched b) h2
  unfold decompressWork rawOf
  rw [h1, Res.ok_bind, h3, Res.ok_bind, rawBlob_write s hp]
  rfl

theorem decompress_total (inflate : Inflate) (sched : Block → Sched) (file : List UInt8) :
    Total (decompressCfg inflate sched file) := by
  refine ⟨fun b hf _ => ?_, by simp [decompressCfg], by simp [decompressCfg]⟩
  show decompressWork inflate sched b ≠ .hang
  unfold decompressWork rawOf
  cases h1 : ReadBlob b.Data with
  | hang => exact absurd h1 (readBlob_ne_hang _ hf)
  | panic => simp
  | ok blob =>
    simp only [Res.ok_bind]
    cases h2 : GetRawData inflate (sched b) blob with
    | hang => exact absurd h2 (getRawData_ne_hang _ _ _)
    | panic => simp
    | ok raw =>
      simp only [Res.ok_bind]
      unfold Blob.Write
      rw [blob_writeRaw_none]
      simp

/-- The blocks that decompression writes. -/
theorem decompressed_blocks (inflate : Inflate) (sched : Block → Sched) : ∀ (bs : List Block) (got : List (List UInt8)),
    (∀ b ∈ bs, Decompressible inflate b) →
    (∀ b ∈ bs, b.Kind = osmHeader ∨ b.Kind = osmData) → mapRes (decompressWork inflate sched) bs = .ok got →
    ∃ ps : List (List UInt8), ps.length = bs.length ∧ got.flatten = fileOf ((bs.zip ps).map fun x => (x.1.Kind, rawBlob x.2)) ∧
      ∀ x ∈ bs.zip ps, BlockPayload inflate x.1 x.2 ∧ x.2 ≠ [] ∧ Writable (x.1.Kind, rawBlob x.2) := by
  intro bs
  induction bs with
  | nil => intro got _ _ h; cases h; exact ⟨[], rfl, rfl, by simp⟩
  | cons b bs ih =>
    intro got h1 h2 h3
    unfold mapRes at h3
    obtain ⟨y, g1, h3⟩ := Res.bind_eq_ok.1 h3
    obtain ⟨ys', g2, h3⟩ := Res.bind_eq_ok.1 h3
    cases h3
    obtain ⟨p, p1, p2, p3⟩ := h1 b (by simp)
    rw [decompressWork_eq inflate sched b p p1 p2] at g1
    cases g1
    obtain ⟨ps, q1, q2, q3⟩ := ih ys' (fun b hb => h1 b (by simp [hb])) (fun b hb => h2 b (by simp [hb])) g2
    refine ⟨p :: ps, by simp [q1], ?_, ?_⟩
    · rw [List.flatten_cons, q2]
      rfl
    · intro x hx
      rw [List.zip_cons_cons, List.mem_cons] at hx
      rcases hx with rfl | hx
      · exact ⟨p1, p2, h2 b (by simp), rawBlob_length p p3⟩
      · exact q3 x hx

/-- What the workers of decompress make of some blocks is a file of the same blocks. -/
theorem decompressed_file (inflate : Inflate) (sched : Block → Sched) {bs : List Block} {got : List (List UInt8)} (hbne : bs ≠ [])
    (hp : ∀ b ∈ bs, Decompressible inflate b) (hkinds : ∀ b ∈ bs, b.Kind = osmHeader ∨ b.Kind = osmData)
    (e2 : mapRes (decompressWork inflate sched) bs = .ok got) (hol : got.flatten.length < 2 ^ 63) :
    ∃ bs', split got.flatten = .ok bs' ∧ bs'.map (·.Kind) = bs.map (·.Kind) ∧
      ∀ (i : Nat) b b', bs[i]? = some b → bs'[i]? = some b' → ∀ p, BlockPayload inflate b p → BlockPayload inflate b' p := by
  obtain ⟨ps, q1, q2, q3⟩ := decompressed_blocks inflate sched bs got hp hkinds e2
  have hw : ∀ x ∈ (bs.zip ps).map (fun x => (x.1.Kind, rawBlob x.2)), Writable x := by
    intro x hx
    obtain ⟨y, hy, rfl⟩ := List.mem_map.1 hx
    exact (q3 y hy).2.2
  rw [q2] at hol ⊢
  have hzne : (bs.zip ps).map (fun x => (x.1.Kind, rawBlob x.2)) ≠ [] := by
    intro h
    have := congrArg List.length h
    simp [q1] at this
    exact hbne this
  obtain ⟨out, r1, r2, r3⟩ := C53_round_trip _ hzne hw hol
  have hfits := blockFile_fits ((split_iff _ hol out).1 r1).2 hol
  refine ⟨out, r1, ?_, ?_⟩
  · have := congrArg (List.map Prod.fst) r2
    rw [List.map_map, List.map_map] at this
    have e : (bs.zip ps).map (fun x => x.1.Kind) = bs.map (·.Kind) := by
      rw [show (bs.zip ps).map (fun x => x.1.Kind) = ((bs.zip ps).map Prod.fst).map (·.Kind) by rw [List.map_map]; rfl]
      rw [List.map_fst_zip (by omega)]
    rw [← e]
    exact this
  · intro i b b' hb hb' p hbp
    have hx := congrArg (fun l => l[i]?) r2
    simp only [List.getElem?_map, hb', Option.map_some] at hx
    have hi : i < bs.length := (List.getElem?_eq_some_iff.1 hb).1
    have hps : ps[i]? = some (ps[i]'(by omega)) := List.getElem?_eq_getElem (by omega)
    have hz : (bs.zip ps)[i]? = some (b, ps[i]'(by omega)) := by
      rw [List.getElem?_zip_eq_some]
      exact ⟨hb, hps⟩
    rw [hz] at hx
    simp only [Option.map_some, Option.some.injEq, Seen, Prod.mk.injEq] at hx
    obtain ⟨j1, j2, _⟩ := q3 _ (List.mem_of_getElem? hz)
    dsimp only at j1 j2
    have : p = ps[i]'(by omega) := by
      obtain ⟨bl, k1, k2⟩ := hbp
      obtain ⟨bl', k3, k4⟩ := j1
      rw [k1] at k3
      cases k3
      exact payload_unique k2 k4
    subst this
    have hf := hfits b' (List.mem_of_getElem? hb')
    obtain ⟨ix, ⟨db, dsp⟩, kd⟩ := b'
    dsimp only at hx hf
    rw [hx.2] at hf ⊢
    exact rawBlob_read inflate _ _ j2 hf ix kd

/-- C51: for every well-formed file whose blocks have payloads that are not empty: whatever the number of workers, the
interleaving and the way zlib delivers its data, the output of a run that was not cancelled is a file with as many
blocks, of the same kinds in the same order, each with the payload of the original block. -/
theorem C51_preserved_partial (inflate : Inflate) (sched : Block → Sched) (file : List UInt8)
    (hl : file.length < 2 ^ 63) (bs : List Block) (hs : split file = .ok bs)
    (hp : ∀ b ∈ bs, Decompressible inflate b) (W : Nat) (got : List (List UInt8))
    (hd : Delivers (decompressCfg inflate sched file) W got) (f : String) (fs : FS) :
    ∃ fs' out, (decompressOutput f got).exec fs = .ok ((), fs') ∧ Holds fs' f out ∧ (∀ g, g ≠ f → fs' g = fs g) ∧
      (out.length < 2 ^ 63 → ∃ bs', split out = .ok bs' ∧ bs'.map (·.Kind) = bs.map (·.Kind) ∧
        ∀ (i : Nat) b b', bs[i]? = some b → bs'[i]? = some b' → ∀ p, BlockPayload inflate b p → BlockPayload inflate b' p) := by
  obtain ⟨s, hr, hdn, hc, rfl⟩ := hd
  obtain ⟨bs', e1, e2, _⟩ := C55_in_order _ hl rfl W s hr hdn hc
  rw [show (decompressCfg inflate sched file).file = file from rfl, hs] at e1
  cases e1
  have e2 : mapRes (decompressWork inflate sched) bs = .ok s.got := e2
  obtain ⟨fs', o1, o2, o3⟩ := decompressOutput_exec f s.got fs
  refine ⟨fs', _, o1, o2, o3, fun hol => ?_⟩
  have hbf := ((split_iff file hl bs).1 hs).2
  have hkinds := blockFile_kind hbf
  refine decompressed_file inflate sched ?_ hp hkinds e2 hol
  rintro rfl
  obtain ⟨hne, hbf⟩ := (split_iff file hl []).1 hs
  cases hbf
  exact hne rfl

/-- C51: and such a run exists and none panics, with any number of workers. -/
theorem C51_completes (inflate : Inflate) (sched : Block → Sched) (file : List UInt8)
    (hl : file.length < 2 ^ 63) (bs : List Block) (hs : split file = .ok bs)
    (hp : ∀ b ∈ bs, Decompressible inflate b) (W : Nat) :
    (∀ s, Reachable (decompressCfg inflate sched file) W s → s.crashed = false) ∧
    (0 < W → ∃ got, Delivers (decompressCfg inflate sched file) W got) := by
  have hcl : Clean (decompressCfg inflate sched file) bs := by
    refine ⟨hs, fun b hb => ?_, by simp [decompressCfg], by simp [decompressCfg]⟩
    obtain ⟨p, p1, p2, p3⟩ := hp b hb
    show decompressWork inflate sched b ≠ .panic
    rw [decompressWork_eq inflate sched b p p1 p2]
    simp
  refine ⟨fun s hr => C55_no_panic _ hl bs hcl W s hr, fun hW => ?_⟩
  obtain ⟨n, s, h1, h2, h3⟩ := C56_completes _ hl (decompress_total inflate sched file) W hW _ ⟨0, .refl⟩
  have hr : Reachable (decompressCfg inflate sched file) W s := ⟨n, h1⟩
  rcases h3 with h3 | h3
  · rw [C55_no_panic _ hl bs hcl W s hr] at h3; cases h3
  · exact ⟨s.got, s, hr, h3, h2, rfl⟩

/-- C51 fails for an empty payload: the block is written without its data, and reading it panics. -/
theorem C51_empty_payload (inflate : Inflate) (sched : Block → Sched) (b : Block) (h : BlockPayload inflate b []) :
    decompressWork inflate sched b = .ok (frame b.Kind []) ∧
    ∀ i spare kind sched', (Slice.mk [] spare).Fits → rawOf inflate sched' ⟨i, ⟨[], spare⟩, kind⟩ = .panic := by
  constructor
  · obtain ⟨blob, h1, h2⟩ := h
    obtain ⟨s, h3, h4, _⟩ := payload_raw (sched b) h2
    unfold decompressWork rawOf
    rw [h1, Res.ok_bind, h3, Res.ok_bind]
    unfold Blob.Write
    rw [blob_writeRaw_none]
    have : nonEmpty (some s) = none := by unfold nonEmpty; simp [h4]
    simp only [Res.ok_bind, blob_writeTail_eq, this]
    simp [blobTailBytes, nonEmpty]
  · intro i spare kind sched' hf
    obtain ⟨b', h1, h2⟩ := blob_read_none ⟨none, none, none⟩ spare [] (by simp [blobTailBytes, nonEmpty]) hf
    obtain ⟨r, size, z⟩ := b'
    simp only [blobObs, nonEmpty, Prod.mk.injEq] at h2
    obtain ⟨h3, h4, h5⟩ := h2
    cases r <;> cases z <;> simp at h3 h5
    unfold rawOf
    rw [h1]
    rfl

/-- The worker's result for any payload: an empty one is left out. -/
def rawBlob' (p : List UInt8) : List UInt8 := if p = [] then [] else rawBlob p

theorem decompressWork_eq' (inflate : Inflate) (sched : Block → Sched) (b : Block) (p : List UInt8)
    (h : BlockPayload inflate b p) : decompressWork inflate sched b = .ok (frame b.Kind (rawBlob' p)) := by
  unfold rawBlob'
  split
  · next e => subst e; exact (C51_empty_payload inflate sched b h).1
  · next e => exact decompressWork_eq inflate sched b p h e

/-- The block has a payload, which leaves room for the headers. -/
def HasPayload (inflate : Inflate) (b : Block) : Prop := ∃ p, BlockPayload inflate b p ∧ p.length < 2 ^ 31 - 32

theorem blockPayload_unique {inflate : Inflate} {b : Block} {p q : List UInt8} (h1 : BlockPayload inflate b p)
    (h2 : BlockPayload inflate b q) : p = q := by
  obtain ⟨bl, k1, k2⟩ := h1
  obtain ⟨bl', k3, k4⟩ := h2
  rw [k1] at k3
  cases k3
  exact payload_unique k2 k4

theorem decompressed_blocks' (inflate : Inflate) (sched : Block → Sched) : ∀ (bs : List Block) (got : List (List UInt8)),
    (∀ b ∈ bs, HasPayload inflate b) →
    (∀ b ∈ bs, b.Kind = osmHeader ∨ b.Kind = osmData) → mapRes (decompressWork inflate sched) bs = .ok got →
    ∃ ps : List (List UInt8), ps.length = bs.length ∧ got = (bs.zip ps).map (fun x => frame x.1.Kind (rawBlob' x.2)) ∧
      ∀ x ∈ bs.zip ps, BlockPayload inflate x.1 x.2 ∧ Writable (x.1.Kind, rawBlob' x.2) := by
  intro bs
  induction bs with
  | nil => intro got _ _ h; cases h; exact ⟨[], rfl, rfl, by simp⟩
  | cons b bs ih =>
    intro got h1 h2 h3
    unfold mapRes at h3
    obtain ⟨y, g1, h3⟩ := Res.bind_eq_ok.1 h3
    obtain ⟨ys', g2, h3⟩ := Res.bind_eq_ok.1 h3
    cases h3
    obtain ⟨p, p1, p3⟩ := h1 b (by simp)
    rw [decompressWork_eq' inflate sched b p p1] at g1
    cases g1
    obtain ⟨ps, q1, q2, q3⟩ := ih ys' (fun b hb => h1 b (by simp [hb])) (fun b hb => h2 b (by simp [hb])) g2
    refine ⟨p :: ps, by simp [q1], ?_, ?_⟩
    · rw [q2]
      rfl
    · intro x hx
      rw [List.zip_cons_cons, List.mem_cons] at hx
      rcases hx with rfl | hx
      · refine ⟨p1, h2 b (by simp), ?_⟩
        unfold rawBlob'
        split
        · simp
        · exact rawBlob_length p p3
      · exact q3 x hx

theorem decompressed_file' (inflate : Inflate) (sched : Block → Sched) {bs : List Block} {got : List (List UInt8)} (hbne : bs ≠ [])
    (hp : ∀ b ∈ bs, HasPayload inflate b) (hkinds : ∀ b ∈ bs, b.Kind = osmHeader ∨ b.Kind = osmData)
    (e2 : mapRes (decompressWork inflate sched) bs = .ok got) (hol : got.flatten.length < 2 ^ 63) :
    ∃ bs', split got.flatten = .ok bs' ∧ bs'.map (·.Kind) = bs.map (·.Kind) ∧
      ∀ (i : Nat) b b', bs[i]? = some b → bs'[i]? = some b' → ∀ p, BlockPayload inflate b p →
        b'.Data.Fits ∧ b'.Data.bytes = rawBlob' p := by
  obtain ⟨ps, q1, q2, q3⟩ := decompressed_blocks' inflate sched bs got hp hkinds e2
  have hw : ∀ x ∈ (bs.zip ps).map (fun x => (x.1.Kind, rawBlob' x.2)), Writable x := by
    intro x hx
    obtain ⟨y, hy, rfl⟩ := List.mem_map.1 hx
    exact (q3 y hy).2
  have q2 : got.flatten = fileOf ((bs.zip ps).map fun x => (x.1.Kind, rawBlob' x.2)) := by
    rw [q2]
    unfold fileOf List.flatMap
    rw [List.map_map]
    rfl
  rw [q2] at hol ⊢
  have hzne : (bs.zip ps).map (fun x => (x.1.Kind, rawBlob' x.2)) ≠ [] := by
    intro h
    have := congrArg List.length h
    simp [q1] at this
    exact hbne this
  obtain ⟨out, r1, r2, r3⟩ := C53_round_trip _ hzne hw hol
  have hfits := blockFile_fits ((split_iff _ hol out).1 r1).2 hol
  refine ⟨out, r1, ?_, ?_⟩
  · have := congrArg (List.map Prod.fst) r2
    rw [List.map_map, List.map_map] at this
    have e : (bs.zip ps).map (fun x => x.1.Kind) = bs.map (·.Kind) := by
      rw [show (bs.zip ps).map (fun x => x.1.Kind) = ((bs.zip ps).map Prod.fst).map (·.Kind) by rw [List.map_map]; rfl]
      rw [List.map_fst_zip (by omega)]
    rw [← e]
    exact this
  · intro i b b' hb hb' p hbp
    have hx := congrArg (fun l => l[i]?) r2
    simp only [List.getElem?_map, hb', Option.map_some] at hx
    have hi : i < bs.length := (List.getElem?_eq_some_iff.1 hb).1
    have hps : ps[i]? = some (ps[i]'(by omega)) := List.getElem?_eq_getElem (by omega)
    have hz : (bs.zip ps)[i]? = some (b, ps[i]'(by omega)) := by
      rw [List.getElem?_zip_eq_some]
      exact ⟨hb, hps⟩
    rw [hz] at hx
    simp only [Option.map_some, Option.some.injEq, Seen, Prod.mk.injEq] at hx
    obtain ⟨j1, _⟩ := q3 _ (List.mem_of_getElem? hz)
    dsimp only at j1
    have : p = ps[i]'(by omega) := blockPayload_unique hbp j1
    subst this
    exact ⟨hfits b' (List.mem_of_getElem? hb'), hx.2⟩

/-- C51, exactly: for every well-formed file whose blocks all have payloads, empty or not, the output of a run that was
not cancelled is a file with as many blocks, of the same kinds in the same order; a payload that is not empty is preserved,
and a block whose payload was empty can no longer be read at all. -/
theorem C51_exact (inflate : Inflate) (sched : Block → Sched) (file : List UInt8)
    (hl : file.length < 2 ^ 63) (bs : List Block) (hs : split file = .ok bs)
    (hp : ∀ b ∈ bs, HasPayload inflate b) (W : Nat) (got : List (List UInt8))
    (hd : Delivers (decompressCfg inflate sched file) W got) (f : String) (fs : FS) :
    ∃ fs' out, (decompressOutput f got).exec fs = .ok ((), fs') ∧ Holds fs' f out ∧ (∀ g, g ≠ f → fs' g = fs g) ∧
      (out.length < 2 ^ 63 → ∃ bs', split out = .ok bs' ∧ bs'.map (·.Kind) = bs.map (·.Kind) ∧
        ∀ (i : Nat) b b', bs[i]? = some b → bs'[i]? = some b' → ∀ p, BlockPayload inflate b p →
          (p ≠ [] → BlockPayload inflate b' p) ∧
          (p = [] → (¬ ∃ q, BlockPayload inflate b' q) ∧ ∀ sched', rawOf inflate sched' b' = .panic)) := by
  obtain ⟨s, hr, hdn, hc, rfl⟩ := hd
  obtain ⟨bs', e1, e2, _⟩ := C55_in_order _ hl rfl W s hr hdn hc
  rw [show (decompressCfg inflate sched file).file = file from rfl, hs] at e1
  cases e1
  have e2 : mapRes (decompressWork inflate sched) bs = .ok s.got := e2
  obtain ⟨fs', o1, o2, o3⟩ := decompressOutput_exec f s.got fs
  refine ⟨fs', _, o1, o2, o3, fun hol => ?_⟩
  have hbf := ((split_iff file hl bs).1 hs).2
  have hkinds := blockFile_kind hbf
  have hbne : bs ≠ [] := by
    rintro rfl
    obtain ⟨hne, hbf⟩ := (split_iff file hl []).1 hs
    cases hbf
    exact hne rfl
  obtain ⟨bs', r1, r2, r3⟩ := decompressed_file' inflate sched hbne hp hkinds e2 hol
  refine ⟨bs', r1, r2, fun i b b' hb hb' p hbp => ?_⟩
  obtain ⟨hf, hbytes⟩ := r3 i b b' hb hb' p hbp
  obtain ⟨ix, ⟨db, dsp⟩, kd⟩ := b'
  dsimp only at hbytes hf
  subst hbytes
  refine ⟨fun hne => ?_, fun he => ?_⟩
  · unfold rawBlob' at hf ⊢
    rw [if_neg hne] at hf ⊢
    exact rawBlob_read inflate _ _ hne hf ix kd
  · subst he
    rw [show rawBlob' [] = [] from rfl] at hf ⊢
    have hpanic := fun sched' => (C51_empty_payload inflate sched b hbp).2 ix dsp kd sched' hf
    refine ⟨?_, hpanic⟩
    rintro ⟨q, blob, k1, k2⟩
    obtain ⟨s', h3, _, _⟩ := payload_raw ⟨[], fun _ => ⟨0, false⟩⟩ k2
    have := hpanic ⟨[], fun _ => ⟨0, false⟩⟩
    unfold rawOf at this
    rw [k1, Res.ok_bind, h3] at this
    cases this

/-- A raw header block and a compressed data block. -/
def mixedBlocks : List (GoStr × List UInt8) := [(osmHeader, [10, 2, 5, 6]), (osmData, [16, 3, 26, 2, 120, 1])]

theorem mixed_decompressible : ∃ bs, split (fileOf mixedBlocks) = .ok bs ∧
    ∀ b ∈ bs, Decompressible (fun z => if z = [120, 1] then some [1, 2, 3] else none) b := by
  obtain ⟨bs, h1, h2, _⟩ := C53_round_trip mixedBlocks (by decide) (by unfold Writable; decide +kernel) (by decide +kernel)
  refine ⟨bs, h1, fun b hb => ?_⟩
  have hb' : Seen b ∈ mixedBlocks := by rw [← h2]; exact List.mem_map_of_mem hb
  have h3 : split (fileOf mixedBlocks) = .ok [⟨0, ⟨[10, 2, 5, 6], (frame osmData [16, 3, 26, 2, 120, 1])⟩, osmHeader⟩,
      ⟨1, ⟨[16, 3, 26, 2, 120, 1], []⟩, osmData⟩] := by decide +kernel
  rw [h3] at h1
  cases h1
  simp only [List.mem_cons, List.not_mem_nil, or_false] at hb
  rcases hb with rfl | rfl
  · exact ⟨[5, 6], ⟨⟨some ⟨[5, 6], frame osmData [16, 3, 26, 2, 120, 1]⟩, none, none⟩, by decide +kernel, .raw _ _ _⟩, by decide, by decide⟩
  · exact ⟨[1, 2, 3], ⟨⟨none, some 3, some ⟨[120, 1], []⟩⟩, by decide +kernel, .zlib _ _ _ rfl rfl⟩, by decide, by decide⟩

end Osm.Props
