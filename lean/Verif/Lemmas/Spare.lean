import Verif.Lemmas.Term
import Verif.Spec.Messages
import Verif.Spec.Rewrite
import Verif.Lemmas.Raw

/-!
# Reading does not depend on the memory behind the input

A reader that returns on a slice returns the same contents when more memory follows the slice.
-/

namespace Osm
open Osm.Spec Osm.Pb

/-- `y` returns whenever `x` does, and the results are related. -/
def Leads {α β : Type} (R : α → β → Prop) (x : Res α) (y : Res β) : Prop :=
  ∀ a, x = .ok a → ∃ b, y = .ok b ∧ R a b

theorem Leads.bind {α β γ δ : Type} {R : α → β → Prop} {S : γ → δ → Prop} {x : Res α} {y : Res β}
    {f : α → Res γ} {g : β → Res δ} (h : Leads R x y) (hf : ∀ a b, R a b → Leads S (f a) (g b)) :
    Leads S (x >>= f) (y >>= g) := by
  intro c hc
  rw [Res.bind_eq_ok] at hc
  obtain ⟨a, ha, hc⟩ := hc
  obtain ⟨b, hb, hr⟩ := h a ha
  obtain ⟨d, hd, hs⟩ := hf a b hr c hc
  exact ⟨d, by rw [hb]; exact hd, hs⟩

theorem Leads.ok {α β : Type} {R : α → β → Prop} {a : α} {b : β} (h : R a b) :
    Leads R (.ok a) (.ok b) := by
  intro c hc
  injection hc with hc
  subst hc
  exact ⟨b, rfl, h⟩

theorem Leads.panic {α β : Type} {R : α → β → Prop} {y : Res β} :
    Leads R (.panic : Res α) y := fun a h => by cases h

theorem Leads.ite {α β : Type} {R : α → β → Prop} {p : Prop} [Decidable p] {x x' : Res α}
    {y y' : Res β} (h : Leads R x y) (h' : Leads R x' y') :
    Leads R (if p then x else x') (if p then y else y') := by
  split
  · exact h
  · exact h'

theorem Leads.of_eq {α : Type} {x y : Res α} (h : y = x) : Leads Eq x y := by
  subst h; exact fun a ha => ⟨a, ha, rfl⟩

/-- `t` is `s` with more memory behind it. -/
def Grows (s t : Slice) : Prop := t.bytes = s.bytes ∧ ∃ more, t.spare = s.spare ++ more

theorem Grows.index {s t : Slice} (h : Grows s t) (i : Int) : t.index i = s.index i := by
  unfold Slice.index
  rw [h.1]

theorem Grows.decode {s t : Slice} (h : Grows s t) (i : Int) :
    DecodeVarInt t i = DecodeVarInt s i := by
  have e : t.index = s.index := funext h.index
  unfold DecodeVarInt
  rw [e]

theorem Grows.sub {s t : Slice} (h : Grows s t) (i j : Int) :
    Leads Grows (s.sub i j) (t.sub i j) := by
  obtain ⟨h1, more, h2⟩ := h
  unfold Slice.sub
  intro a ha
  split at ha
  · next hc =>
    simp only [Res.ok.injEq] at ha
    subst ha
    rw [h1, h2]
    rw [if_pos (by simp only [List.length_append]; omega)]
    refine ⟨_, rfl, ?_, ?_⟩
    · dsimp only
      rw [← List.append_assoc, List.drop_append_of_le_length (by simp only [List.length_append]; omega),
        List.take_append_of_le_length (by simp only [List.length_append, List.length_drop]; omega)]
    · refine ⟨more, ?_⟩
      dsimp only
      rw [← List.append_assoc, List.drop_append_of_le_length (by simp only [List.length_append]; omega)]
  · cases ha

theorem loopBytes_leads {σ τ : Type} {b1 b2 : Slice} {body1 : Int → σ → Res (σ × Int)}
    {body2 : Int → τ → Res (τ × Int)} {R : σ → τ → Prop} (hlen : b2.bytes = b1.bytes)
    (h : ∀ n s t, R s t → Leads (fun p q => q.2 = p.2 ∧ R p.1 q.1) (body1 n s) (body2 n t)) :
    ∀ fuel n s t, R s t → Leads R (loopBytes b1 body1 fuel n s) (loopBytes b2 body2 fuel n t) := by
  intro fuel
  induction fuel with
  | zero => intro n s t _ r hr; simp [loopBytes] at hr
  | succ f ih =>
    intro n s t hs
    unfold loopBytes Slice.len
    rw [hlen]
    refine Leads.ite ?_ (Leads.ok hs)
    refine (h n s t hs).bind ?_
    rintro ⟨s', n'⟩ ⟨t', n''⟩ ⟨e, hr⟩
    dsimp only at e hr
    subst e
    exact ih _ _ _ hr

theorem forNext_leads {σ τ : Type} {b1 b2 : Slice} {body1 : Int → σ → Res (σ × Int)}
    {body2 : Int → τ → Res (τ × Int)} {R : σ → τ → Prop} (hlen : b2.bytes = b1.bytes)
    (h : ∀ n s t, R s t → Leads (fun p q => q.2 = p.2 ∧ R p.1 q.1) (body1 n s) (body2 n t))
    {s : σ} {t : τ} (hs : R s t) : Leads R (forNext b1 body1 s) (forNext b2 body2 t) := by
  unfold forNext
  rw [hlen]
  exact loopBytes_leads hlen h _ _ _ _ hs

theorem Grows.readBytes {s t : Slice} (h : Grows s t) (i : Int) :
    Leads (fun p q => Grows p.1 q.1 ∧ q.2 = p.2) (ReadBytes s i) (ReadBytes t i) := by
  unfold ReadBytes
  refine (Leads.of_eq (h.decode i)).bind ?_
  rintro ⟨v, n⟩ _ rfl
  dsimp only
  refine (h.sub _ _).bind ?_
  intro a b hab
  exact Leads.ok ⟨hab, rfl⟩

theorem Grows.skipBytes {s t : Slice} (h : Grows s t) (i : Int) : SkipBytes t i = SkipBytes s i := by
  unfold SkipBytes
  rw [h.decode]

theorem Grows.packedLoop {α : Type} {s t : Slice} (h : Grows s t) (conv : UInt64 → α) :
    Leads Eq (Pb.packedLoop conv s) (Pb.packedLoop conv t) := by
  unfold Pb.packedLoop
  refine forNext_leads h.1 ?_ rfl
  rintro n a _ rfl
  refine (Leads.of_eq (h.decode n)).bind ?_
  rintro ⟨v, n⟩ _ rfl
  exact Leads.ok ⟨rfl, rfl⟩

theorem Grows.packedDeltaLoop {s t : Slice} (h : Grows s t) :
    Leads Eq (Pb.packedDeltaLoop s) (Pb.packedDeltaLoop t) := by
  unfold Pb.packedDeltaLoop
  refine forNext_leads h.1 ?_ rfl
  rintro n a _ rfl
  refine (Leads.of_eq (h.decode n)).bind ?_
  rintro ⟨v, n⟩ _ rfl
  exact Leads.ok ⟨rfl, rfl⟩

theorem Grows.packed {α β : Type} {s t : Slice} (h : Grows s t) (i : Int) (f : Slice → Res α)
    (g : α → β) (hf : ∀ s t, Grows s t → Leads Eq (f s) (f t)) :
    Leads Eq (do
      let (inner, next) ← DecodeBytes s i
      let out ← f inner
      .ok (g out, next)) (do
      let (inner, next) ← DecodeBytes t i
      let out ← f inner
      .ok (g out, next)) := by
  unfold DecodeBytes
  refine (h.readBytes i).bind ?_
  rintro ⟨a, n⟩ ⟨b, _⟩ ⟨hab, rfl⟩
  dsimp only
  refine (hf a b hab).bind ?_
  rintro x _ rfl
  exact Leads.ok rfl

theorem Grows.decodeString {s t : Slice} (h : Grows s t) (i : Int) :
    Leads Eq (DecodeString s i) (DecodeString t i) := by
  unfold DecodeString DecodeBytes
  refine (h.readBytes i).bind ?_
  rintro ⟨a, n⟩ ⟨b, _⟩ ⟨hab, rfl⟩
  dsimp only
  rw [hab.1]
  exact Leads.ok rfl

theorem Grows.u32packed {s t : Slice} (h : Grows s t) (i : Int) :
    Leads Eq (DecodeU32Packed s i) (DecodeU32Packed t i) :=
  h.packed i _ id fun _ _ h => h.packedLoop _

theorem Grows.i32packed {s t : Slice} (h : Grows s t) (i : Int) :
    Leads Eq (DecodeI32Packed s i) (DecodeI32Packed t i) :=
  h.packed i _ id fun _ _ h => h.packedLoop _

theorem Grows.s32packed {s t : Slice} (h : Grows s t) (i : Int) :
    Leads Eq (DecodeS32Packed s i) (DecodeS32Packed t i) :=
  h.packed i _ id fun _ _ h => h.packedLoop _

theorem Grows.s64packed {s t : Slice} (h : Grows s t) (i : Int) :
    Leads Eq (DecodeS64Packed s i) (DecodeS64Packed t i) :=
  h.packed i _ id fun _ _ h => h.packedLoop _

theorem Grows.u64packed {s t : Slice} (h : Grows s t) (i : Int) :
    Leads Eq (DecodeU64Packed s i) (DecodeU64Packed t i) :=
  h.packed i _ id fun _ _ h => h.packedLoop _

theorem Grows.packedDelta {s t : Slice} (h : Grows s t) (i : Int) :
    Leads Eq (DecodeS64PackedDelta s i) (DecodeS64PackedDelta t i) :=
  h.packed i _ Prod.snd fun _ _ h => h.packedDeltaLoop

theorem Grows.decodeI64 {s t : Slice} (h : Grows s t) (i : Int) : DecodeI64 t i = DecodeI64 s i := by
  unfold DecodeI64; rw [h.decode]

theorem Grows.decodeI32 {s t : Slice} (h : Grows s t) (i : Int) : DecodeI32 t i = DecodeI32 s i := by
  unfold DecodeI32; rw [h.decode]

end Osm

namespace Osm.T
open Osm Osm.Spec Osm.Pb

theorem grows_stringTable {s t : Slice} (h : Grows s t) :
    Leads Eq (ReadStringTable s) (ReadStringTable t) := by
  unfold ReadStringTable
  refine forNext_leads h.1 ?_ rfl
  rintro n a _ rfl
  unfold stringTableBody
  refine (Leads.of_eq (h.decode n)).bind ?_
  rintro ⟨v, n⟩ _ rfl
  repeat' apply Leads.ite
  all_goals
    first
    | exact Leads.panic
    | (first
       | refine (Leads.of_eq (h.decodeI64 n)).bind ?_
       | refine (Leads.of_eq (h.decodeI32 n)).bind ?_
       | refine (Leads.of_eq (h.skipBytes n)).bind ?_
       | refine (h.decodeString n).bind ?_
       | refine (h.u32packed n).bind ?_
       | refine (h.i32packed n).bind ?_
       | refine (h.u64packed n).bind ?_
       | refine (h.packedDelta n).bind ?_
       rintro v _ rfl
       exact Leads.ok ⟨rfl, rfl⟩)

theorem grows_way {s t : Slice} (h : Grows s t) : Leads Eq (ReadWay s) (ReadWay t) := by
  unfold ReadWay
  refine forNext_leads h.1 ?_ rfl
  rintro n a _ rfl
  unfold wayBody
  refine (Leads.of_eq (h.decode n)).bind ?_
  rintro ⟨v, n⟩ _ rfl
  repeat' apply Leads.ite
  all_goals
    first
    | exact Leads.panic
    | (first
       | refine (Leads.of_eq (h.decodeI64 n)).bind ?_
       | refine (Leads.of_eq (h.decodeI32 n)).bind ?_
       | refine (Leads.of_eq (h.skipBytes n)).bind ?_
       | refine (h.decodeString n).bind ?_
       | refine (h.u32packed n).bind ?_
       | refine (h.i32packed n).bind ?_
       | refine (h.u64packed n).bind ?_
       | refine (h.packedDelta n).bind ?_
       rintro v _ rfl
       exact Leads.ok ⟨rfl, rfl⟩)

theorem grows_relation {s t : Slice} (h : Grows s t) :
    Leads Eq (ReadRelation s) (ReadRelation t) := by
  unfold ReadRelation
  refine forNext_leads h.1 ?_ rfl
  rintro n a _ rfl
  unfold relationBody
  refine (Leads.of_eq (h.decode n)).bind ?_
  rintro ⟨v, n⟩ _ rfl
  repeat' apply Leads.ite
  all_goals
    first
    | exact Leads.panic
    | (first
       | refine (Leads.of_eq (h.decodeI64 n)).bind ?_
       | refine (Leads.of_eq (h.decodeI32 n)).bind ?_
       | refine (Leads.of_eq (h.skipBytes n)).bind ?_
       | refine (h.decodeString n).bind ?_
       | refine (h.u32packed n).bind ?_
       | refine (h.i32packed n).bind ?_
       | refine (h.u64packed n).bind ?_
       | refine (h.packedDelta n).bind ?_
       rintro v _ rfl
       exact Leads.ok ⟨rfl, rfl⟩)

theorem grows_dense {s t : Slice} (h : Grows s t) :
    Leads Eq (ReadDenseNodes s) (ReadDenseNodes t) := by
  unfold ReadDenseNodes
  refine forNext_leads h.1 ?_ rfl
  rintro n a _ rfl
  unfold denseBody
  refine (Leads.of_eq (h.decode n)).bind ?_
  rintro ⟨v, n⟩ _ rfl
  repeat' apply Leads.ite
  all_goals
    first
    | exact Leads.panic
    | (first
       | refine (Leads.of_eq (h.decodeI64 n)).bind ?_
       | refine (Leads.of_eq (h.decodeI32 n)).bind ?_
       | refine (Leads.of_eq (h.skipBytes n)).bind ?_
       | refine (h.decodeString n).bind ?_
       | refine (h.u32packed n).bind ?_
       | refine (h.i32packed n).bind ?_
       | refine (h.u64packed n).bind ?_
       | refine (h.packedDelta n).bind ?_
       rintro v _ rfl
       exact Leads.ok ⟨rfl, rfl⟩)

theorem grows_trim {a b : Slice} (h : Grows a b) : trimSlice b = trimSlice a := by
  unfold trimSlice; rw [h.1]

theorem grows_group (o : PBReader) {s t : Slice} (h : Grows s t) :
    Leads (fun g g' => trimGroup g' = trimGroup g) (ReadPrimitiveGroup o s)
      (ReadPrimitiveGroup o t) := by
  unfold ReadPrimitiveGroup
  refine forNext_leads h.1 ?_ rfl
  intro n p q hpq
  obtain ⟨p1, p2, p3, p4, p5, p6⟩ := p
  obtain ⟨q1, q2, q3, q4, q5, q6⟩ := q
  unfold trimGroup at hpq
  injection hpq with e1 e2 e3 e4 e5 e6
  dsimp only at e1 e2 e3 e4 e5 e6
  subst e2 e3 e5
  unfold groupBody
  refine (Leads.of_eq (h.decode n)).bind ?_
  rintro ⟨v, n⟩ _ rfl
  dsimp only
  refine .ite .panic (.ite (.ite ?_ ?_) (.ite (.ite ?_ ?_) (.ite (.ite ?_ ?_) (.ite ?_ .panic))))
  · unfold DecodeBytes
    refine (h.readBytes n).bind ?_
    rintro ⟨a, n⟩ ⟨b, _⟩ ⟨hab, rfl⟩
    refine Leads.ok ⟨rfl, ?_⟩
    simp [trimGroup, grows_trim hab, *]
  · unfold DecodeBytes
    refine (h.readBytes n).bind ?_
    rintro ⟨a, n⟩ ⟨b, _⟩ ⟨hab, rfl⟩
    dsimp only
    refine (grows_dense hab).bind ?_
    rintro v _ rfl
    refine Leads.ok ⟨rfl, ?_⟩
    simp [trimGroup, *]
  · unfold DecodeBytes
    refine (h.readBytes n).bind ?_
    rintro ⟨a, n⟩ ⟨b, _⟩ ⟨hab, rfl⟩
    refine Leads.ok ⟨rfl, ?_⟩
    simp [trimGroup, grows_trim hab, *]
  · unfold DecodeBytes
    refine (h.readBytes n).bind ?_
    rintro ⟨a, n⟩ ⟨b, _⟩ ⟨hab, rfl⟩
    dsimp only
    refine (grows_way hab).bind ?_
    rintro v _ rfl
    refine Leads.ok ⟨rfl, ?_⟩
    simp [trimGroup, *]
  · unfold DecodeBytes
    refine (h.readBytes n).bind ?_
    rintro ⟨a, n⟩ ⟨b, _⟩ ⟨hab, rfl⟩
    refine Leads.ok ⟨rfl, ?_⟩
    simp [trimGroup, grows_trim hab, *]
  · unfold DecodeBytes
    refine (h.readBytes n).bind ?_
    rintro ⟨a, n⟩ ⟨b, _⟩ ⟨hab, rfl⟩
    dsimp only
    refine (grows_relation hab).bind ?_
    rintro v _ rfl
    refine Leads.ok ⟨rfl, ?_⟩
    simp [trimGroup, *]
  · refine (Leads.of_eq (h.skipBytes n)).bind ?_
    rintro m _ rfl
    refine Leads.ok ⟨rfl, ?_⟩
    simp [trimGroup, *]

theorem grows_block (o : PBReader) {s t : Slice} (h : Grows s t) :
    Leads (fun g g' => trimBlock g' = trimBlock g) (ReadPrimitiveBlock o s)
      (ReadPrimitiveBlock o t) := by
  unfold ReadPrimitiveBlock
  refine forNext_leads h.1 ?_ rfl
  intro n p q hpq
  obtain ⟨p1, p2, p3, p4, p5, p6, p7⟩ := p
  obtain ⟨q1, q2, q3, q4, q5, q6, q7⟩ := q
  unfold trimBlock at hpq
  injection hpq with e1 e2 e3 e4 e5 e6 e7
  dsimp only at e1 e2 e3 e4 e5 e6 e7
  subst e2 e4 e5 e6 e7
  unfold blockBody
  refine (Leads.of_eq (h.decode n)).bind ?_
  rintro ⟨v, n⟩ _ rfl
  dsimp only
  refine .ite (.ite ?_ ?_) (.ite ?_ (.ite ?_ (.ite ?_ (.ite ?_ (.ite ?_ .panic)))))
  · unfold DecodeBytes
    refine (h.readBytes n).bind ?_
    rintro ⟨a, n⟩ ⟨b, _⟩ ⟨hab, rfl⟩
    refine Leads.ok ⟨rfl, ?_⟩
    simp [trimBlock, grows_trim hab, *]
  · unfold DecodeBytes
    refine (h.readBytes n).bind ?_
    rintro ⟨a, n⟩ ⟨b, _⟩ ⟨hab, rfl⟩
    dsimp only
    refine (grows_stringTable hab).bind ?_
    rintro v _ rfl
    refine Leads.ok ⟨rfl, ?_⟩
    simp [trimBlock, *]
  · unfold DecodeBytes
    refine (h.readBytes n).bind ?_
    rintro ⟨a, n⟩ ⟨b, _⟩ ⟨hab, rfl⟩
    dsimp only
    refine (grows_group o hab).bind ?_
    intro g g' hg
    refine Leads.ok ⟨rfl, ?_⟩
    simp [trimBlock, *]
  all_goals
    first
    | refine (Leads.of_eq (h.decodeI32 n)).bind ?_
    | refine (Leads.of_eq (h.decodeI64 n)).bind ?_
    rintro ⟨v, n⟩ _ rfl
    refine Leads.ok ⟨rfl, ?_⟩
    simp [trimBlock, *]

theorem grows_blobHeader {s t : Slice} (h : Grows s t) :
    Leads Eq (ReadBlobHeader s) (ReadBlobHeader t) := by
  unfold ReadBlobHeader
  refine forNext_leads h.1 ?_ rfl
  rintro n a _ rfl
  unfold blobHeaderBody
  refine (Leads.of_eq (h.decode n)).bind ?_
  rintro ⟨v, n⟩ _ rfl
  repeat' apply Leads.ite
  all_goals
    first
    | exact Leads.panic
    | (first
       | refine (Leads.of_eq (h.decodeI32 n)).bind ?_
       | refine (h.decodeString n).bind ?_
       rintro v _ rfl
       exact Leads.ok ⟨rfl, rfl⟩)

/-- A blob with the spare capacity of its parts forgotten. -/
def trimBlob (b : Blob) : Blob := ⟨b.Raw.map trimSlice, b.RawSize, b.ZLibData.map trimSlice⟩

theorem grows_blob {s t : Slice} (h : Grows s t) :
    Leads (fun b b' => trimBlob b' = trimBlob b) (ReadBlob s) (ReadBlob t) := by
  unfold ReadBlob
  refine forNext_leads h.1 ?_ rfl
  intro n p q hpq
  obtain ⟨p1, p2, p3⟩ := p
  obtain ⟨q1, q2, q3⟩ := q
  unfold trimBlob at hpq
  injection hpq with e1 e2 e3
  dsimp only at e1 e2 e3
  subst e2
  unfold blobBody
  refine (Leads.of_eq (h.decode n)).bind ?_
  rintro ⟨v, n⟩ _ rfl
  dsimp only
  refine .ite ?_ (.ite ?_ (.ite ?_ .panic))
  · unfold DecodeBytes
    refine (h.readBytes n).bind ?_
    rintro ⟨a, n⟩ ⟨b, _⟩ ⟨hab, rfl⟩
    refine Leads.ok ⟨rfl, ?_⟩
    simp [trimBlob, grows_trim hab, *]
  · refine (Leads.of_eq (h.decodeI32 n)).bind ?_
    rintro ⟨v, n⟩ _ rfl
    refine Leads.ok ⟨rfl, ?_⟩
    simp [trimBlob, *]
  · unfold DecodeBytes
    refine (h.readBytes n).bind ?_
    rintro ⟨a, n⟩ ⟨b, _⟩ ⟨hab, rfl⟩
    refine Leads.ok ⟨rfl, ?_⟩
    simp [trimBlob, grows_trim hab, *]

theorem payload_trim {inflate : Inflate} {b b' : Blob} {p : List UInt8} (h : trimBlob b' = trimBlob b)
    (hp : Payload inflate b p) : Payload inflate b' p := by
  obtain ⟨q1, q2, q3⟩ := b'
  cases hp with
  | raw r size z =>
    simp only [trimBlob, Option.map_some, Blob.mk.injEq] at h
    obtain ⟨h1, rfl, _⟩ := h
    cases q1 with
    | none => cases h1
    | some r' =>
      simp only [Option.map_some, Option.some.injEq, trimSlice, Slice.mk.injEq, and_true] at h1
      rw [← h1]
      exact .raw _ _ _
  | zlib z size p hi hs =>
    simp only [trimBlob, Option.map_some, Option.map_none, Blob.mk.injEq] at h
    obtain ⟨h1, rfl, h3⟩ := h
    cases q1 with
    | some _ => cases h1
    | none =>
      cases q3 with
      | none => cases h3
      | some z' =>
        simp only [Option.map_some, Option.some.injEq, trimSlice, Slice.mk.injEq, and_true] at h3
        exact .zlib z' size p (by rw [h3]; exact hi) hs

/-- A block whose bytes alone hold a payload that alone reads as a primitive block reads as that block wherever it
lies. -/
theorem reads_of_bare {inflate : Inflate} {o : PBReader} {bytes : List UInt8} {blob : Blob} {p : List UInt8}
    {c : PrimitiveBlock} (hb : ReadBlob ⟨bytes, []⟩ = .ok blob) (hp : Payload inflate blob p)
    (hc : ReadPrimitiveBlock o ⟨p, []⟩ = .ok c) : Reads inflate o bytes (trimBlock c) := by
  intro i spare sched _ _
  obtain ⟨blob', h1, h2⟩ := grows_blob (s := ⟨bytes, []⟩) (t := ⟨bytes, spare⟩) ⟨rfl, spare, rfl⟩ _ hb
  obtain ⟨raw, h3, h4, _⟩ := payload_raw sched (payload_trim h2 hp)
  obtain ⟨c', h5, h6⟩ := grows_block o (s := ⟨p, []⟩) (t := raw) ⟨h4, raw.spare, rfl⟩ _ hc
  refine ⟨raw, c', ?_, h5, h6⟩
  unfold Pbf.rawOf
  dsimp only
  rw [h1]
  exact h3

end Osm.T
