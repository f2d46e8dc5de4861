import Verif.Lemmas.FormatWrite

/-!
# Parsing messages as the format has them

Only for examples: a parser that is right about what it accepts. It is not the code's parser and shares nothing with it.
-/

namespace Osm.Format
open Osm Osm.Spec Osm.Spec.Proto Osm.Spec.OsmFormat Osm.T Osm.Pbf

/-- A varint at the front: its bytes, its value, the rest. -/
def takeVarint : List UInt8 → Option (List UInt8 × Nat × List UInt8)
  | [] => none
  | b :: bs => if b.toNat < 128 then some ([b], b.toNat, bs) else
    match takeVarint bs with
    | some (enc, n, rest) => some (b :: enc, (b.toNat - 128) + 128 * n, rest)
    | none => none

theorem takeVarint_sound : ∀ {bs enc rest : List UInt8} {n : Nat}, takeVarint bs = some (enc, n, rest) →
    bs = enc ++ rest ∧ IsVarint enc n
  | [], _, _, _, h => by cases h
  | b :: bs, enc, rest, n, h => by
    unfold takeVarint at h
    split at h
    · next hb => cases h; exact ⟨rfl, .last b hb⟩
    · next hb =>
      split at h
      · next e m r heq =>
        cases h
        obtain ⟨h1, h2⟩ := takeVarint_sound heq
        exact ⟨by rw [h1]; rfl, .more b e m (by omega) h2⟩
      · cases h

/-- The same, of 64 bits and in at most ten bytes. -/
def takeNumber (bs : List UInt8) : Option (List UInt8 × Nat × List UInt8) :=
  match takeVarint bs with
  | some (enc, n, rest) => if enc.length ≤ 10 ∧ n < 2 ^ 64 then some (enc, n, rest) else none
  | none => none

theorem takeNumber_sound {bs enc rest : List UInt8} {n : Nat} (h : takeNumber bs = some (enc, n, rest)) :
    bs = enc ++ rest ∧ Varint enc n := by
  unfold takeNumber at h
  split at h
  · next heq =>
    split at h
    · next hc =>
      cases h
      obtain ⟨h1, h2⟩ := takeVarint_sound heq
      exact ⟨h1, h2, hc.1, hc.2⟩
    · cases h
  · cases h

/-- A packed list. -/
def parsePacked : Nat → List UInt8 → Option (List Nat)
  | _, [] => some []
  | 0, _ => none
  | k + 1, bs => match takeNumber bs with
    | some (_, n, rest) => (parsePacked k rest).map (n :: ·)
    | none => none

theorem parsePacked_sound : ∀ {k : Nat} {bs : List UInt8} {ns : List Nat}, parsePacked k bs = some ns → IsPacked bs ns := by
  intro k
  induction k with
  | zero =>
    intro bs ns h
    cases bs with
    | nil => cases h; exact .nil
    | cons => cases h
  | succ k ih =>
    intro bs ns h
    cases bs with
    | nil => cases h; exact .nil
    | cons b bs =>
      unfold parsePacked at h
      split at h
      · next heq =>
        obtain ⟨rfl', h2⟩ := takeNumber_sound heq
        obtain ⟨ns', e, rfl⟩ := Option.map_eq_some_iff.1 h
        rw [rfl']
        exact .cons h2 (ih e)
      · cases h

/-- A message. -/
def parseMessage : Nat → List UInt8 → Option (List Field)
  | _, [] => some []
  | 0, _ => none
  | k + 1, bs => match takeNumber bs with
    | none => none
    | some (_, tag, rest) => match takeNumber rest with
      | none => none
      | some (_, n, rest) =>
        if tag % 8 = 0 then (parseMessage k rest).map ((tag / 8, .num n) :: ·)
        else if tag % 8 = 2 ∧ n ≤ rest.length then
          (parseMessage k (rest.drop n)).map ((tag / 8, .bytes (rest.take n)) :: ·)
        else none

theorem parseMessage_sound : ∀ {k : Nat} {bs : List UInt8} {fs : List Field}, parseMessage k bs = some fs →
    IsMessage bs fs := by
  intro k
  induction k with
  | zero =>
    intro bs fs h
    cases bs with
    | nil => cases h; exact .nil
    | cons => cases h
  | succ k ih =>
    intro bs fs h
    cases bs with
    | nil => cases h; exact .nil
    | cons b bs =>
      unfold parseMessage at h
      split at h
      · cases h
      · next enc tag rest heq =>
        split at h
        · cases h
        · next enc2 n rest2 heq2 =>
          obtain ⟨e1, v1⟩ := takeNumber_sound heq
          obtain ⟨e2, v2⟩ := takeNumber_sound heq2
          split at h
          · next ht =>
            obtain ⟨fs', e, rfl⟩ := Option.map_eq_some_iff.1 h
            rw [e1, e2, ← List.append_assoc]
            refine .cons (.num _ _ _ _ ?_ v2) (ih e)
            rw [show 8 * (tag / 8) + 0 = tag by omega]
            exact v1
          · split at h
            · next ht =>
              obtain ⟨fs', e, rfl⟩ := Option.map_eq_some_iff.1 h
              rw [e1, e2, ← List.take_append_drop n rest2, ← List.append_assoc, ← List.append_assoc]
              have hn : (rest2.take n).length = n := by rw [List.length_take]; omega
              simp only [List.take_append_drop]
              refine .cons (.bytes enc enc2 (rest2.take n) _ ?_ ?_) (ih e)
              · rw [show 8 * (tag / 8) + 2 = tag by omega]
                exact v1
              · rw [hn]; exact v2
            · cases h

/-- `Only`, computed. -/
def onlyB (ns bs : List Nat) (fs : List Field) : Bool := fs.all fun f => match f with
  | (k, .num _) => ns.contains k
  | (k, .bytes _) => bs.contains k

theorem onlyB_sound {ns bs : List Nat} {fs : List Field} (h : onlyB ns bs fs = true) : Only ns bs fs := by
  intro f hf
  have := List.all_eq_true.1 h f hf
  obtain ⟨k, v⟩ := f
  cases v <;> simpa using this

/-- The message, if it has no other fields. -/
def parseOnly (ns bs : List Nat) (msg : List UInt8) : Option (List Field) :=
  match parseMessage msg.length msg with
  | some fs => if onlyB ns bs fs then some fs else none
  | none => none

theorem parseOnly_sound {ns bs : List Nat} {msg : List UInt8} {fs : List Field} (h : parseOnly ns bs msg = some fs) :
    IsMessage msg fs ∧ Only ns bs fs := by
  unfold parseOnly at h
  split at h
  · next heq =>
    split at h
    · next hc => cases h; exact ⟨parseMessage_sound heq, onlyB_sound hc⟩
    · cases h
  · cases h

/-- The numbers of a packed list. -/
def packedOf (p : List UInt8) : Option (List Nat) := parsePacked p.length p

/-- `Once`, computed. -/
def onceB (ks : List Nat) (fs : List Field) : Bool := ks.all fun k => decide ((items k fs).length ≤ 1)

theorem onceB_sound {ks : List Nat} {fs : List Field} (h : onceB ks fs = true) : Once ks fs := by
  intro k hk
  simpa using List.all_eq_true.1 h k hk

def deltas (ns : List Nat) : List Int64 := (sums 0 (ns.map unzigzag)).map Int64.ofInt

def stringTableOf (msg : List UInt8) : Option StringTable :=
  (parseOnly [] [1] msg).bind fun fs => some ⟨items 1 fs⟩

def wayOf (msg : List UInt8) : Option Way :=
  (parseOnly [1] [2, 3, 4, 8] msg).bind fun fs =>
  (packedOf (packed 2 fs)).bind fun keys => (packedOf (packed 3 fs)).bind fun vals => (packedOf (packed 8 fs)).bind fun refs =>
  if onceB [2, 3, 8] fs then
    some ⟨Int64.ofNat (scalar 0 1 fs), keys.map UInt32.ofNat, vals.map UInt32.ofNat, deltas refs⟩ else none

def relationOf (msg : List UInt8) : Option Relation :=
  (parseOnly [1] [2, 3, 4, 8, 9, 10] msg).bind fun fs =>
  (packedOf (packed 2 fs)).bind fun keys => (packedOf (packed 3 fs)).bind fun vals => (packedOf (packed 8 fs)).bind fun roles =>
  (packedOf (packed 9 fs)).bind fun ids => (packedOf (packed 10 fs)).bind fun types =>
  if onceB [2, 3, 8, 9, 10] fs then
    some ⟨Int64.ofNat (scalar 0 1 fs), keys.map UInt32.ofNat, vals.map UInt32.ofNat, roles.map Int32.ofNat, deltas ids,
      types.map UInt64.ofNat⟩ else none

def denseOf (msg : List UInt8) : Option DenseNodes :=
  (parseOnly [] [1, 5, 8, 9, 10] msg).bind fun fs =>
  (packedOf (packed 1 fs)).bind fun ids => (packedOf (packed 8 fs)).bind fun lats => (packedOf (packed 9 fs)).bind fun lons =>
  (packedOf (packed 10 fs)).bind fun kvs =>
  if onceB [1, 8, 9, 10] fs then some ⟨deltas ids, deltas lats, deltas lons, kvs.map Int32.ofNat⟩ else none

/-- All of them, or nothing. -/
def allOf {α β : Type} (f : α → Option β) : List α → Option (List β)
  | [] => some []
  | x :: xs => (f x).bind fun y => (allOf f xs).bind fun ys => some (y :: ys)

theorem allOf_sound {α β : Type} {f : α → Option β} {R : α → β → Prop} (hf : ∀ x y, f x = some y → R x y) :
    ∀ {xs : List α} {ys : List β}, allOf f xs = some ys → Matches R xs ys
  | [], ys, h => by cases h; exact .nil
  | x :: xs, ys, h => by
    unfold allOf at h
    simp only [Option.bind_eq_some_iff, Option.some.injEq] at h
    obtain ⟨y, h1, ys', h2, rfl⟩ := h
    exact .cons (hf _ _ h1) (allOf_sound hf h2)

/-- At most one. -/
def optOf {β : Type} : List β → Option (Option β)
  | [] => some none
  | [y] => some (some y)
  | _ => none

theorem optOf_sound {β : Type} {ys : List β} {o : Option β} (h : optOf ys = some o) : ys = o.toList := by
  match ys, h with
  | [], h => cases h; rfl
  | [y], h => cases h; rfl

def groupOfBytes (msg : List UInt8) : Option T.PrimitiveGroup :=
  (parseOnly [] [2, 3, 4, 5] msg).bind fun fs =>
  (allOf denseOf (items 2 fs)).bind fun ds => (optOf ds).bind fun d => (allOf wayOf (items 3 fs)).bind fun ws =>
  (allOf relationOf (items 4 fs)).bind fun rs => some { PrimitiveGroup.zero with Dense := d, Ways := ws, Relations := rs }

def blockOf (msg : List UInt8) : Option PrimitiveBlock :=
  (parseOnly [17, 18, 19, 20] [1, 2] msg).bind fun fs =>
  (allOf stringTableOf (items 1 fs)).bind fun ts => (optOf ts).bind fun t =>
  (allOf groupOfBytes (items 2 fs)).bind fun gs => some
    { StringTableRaw := none, StringTable := t, PrimitiveGroup := gs, Granularity := Int32.ofNat (scalar 100 17 fs),
      DateGranularity := Int32.ofNat (scalar 1000 18 fs), LatOffset := Int64.ofNat (scalar 0 19 fs),
      LonOffset := Int64.ofNat (scalar 0 20 fs) }

theorem stringTableOf_sound (msg : List UInt8) (st : StringTable) (h : stringTableOf msg = some st) : IsStringTable msg st := by
  simp only [stringTableOf, Option.bind_eq_some_iff, Option.some.injEq] at h
  obtain ⟨fs, h1, rfl⟩ := h
  obtain ⟨h1, h2⟩ := parseOnly_sound h1
  exact ⟨fs, h1, h2, rfl⟩

theorem wayOf_sound (msg : List UInt8) (w : Way) (h : wayOf msg = some w) : IsWay msg w := by
  simp only [wayOf, Option.bind_eq_some_iff, Option.ite_none_right_eq_some, Option.some.injEq] at h
  obtain ⟨fs, h1, ks, h2, vs, h3, rs, h4, ho, rfl⟩ := h
  obtain ⟨h1, h5⟩ := parseOnly_sound h1
  exact ⟨fs, h1, h5, onceB_sound ho, rfl, ⟨_, parsePacked_sound h2, rfl⟩, ⟨_, parsePacked_sound h3, rfl⟩,
    ⟨_, parsePacked_sound h4, rfl⟩⟩

theorem relationOf_sound (msg : List UInt8) (r : Relation) (h : relationOf msg = some r) : IsRelation msg r := by
  simp only [relationOf, Option.bind_eq_some_iff, Option.ite_none_right_eq_some, Option.some.injEq] at h
  obtain ⟨fs, h1, ks, h2, vs, h3, rs, h4, ids, h6, ts, h7, ho, rfl⟩ := h
  obtain ⟨h1, h5⟩ := parseOnly_sound h1
  exact ⟨fs, h1, h5, onceB_sound ho, rfl, ⟨_, parsePacked_sound h2, rfl⟩, ⟨_, parsePacked_sound h3, rfl⟩,
    ⟨_, parsePacked_sound h4, rfl⟩, ⟨_, parsePacked_sound h6, rfl⟩, ⟨_, parsePacked_sound h7, rfl⟩⟩

theorem denseOf_sound (msg : List UInt8) (d : DenseNodes) (h : denseOf msg = some d) : IsDense msg d := by
  simp only [denseOf, Option.bind_eq_some_iff, Option.ite_none_right_eq_some, Option.some.injEq] at h
  obtain ⟨fs, h1, ks, h2, vs, h3, rs, h4, ids, h6, ho, rfl⟩ := h
  obtain ⟨h1, h5⟩ := parseOnly_sound h1
  exact ⟨fs, h1, h5, onceB_sound ho, ⟨_, parsePacked_sound h2, rfl⟩, ⟨_, parsePacked_sound h3, rfl⟩,
    ⟨_, parsePacked_sound h4, rfl⟩, ⟨_, parsePacked_sound h6, rfl⟩⟩

theorem groupOfBytes_sound (msg : List UInt8) (g : T.PrimitiveGroup) (h : groupOfBytes msg = some g) : IsGroup msg g := by
  simp only [groupOfBytes, Option.bind_eq_some_iff, Option.some.injEq] at h
  obtain ⟨fs, h1, ds, h2, d, h3, ws, h4, rs, h6, rfl⟩ := h
  obtain ⟨h1, h5⟩ := parseOnly_sound h1
  refine ⟨fs, h1, h5, ?_, allOf_sound wayOf_sound h4, allOf_sound relationOf_sound h6, rfl, rfl, rfl⟩
  dsimp only
  rw [← optOf_sound h3]
  exact allOf_sound denseOf_sound h2

theorem blockOf_sound (msg : List UInt8) (b : PrimitiveBlock) (h : blockOf msg = some b) : IsBlock msg b := by
  simp only [blockOf, Option.bind_eq_some_iff, Option.some.injEq] at h
  obtain ⟨fs, h1, ts, h2, t, h3, gs, h4, rfl⟩ := h
  obtain ⟨h1, h5⟩ := parseOnly_sound h1
  refine ⟨fs, h1, h5, ?_, allOf_sound groupOfBytes_sound h4, rfl, rfl, rfl, rfl, rfl⟩
  dsimp only
  rw [← optOf_sound h3]
  exact allOf_sound stringTableOf_sound h2

/-- The type and the size in the header of a blob. -/
def headerOf (msg : List UInt8) : Option (GoStr × Int32) :=
  (parseOnly [3] [1] msg).bind fun fs => some ((items 1 fs).getLast?.getD [], Int32.ofNat (scalar 0 3 fs))

theorem headerOf_sound (msg : List UInt8) (kind : GoStr) (size : Int32) (h : headerOf msg = some (kind, size)) :
    IsBlobHeader msg kind size := by
  simp only [headerOf, Option.bind_eq_some_iff, Option.some.injEq, Prod.mk.injEq] at h
  obtain ⟨fs, h1, rfl, rfl⟩ := h
  obtain ⟨h1, h2⟩ := parseOnly_sound h1
  exact ⟨fs, h1, h2, rfl, rfl⟩

/-- The raw payload of a blob. -/
def rawPayloadOf (msg : List UInt8) : Option (List UInt8) :=
  (parseOnly [2] [1, 3] msg).bind fun fs => if items 3 fs = [] then (items 1 fs).getLast? else none

theorem rawPayloadOf_sound (inflate : Inflate) (msg p : List UInt8) (h : rawPayloadOf msg = some p) : IsPayload inflate msg p := by
  simp only [rawPayloadOf, Option.bind_eq_some_iff, Option.ite_none_right_eq_some] at h
  obtain ⟨fs, h1, h2, h3⟩ := h
  obtain ⟨h1, h4⟩ := parseOnly_sound h1
  exact .inl ⟨_, fs, h1, h4, h3.symm, rfl, by rw [h2]; rfl⟩

end Osm.Format
