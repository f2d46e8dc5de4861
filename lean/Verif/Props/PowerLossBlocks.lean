import Verif.Lemmas.PowerLossBlocks
import Verif.Props.Interrupt
import Verif.Props.TagFilter

/-!
# C105: what a power failure leaves of a file of blocks

Where a block begins a lost page is noticed. Inside a block it is not.
-/

namespace Osm.Props
open Osm Osm.Spec Osm.T Osm.Pb Osm.Pbf Osm.Interrupt

/-! ## Nothing else than what was written, or zeros -/

theorem moment_crash {ops : List FsOp} {fs : FS} {f : String} {x : List UInt8} (h : Moment ops fs f x) :
    ∃ fs', CrashState ops fs fs' ∧ Holds fs' f x := by
  obtain ⟨done, rest, pos, hs, h⟩ := h
  exact ⟨_, ⟨done, rest, hs, .inl rfl⟩, pos, h⟩

theorem spoiled_of_crash {page : Nat} {ops : List FsOp} {fs : FS} {f : String} {left whole : List UInt8} (hnew : fs f = none)
    (hc : ∀ fs', CrashState ops fs fs' → fs' f = fs f ∨ ∃ k, Holds fs' f (whole.take k))
    (hp : AfterPowerLoss page ops fs f left) :
    left.length ≤ whole.length ∧ ∀ i, i < left.length → left[i]? = some 0 ∨ left[i]? = whole[i]? := by
  refine PowerLoss.spoiled_prefix (fun x hx => ?_) hp
  obtain ⟨fs', h1, pos, h2⟩ := moment_crash hx
  rcases hc fs' h1 with h | ⟨k, pos', h⟩
  · rw [h, hnew] at h2; cases h2
  · rw [h] at h2
    cases h2
    exact List.take_prefix _ _

theorem appends_all (f : String) : ∀ xs, Writes f (writeAll f xs)
  | [] => fun _ => ⟨[], rfl⟩
  | _ :: xs => writes_bind (writes_emit f _) fun _ => appends_all f xs

theorem appends_loop (f : String) : ∀ xs n, Writes f (TagFilter.writeLoop f n xs)
  | [], _ => fun _ => ⟨[], rfl⟩
  | (_, _) :: xs, n => by
    unfold TagFilter.writeLoop
    split
    · exact appends_loop f xs _
    · exact writes_bind (writes_emit f _) fun _ => writes_bind (writes_emit f _) fun _ => appends_loop f xs _

/-- C105: after a power failure the output of decompress is not longer than the complete one, and each of its bytes is the one
that was written, or zero. -/
theorem C105_bytes_decompress (page : Nat) (inflate : Inflate) (sched : Block → Sched) (cut : Option Nat) (inp out : String)
    (fs fs1 : FS) (hnew : fs out = none) (left whole : List UInt8)
    (h1 : (decompress inflate sched cut inp out).exec fs = .ok ((), fs1)) (hw : Holds fs1 out whole)
    (hp : AfterPowerLoss page (decompress inflate sched cut inp out fs).1 fs out left) :
    left.length ≤ whole.length ∧ ∀ i, i < left.length → left[i]? = some 0 ∨ left[i]? = whole[i]? :=
  spoiled_of_crash hnew (fun _ hc => crash_appended
    (appends_process out cut _ inp (fun xs fs => appends_create (appends_all out xs) fs) fs) h1 hw hc) hp

/-- C105: the same for tagfilter. -/
theorem C105_bytes_tagfilter (page : Nat) (inflate : Inflate) (sched : Block → Sched) (cut : Option Nat) (inp out : String)
    (fs fs1 : FS) (hnew : fs out = none) (left whole : List UInt8) (n : Nat)
    (h1 : (tagfilter inflate sched cut inp out).exec fs = .ok (n, fs1)) (hw : Holds fs1 out whole)
    (hp : AfterPowerLoss page (tagfilter inflate sched cut inp out fs).1 fs out left) :
    left.length ≤ whole.length ∧ ∀ i, i < left.length → left[i]? = some 0 ∨ left[i]? = whole[i]? :=
  spoiled_of_crash hnew (fun _ hc => crash_appended
    (appends_process out cut _ inp (fun xs fs => appends_create (appends_loop out xs 0) fs) fs) h1 hw hc) hp

/-- C105: the same for rewritenodes, with any number of passes. -/
theorem C105_bytes_rewritenodes (page : Nat) (inflate : Inflate) (scheds : Nat → Block → Sched) (cuts : Nat → Option Nat)
    (memory : Option UInt64) (inp index out : String)
    (fs fs1 : FS) (hnew : fs out = none) (left whole : List UInt8)
    (h1 : (rewritenodes inflate scheds cuts memory inp index out).exec fs = .ok ((), fs1)) (hw : Holds fs1 out whole)
    (hp : AfterPowerLoss page (rewritenodes inflate scheds cuts memory inp index out fs).1 fs out left) :
    left.length ≤ whole.length ∧ ∀ i, i < left.length → left[i]? = some 0 ∨ left[i]? = whole[i]? :=
  spoiled_of_crash hnew (fun _ hc => C72_rewritenodes_passes _ _ _ _ _ _ _ _ _ _ _ h1 hw hc) hp

/-- C105: the same for the second part of relindex (`sent`: what its first part hands over), with any number of passes. -/
theorem C105_bytes_relindex (page : Nat) (out wayIndex : String) (n : Nat) (sent : List (Option (List Int64)))
    (fs fs1 : FS) (hnew : fs out = none) (left whole : List UInt8)
    (h1 : (RelIndex.relindex out wayIndex n sent).exec fs = .ok ((), fs1)) (hw : Holds fs1 out whole)
    (hp : AfterPowerLoss page (RelIndex.relindex out wayIndex n sent fs).1 fs out left) :
    left.length ≤ whole.length ∧ ∀ i, i < left.length → left[i]? = some 0 ∨ left[i]? = whole[i]? :=
  spoiled_of_crash hnew (fun _ hc => C72_relindex _ _ _ _ _ _ _ _ h1 hw hc) hp

/-! ## Where a block begins a lost page is noticed -/

/-- C105, in part: what is left of the output of a rewrite pass (of blocks none of which has its header on two pages) is rejected,
or it has the first blocks of the complete output, of the same kinds and lengths, in which bytes may have become zeros. Missing: these
are not noticed (`C105_false`). -/
theorem C105_rewritenodes_partial (page : Nat) (inflate : Inflate) (sched : Block → Sched) (cut : Option Nat)
    (si : NodeIndex.SubIdx) (file : List UInt8) (bs : List Block) (hs : split file = .ok bs) (xs : List Rewrite.Out)
    (hx : mapRes (Rewrite.rewriteWork inflate sched si) (handed cut bs) = .ok xs) (hw : ∀ x ∈ xs, Writable x)
    (ho : HeadersOnOnePage page xs) (inp out : String) (fs : FS) (hin : Holds fs inp file) (hnew : fs out = none)
    (left : List UInt8) (hp : AfterPowerLoss page (rewritePass inflate sched cut si inp out fs).1 fs out left)
    (hlen : left.length < 2 ^ 62) : split left = .panic ∨
    ∃ bs', split left = .ok bs' ∧ 1 ≤ bs'.length ∧ bs'.length ≤ xs.length ∧
      Matches SpoiledBlock bs' (xs.take bs'.length) := by
  unfold rewritePass at hp
  rw [process_run cut _ inp _ hs hx fs hin, rewrite_output_ops] at hp
  refine PowerLoss.read_left hw (fun x h => ?_) hp ho hlen
  obtain ⟨j, rfl⟩ := PowerLoss.moment_created hnew h
  exact PowerLoss.part_pieces xs j

/-- C105, in part: the same for tagfilter. -/
theorem C105_tagfilter_partial (page : Nat) (inflate : Inflate) (sched : Block → Sched) (cut : Option Nat)
    (file : List UInt8) (bs : List Block) (hs : split file = .ok bs) (xs ys : List Rewrite.Out)
    (hx : mapRes (TagFilter.filterWork inflate sched) (handed cut bs) = .ok xs)
    (hy : ys = xs.filter fun x => x.1 ≠ TagFilter.filler) (hw : ∀ y ∈ ys, Writable y)
    (ho : HeadersOnOnePage page ys) (inp out : String) (fs : FS) (hin : Holds fs inp file) (hnew : fs out = none)
    (left : List UInt8) (hp : AfterPowerLoss page (tagfilter inflate sched cut inp out fs).1 fs out left)
    (hlen : left.length < 2 ^ 62) : split left = .panic ∨
    ∃ bs', split left = .ok bs' ∧ 1 ≤ bs'.length ∧ bs'.length ≤ ys.length ∧
      Matches SpoiledBlock bs' (ys.take bs'.length) := by
  unfold tagfilter at hp
  rw [process_run cut _ inp _ hs hx fs hin, tagfilter_output_ops] at hp
  have hy : TagFilter.written xs = ys := hy.symm
  rw [hy] at hp
  refine PowerLoss.read_left hw (fun x h => ?_) hp ho hlen
  obtain ⟨j, rfl⟩ := PowerLoss.moment_created hnew h
  exact PowerLoss.part_pieces ys j

/-- C105, in part: the same for decompress (whose workers deliver whole blocks). -/
theorem C105_decompress_partial (page : Nat) (inflate : Inflate) (sched : Block → Sched) (cut : Option Nat)
    (file : List UInt8) (bs : List Block) (hs : split file = .ok bs) (xs : List Rewrite.Out)
    (hx : mapRes (decompressWork inflate sched) (handed cut bs) = .ok (xs.map fun x => frame x.1 x.2))
    (hw : ∀ x ∈ xs, Writable x) (ho : HeadersOnOnePage page xs) (inp out : String) (fs : FS) (hin : Holds fs inp file)
    (hnew : fs out = none) (left : List UInt8)
    (hp : AfterPowerLoss page (decompress inflate sched cut inp out fs).1 fs out left)
    (hlen : left.length < 2 ^ 62) : split left = .panic ∨
    ∃ bs', split left = .ok bs' ∧ 1 ≤ bs'.length ∧ bs'.length ≤ xs.length ∧
      Matches SpoiledBlock bs' (xs.take bs'.length) := by
  unfold decompress at hp
  rw [process_run cut _ inp _ hs hx fs hin, decompress_output_ops] at hp
  refine PowerLoss.read_left hw (fun x h => ?_) hp ho hlen
  obtain ⟨j, rfl⟩ := PowerLoss.moment_created hnew h
  exact PowerLoss.part_frames xs j

/-! ## Inside a block it is not -/

/-- A way whose name is long. -/
def longBlock (name : GoStr) : PrimitiveBlock :=
  ⟨none, some ⟨[[], asciiBytes "name", name]⟩, [⟨none, none, [⟨9, [1], [2], [5, 6]⟩], [], [], []⟩], 100, 1000, 0, 0⟩

/-- The bytes of the way. -/
def longGroup : List UInt8 :=
  [18, 146, 128, 128, 0, 26, 143, 0, 8, 9, 18, 129, 0, 1, 26, 129, 0, 2, 66, 130, 0, 10, 2]

/-- What comes before a name of this length. -/
def beforeName (n : Nat) : List UInt8 :=
  bufField 1 [] ++ bufField 1 (asciiBytes "name") ++ (tagBytes 1 PbFixedBytes ++ leb128 (UInt64.ofNat n).toNat)

/-- The bytes of the block. -/
def longBytes (name : GoStr) : List UInt8 :=
  tagBytes 1 PbFixedBytes ++ fix4 ((beforeName name.length).length + name.length) ++ (beforeName name.length ++ name) ++ longGroup

theorem longTable (name : GoStr) : stringTableBytes ⟨[[], asciiBytes "name", name]⟩ = beforeName name.length ++ name := by
  simp [stringTableBytes, beforeName, bufField]

theorem tag1_length : (tagBytes 1 PbFixedBytes).length = 1 := by decide +kernel

theorem beforeName_length (n : Nat) : (beforeName n).length ≤ 30 := by
  have h1 : (bufField 1 [] ++ bufField 1 (asciiBytes "name")).length = 8 := by decide +kernel
  have h2 := leb128_length_le10 (UInt64.ofNat n)
  unfold beforeName
  rw [List.length_append, h1, List.length_append, tag1_length]
  omega

theorem longBlock_bytes (name : GoStr) (hn : name.length < 2 ^ 26) : blockBytes (longBlock name) = some (longBytes name) := by
  have hl := beforeName_length name.length
  have hg : optConcat (fun g => optField fix4 268435456 2 (groupBytes g)) (longBlock []).PrimitiveGroup = some longGroup := by
    decide +kernel
  have ht : optField fix4 268435456 1 (some (stringTableBytes ⟨[[], asciiBytes "name", name]⟩)) =
      some (tagBytes 1 PbFixedBytes ++ fix4 ((beforeName name.length).length + name.length) ++ (beforeName name.length ++ name)) := by
    rw [longTable]
    unfold optField
    dsimp only
    rw [if_pos (by rw [List.length_append]; omega), List.length_append]
  show optApp (optField fix4 268435456 1 (some (stringTableBytes ⟨[[], asciiBytes "name", name]⟩)))
    (optApp (optConcat (fun g => optField fix4 268435456 2 (groupBytes g)) (longBlock []).PrimitiveGroup) (some [])) = _
  rw [ht, hg]
  simp [optApp, longBytes]

/-- A file with this block. -/
def longFile (name : GoStr) : List UInt8 := fileOf [(osmData, rawBlob (longBytes name))]

theorem longBytes_length (name : GoStr) : (longBytes name).length ≤ name.length + 100 := by
  have := beforeName_length name.length
  unfold longBytes
  simp only [List.length_append, tag1_length, fix4, List.length_cons, List.length_nil, longGroup]
  omega

theorem longBytes_ne (name : GoStr) : longBytes name ≠ [] := by
  intro h
  have := congrArg List.length h
  unfold longBytes at this
  simp [fix4] at this

theorem long_writable (name : GoStr) (hn : name.length < 2 ^ 26) : Writable (osmData, rawBlob (longBytes name)) := by
  have := longBytes_length name
  exact ⟨.inr rfl, rawBlob_length _ (by omega)⟩

theorem longFile_length (name : GoStr) (hn : name.length < 2 ^ 26) : (longFile name).length < 2 ^ 32 := by
  have := Rewrite.fileOf_length [(osmData, rawBlob (longBytes name))] (fun x hx => by
    rw [List.mem_singleton.1 hx]; exact long_writable name hn)
  simp only [List.length_cons, List.length_nil] at this
  unfold longFile
  omega

/-- The file holds the block. -/
theorem longFile_has (inflate : Inflate) (name : GoStr) (hn : name.length < 2 ^ 26) :
    FileHas inflate readAll (longFile name) [.data (longBlock name)] := by
  have hl := longFile_length name hn
  refine Rewrite.fileOf_has inflate readAll (by simp) (fun x hx => by rw [List.mem_singleton.1 hx]; exact long_writable name hn)
    (by unfold longFile at hl; omega) (.cons ⟨rfl, ?_⟩ .nil)
  intro i spare sched hf hp
  obtain ⟨blob, h1, h2⟩ := rawBlob_read inflate (longBytes name) spare (longBytes_ne name) hf i osmData
  obtain ⟨raw, h3, h4, h34⟩ := payload_raw sched h2
  have hs : BlockShape readAll (longBlock name) := by
    refine ⟨rfl, ?_⟩
    intro g hg
    obtain rfl := List.mem_singleton.1 hg
    exact ⟨rfl, rfl, rfl⟩
  have hrf : (Slice.mk (longBytes name) raw.spare).Fits := by
    rcases h34 with ⟨r, h7, rfl⟩ | h7
    · rw [← h4]; exact (readBlob_fits hf h1).1 _ h7
    · have := poolBuffer_fits sched.pooled (longBytes name).length hp (by have := longBytes_length name; omega)
      unfold Slice.Fits
      rw [h7]; exact this
  obtain ⟨pb, h5, h6⟩ := block_read readAll (longBlock name) hs _ (longBlock_bytes name hn) raw.spare hrf
  refine ⟨raw, pb, ?_, ?_, ?_⟩
  · show (ReadBlob ⟨rawBlob (longBytes name), spare⟩ >>= fun x => GetRawData inflate sched x) = _
    have h1 : ReadBlob ⟨rawBlob (longBytes name), spare⟩ = .ok blob := h1
    rw [h1]
    exact h3
  · rw [← h4] at h6
    exact h6
  · rw [h5]; rfl

/-- Files with names of the same length differ in the name only. -/
theorem longFile_split (name name' : GoStr) (hl : name'.length = name.length) : ∃ before : List UInt8, before.length ≤ 200 ∧
    longFile name = before ++ (name ++ longGroup) ∧ longFile name' = before ++ (name' ++ longGroup) := by
  have hp : ∀ n : GoStr, n.length = name.length → longBytes n =
      (tagBytes 1 PbFixedBytes ++ fix4 ((beforeName name.length).length + name.length) ++ beforeName name.length) ++
        (n ++ longGroup) := by
    intro n h
    unfold longBytes
    rw [h]
    simp only [List.append_assoc]
  have hpl : ∀ n : GoStr, n.length = name.length → (longBytes n).length = (longBytes name).length := by
    intro n h
    rw [hp n h, hp name rfl]
    simp only [List.length_append, h]
  have hb : ∀ n : GoStr, n.length = name.length → rawBlob (longBytes n) =
      (tagBytes 1 PbFixedBytes ++ leb128 (UInt64.ofNat (longBytes name).length).toNat) ++ longBytes n := by
    intro n h
    unfold rawBlob bufField
    rw [hpl n h]
  have hbl : ∀ n : GoStr, n.length = name.length → (rawBlob (longBytes n)).length = (rawBlob (longBytes name)).length := by
    intro n h
    rw [hb n h, hb name rfl]
    simp only [List.length_append, hpl n h]
  have hf : ∀ n : GoStr, n.length = name.length → longFile n =
      Rewrite.frameHeader osmData (rawBlob (longBytes name)) ++ rawBlob (longBytes n) := by
    intro n h
    have : Rewrite.frameHeader osmData (rawBlob (longBytes n)) = Rewrite.frameHeader osmData (rawBlob (longBytes name)) := by
      unfold Rewrite.frameHeader
      rw [hbl n h]
    rw [← this]
    simp [longFile, fileOf, Rewrite.frame_eq]
  refine ⟨Rewrite.frameHeader osmData (rawBlob (longBytes name)) ++
    ((tagBytes 1 PbFixedBytes ++ leb128 (UInt64.ofNat (longBytes name).length).toNat) ++
    (tagBytes 1 PbFixedBytes ++ fix4 ((beforeName name.length).length + name.length) ++ beforeName name.length)), ?_, ?_, ?_⟩
  · have h1 := headerOf_length (kind := osmData) (data := rawBlob (longBytes name)) (.inr rfl)
    have h2 := PowerLoss.frameHeader_length osmData (rawBlob (longBytes name))
    have h3 := leb128_length_le10 (UInt64.ofNat (longBytes name).length)
    have h4 := beforeName_length name.length
    simp only [List.length_append, tag1_length, fix4, List.length_cons, List.length_nil]
    omega
  · rw [hf name rfl, hb name rfl, hp name rfl]
    simp only [List.append_assoc]
  · rw [hf name' hl, hb name' hl, hp name' hl]
    simp only [List.append_assoc]

/-- A name of which the second page of the file is lost. -/
theorem lose_name (page : Nat) (hpage : 200 ≤ page) (before name rest : List UInt8) (hb : before.length ≤ 200)
    (hn : name.length = 2 * page) : ∃ name' : List UInt8, name'.length = name.length ∧
    PowerLoss.losePage page 1 (before ++ (name ++ rest)) = before ++ (name' ++ rest) ∧
    ∃ i, i < name.length ∧ name'[i]? = some 0 := by
  refine ⟨name.mapIdx fun i b => if (i + before.length) / page = 1 then 0 else b, List.length_mapIdx, ?_,
    page - before.length, by omega, ?_⟩
  · unfold PowerLoss.losePage
    rw [List.mapIdx_append, List.mapIdx_append]
    have h1 : before.mapIdx (fun i b => if i / page = 1 then (0 : UInt8) else b) = before := by
      apply List.ext_getElem?
      intro i
      rw [List.getElem?_mapIdx]
      by_cases hi : i < before.length
      · have : i / page = 0 := Nat.div_eq_of_lt (by omega)
        simp [this]
      · rw [List.getElem?_eq_none (by omega)]; rfl
    have h2 : rest.mapIdx (fun i b => if (i + name.length + before.length) / page = 1 then (0 : UInt8) else b) = rest := by
      apply List.ext_getElem?
      intro i
      rw [List.getElem?_mapIdx]
      have : 2 ≤ (i + name.length + before.length) / page := by
        rw [Nat.le_div_iff_mul_le (by omega)]; omega
      have : (i + name.length + before.length) / page ≠ 1 := by omega
      simp [this]
    rw [h1]
    rw [h2]
  · rw [List.getElem?_mapIdx, List.getElem?_eq_getElem (by omega)]
    have : (page - before.length + before.length) / page = 1 := by
      rw [Nat.sub_add_cancel (by omega), Nat.div_self (by omega)]
    simp [this]

/-- C105 fails: after a power failure in which one page was lost, inside a block, the output of decompress is accepted, has
the way that it should have, but that way has another name. -/
theorem C105_false (page : Nat) (hpage : 200 ≤ page) (hpage2 : page < 2 ^ 25) (inflate : Inflate) (sched : Block → Sched)
    (inp out : String) (fs : FS) (name : GoStr) (hname : name = List.replicate (2 * page) 97)
    (hin : Holds fs inp (longFile name)) (hnew : fs out = none) :
    ∃ fs' left name', (decompress inflate sched none inp out).exec fs = .ok ((), fs') ∧ Holds fs' out (longFile name) ∧
      FileHas inflate readAll (longFile name) [.data (longBlock name)] ∧
      AfterPowerLoss page (decompress inflate sched none inp out fs).1 fs out left ∧
      FileHas inflate readAll left [.data (longBlock name')] ∧ name' ≠ name := by
  have hnl : name.length = 2 * page := by rw [hname, List.length_replicate]
  have hlt := longFile_length name (by omega)
  obtain ⟨bs, hs, hseen, -⟩ := C53_round_trip [(osmData, rawBlob (longBytes name))] (by simp)
    (fun x hx => by rw [List.mem_singleton.1 hx]; exact long_writable name (by omega)) (by unfold longFile at hlt; omega)
  have hx : mapRes (decompressWork inflate sched) (handed none bs) = .ok [frame osmData (rawBlob (longBytes name))] := by
    have hfits := blockFile_fits ((split_iff _ (by unfold longFile at hlt; omega) bs).1 hs).2 (by unfold longFile at hlt; omega)
    match bs, hseen with
    | [⟨i, ⟨d, sp⟩, k⟩], hseen =>
      simp only [List.map_cons, List.map_nil, Seen, List.cons.injEq, Prod.mk.injEq, and_true] at hseen
      obtain ⟨rfl, rfl⟩ := hseen
      have := decompressWork_eq inflate sched _ _
        (rawBlob_read inflate (longBytes name) sp (longBytes_ne name) (hfits ⟨i, ⟨rawBlob (longBytes name), sp⟩, osmData⟩ (List.mem_singleton.2 rfl)) i osmData) (longBytes_ne name)
      simp only [handed, mapRes, this]
      rfl
  have hrun := process_run none (decompressWork inflate sched) inp (decompressOutput out) hs hx fs hin
  obtain ⟨fs', e1, e2, -⟩ := decompressOutput_exec out [frame osmData (rawBlob (longBytes name))] fs
  have hfl : [frame osmData (rawBlob (longBytes name))].flatten = longFile name := by simp [longFile, fileOf]
  rw [hfl] at e2
  obtain ⟨before, b1, b2, -⟩ := longFile_split name name rfl
  obtain ⟨name', n1, n2, i, n3, n4⟩ := lose_name page hpage before name longGroup b1 hnl
  obtain ⟨before', -, c1, c2⟩ := longFile_split name name' n1
  have hbb : before' = before := by
    rw [b2] at c1
    exact (List.append_cancel_right c1).symm
  subst hbb
  refine ⟨fs', PowerLoss.losePage page 1 (longFile name), name', ?_, e2, longFile_has inflate name (by omega), ?_, ?_, ?_⟩
  · unfold Prog.exec at e1 ⊢
    unfold decompress
    rw [hrun]
    exact e1
  · unfold decompress
    rw [hrun, decompress_output_ops]
    refine PowerLoss.lost_page ?_ ?_ 1
    · obtain ⟨pos, e2⟩ := e2
      refine ⟨_, [], pos, (List.append_nil _).symm, ?_⟩
      rw [← decompress_output_ops out _ fs]
      unfold Prog.exec at e1
      rcases ho : decompressOutput out [frame osmData (rawBlob (longBytes name))] fs with ⟨ops, r⟩
      rw [ho] at e1
      cases r with
      | ok u => cases e1; exact e2
      | panic => cases e1
      | hang => cases e1
    · exact ⟨[.create out], _, 0, rfl, by simp [runOps_cons, FsOp.run, set_same]⟩
  · rw [b2, n2, ← c2]
    exact longFile_has inflate name' (by omega)
  · rintro rfl
    rw [hname, List.getElem?_replicate] at n4
    split at n4
    · cases n4
    · cases n4

/-! ## Examples -/

/-- A header block of 39 bytes and a block of data of 57. -/
def pagedBlocks : List (GoStr × List UInt8) :=
  [(osmHeader, rawBlob (List.replicate 20 1)), (osmData, rawBlob (List.replicate 40 1))]

/-- No header is on two pages. -/
theorem paged_headers : HeadersOnOnePage 64 pagedBlocks ∧ ∀ x ∈ pagedBlocks, Writable x := by
  constructor
  · intro ys x zs hx i h1 h2
    have l1 : (frame osmHeader (rawBlob (List.replicate 20 1))).length = 39 := by decide +kernel
    have l2 : (frame osmData (rawBlob (List.replicate 40 1))).length = 57 := by decide +kernel
    have l3 : (rawBlob (List.replicate 20 1)).length = 22 := by decide +kernel
    have l4 : (rawBlob (List.replicate 40 1)).length = 42 := by decide +kernel
    match ys, hx with
    | [], hx =>
      have hx := (List.cons_eq_cons.1 hx).1
      subst hx
      simp only [fileOf, List.flatMap_nil, List.length_nil] at h1 h2 ⊢
      rw [Nat.div_eq_of_lt (by omega), Nat.div_eq_of_lt (by omega)]
    | [y], hx =>
      have hy := (List.cons_eq_cons.1 hx).1
      have hz := (List.cons_eq_cons.1 (List.cons_eq_cons.1 hx).2).1
      subst hy
      subst hz
      simp only [fileOf, List.flatMap_cons, List.flatMap_nil, List.append_nil, l1] at h1 h2 ⊢
      rw [Nat.div_eq_of_lt (by omega), Nat.div_eq_of_lt (by omega)]
    | _ :: _ :: ys, hx =>
      have := congrArg List.length hx
      simp [pagedBlocks] at this
  · intro x hx
    simp only [pagedBlocks, List.mem_cons, List.not_mem_nil, or_false] at hx
    rcases hx with rfl | rfl
    · exact ⟨.inl rfl, by decide +kernel⟩
    · exact ⟨.inr rfl, by decide +kernel⟩

/-- The file is read; without the page of the second header it is rejected; without a page inside the second block it is read, with
as many blocks. -/
example : (∃ bs, split (fileOf pagedBlocks) = .ok bs ∧ bs.length = 2) ∧
    split (PowerLoss.losePage 39 1 (fileOf pagedBlocks)) = .panic ∧
    ∃ bs, split (PowerLoss.losePage 80 1 (fileOf pagedBlocks)) = .ok bs ∧ bs.length = 2 := by
  have h : ∀ f : List UInt8, (split f >>= fun bs => Res.ok bs.length) = .ok 2 → ∃ bs, split f = .ok bs ∧ bs.length = 2 := by
    intro f hf
    obtain ⟨bs, h1, h2⟩ := Res.bind_eq_ok.1 hf
    exact ⟨bs, h1, Res.ok.inj h2⟩
  exact ⟨h _ (by decide +kernel), by decide +kernel, h _ (by decide +kernel)⟩

/-- What the workers of decompress make of this file. -/
theorem paged_works (inflate : Inflate) (sched : Block → Sched) : ∃ bs, split (fileOf pagedBlocks) = .ok bs ∧
    mapRes (decompressWork inflate sched) (handed none bs) = .ok (pagedBlocks.map fun x => frame x.1 x.2) := by
  have hfl : (fileOf pagedBlocks).length < 2 ^ 63 := by decide +kernel
  obtain ⟨bs, hs, hseen, -⟩ := C53_round_trip pagedBlocks (by decide) paged_headers.2 hfl
  have hx : mapRes (decompressWork inflate sched) (handed none bs) = .ok (pagedBlocks.map fun x => frame x.1 x.2) := by
    have hfits := blockFile_fits ((split_iff _ hfl bs).1 hs).2 hfl
    match bs, hseen with
    | [⟨i, ⟨d, sp⟩, k⟩, ⟨i', ⟨d', sp'⟩, k'⟩], hseen =>
      simp only [pagedBlocks, List.map_cons, List.map_nil, Seen, List.cons.injEq, Prod.mk.injEq, and_true] at hseen
      obtain ⟨⟨rfl, rfl⟩, rfl, rfl⟩ := hseen
      have h1 := decompressWork_eq inflate sched _ _ (rawBlob_read inflate (List.replicate 20 1) sp (by decide)
        (hfits ⟨i, ⟨rawBlob (List.replicate 20 1), sp⟩, osmHeader⟩ (by simp)) i osmHeader) (by decide)
      have h2 := decompressWork_eq inflate sched _ _ (rawBlob_read inflate (List.replicate 40 1) sp' (by decide)
        (hfits ⟨i', ⟨rawBlob (List.replicate 40 1), sp'⟩, osmData⟩ (by simp)) i' osmData) (by decide)
      simp only [handed, mapRes, h1, h2]
      rfl
  exact ⟨bs, hs, hx⟩

/-- A run of decompress on this file, as `C105_decompress_partial` has it. -/
example (inflate : Inflate) (sched : Block → Sched) (fs : FS) (hin : Holds fs "in" (fileOf pagedBlocks))
    (hnew : fs "out" = none) (left : List UInt8)
    (hp : AfterPowerLoss 64 (decompress inflate sched none "in" "out" fs).1 fs "out" left) (hlen : left.length < 2 ^ 62) :
    split left = .panic ∨ ∃ bs', split left = .ok bs' ∧ 1 ≤ bs'.length ∧ bs'.length ≤ 2 ∧
      Matches SpoiledBlock bs' (pagedBlocks.take bs'.length) := by
  obtain ⟨bs, hs, hx⟩ := paged_works inflate sched
  exact C105_decompress_partial 64 inflate sched none _ bs hs pagedBlocks hx paged_headers.2 paged_headers.1 "in" "out" fs hin hnew
    left hp hlen

end Osm.Props
