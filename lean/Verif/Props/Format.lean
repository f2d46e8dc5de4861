import Verif.Lemmas.FormatOut
import Verif.Lemmas.FormatReject
import Verif.Lemmas.FormatCheck

/-!
# C87, C88: the OSM PBF format

The other properties speak of files in terms of what the code itself reads from them; a field number that is wrong both where it
is read and where it is written would not be noticed. Here the format is given by `Spec/Proto.lean` and `Spec/OsmFormat.lean`,
after the documentation of protocol buffers and the .proto files of the OSM project, without reference to the code.
-/

namespace Osm.Props
open Osm Osm.T Osm.Pb Osm.Pbf Osm.Spec Osm.Spec.Proto Osm.Spec.OsmFormat Osm.NodeIndex Osm.Rewrite Osm.Programs

/-! ## C87: what is written in the format is read as it is meant -/

/-- C87: a string table, a way, a relation and dense nodes, with the fields in any order, numbers in any length that the format
allows, and whatever is behind the slice. -/
theorem C87_entities (bs sp : List UInt8) (hf : (Slice.mk bs sp).Fits) :
    (∀ st, IsStringTable bs st → ReadStringTable ⟨bs, sp⟩ = .ok st) ∧ (∀ w, IsWay bs w → ReadWay ⟨bs, sp⟩ = .ok w) ∧
    (∀ r, IsRelation bs r → ReadRelation ⟨bs, sp⟩ = .ok r) ∧ ∀ dn, IsDense bs dn → ReadDenseNodes ⟨bs, sp⟩ = .ok dn :=
  ⟨fun _ h => Format.read_stringTable h sp hf, fun _ h => Format.read_way h sp hf, fun _ h => Format.read_relation h sp hf,
    fun _ h => Format.read_dense h sp hf⟩

/-- C87: a block. Read in full it is what the format says it is; with other options, what is skipped is there as the bytes of
the messages, to be decoded later, and all the rest is the same. -/
theorem C87_block (bs sp : List UInt8) (hf : (Slice.mk bs sp).Fits) (c : PrimitiveBlock) (h : IsBlock bs c) :
    ReadPrimitiveBlock readAll ⟨bs, sp⟩ = .ok c ∧ ∀ o, ∃ b, ReadPrimitiveBlock o ⟨bs, sp⟩ = .ok b ∧ ShowsBlock o b c :=
  ⟨Format.read_block_all h sp hf, fun o =>
    let ⟨b, h1, h2, _⟩ := Format.read_block o h sp hf
    ⟨b, h1, h2⟩⟩

/-- C87: a blob's header and its payload, stored or compressed, however zlib delivers its output. -/
theorem C87_blob (inflate : Inflate) (bs sp : List UInt8) (hf : (Slice.mk bs sp).Fits) :
    (∀ kind size, IsBlobHeader bs kind size → ReadBlobHeader ⟨bs, sp⟩ = .ok ⟨kind, size⟩) ∧
    ∀ p, IsPayload inflate bs p → ∀ sched, ∃ blob raw, ReadBlob ⟨bs, sp⟩ = .ok blob ∧
      GetRawData inflate sched blob = .ok raw ∧ raw.bytes = p := by
  refine ⟨fun kind size h => Format.read_header h sp hf, fun p h sched => ?_⟩
  obtain ⟨blob, h1, h2⟩ := Format.isPayload_block (b := ⟨0, ⟨bs, sp⟩, []⟩) h hf
  obtain ⟨raw, h3, h4, _⟩ := payload_raw sched h2
  exact ⟨blob, raw, h1, h3, h4⟩

/-- C87: the blobs of a file. -/
theorem C87_file (file : List UInt8) (hl : file.length < 2 ^ 63) (hne : file ≠ []) (xs : List (GoStr × List UInt8))
    (h : IsFile file xs) (hk : ∀ x ∈ xs, x.1 = osmHeader ∨ x.1 = osmData) :
    ∃ bs, split file = .ok bs ∧ bs.map (fun b => (b.Kind, b.Data.bytes)) = xs :=
  Format.split_of h hl hne hk

/-- C87: what the programs take for the content of a file is what the format says it is. With this all that is proved of
programs on a `SoundSource` (C46, C69, ...) holds of every file in the format. -/
theorem C87_source (inflate : Inflate) (file : List UInt8) (hl : file.length < 2 ^ 63) (hne : file ≠ [])
    (blocks : List (Option PrimitiveBlock)) (h : IsOsmFile inflate file blocks) : SoundSource inflate file blocks :=
  Format.sound_of h hl hne

/-- C87: the same for the content as tagfilter and the readers of whole blocks see it. -/
theorem C87_contents (inflate : Inflate) (file : List UInt8) (hl : file.length < 2 ^ 63) (hne : file ≠ [])
    (cs : List Content) (h : IsOsmContents inflate file cs) : FileHas inflate readAll file cs :=
  Format.has_of h hl hne

/-- The format leaves no choice: a file has one content. -/
theorem C87_unique (inflate : Inflate) (file : List UInt8) (hl : file.length < 2 ^ 63) (b1 b2 : List (Option PrimitiveBlock))
    (h1 : IsOsmFile inflate file b1) (h2 : IsOsmFile inflate file b2) : b1 = b2 := by
  by_cases hne : file = []
  · have : ∀ b, IsOsmFile inflate file b → b = [] := by
      rintro b ⟨xs, hx, hm⟩
      subst hne
      generalize hn : ([] : List UInt8) = n at hx
      cases hx with
      | nil => cases hm; rfl
      | cons size header blob rest kind dataSize xs hs =>
        have := congrArg List.length hn
        simp only [List.length_append, List.length_nil] at this
        omega
    rw [this b1 h1, this b2 h2]
  · exact Format.source_unique (sound_is_source (Format.sound_of h1 hl hne)) (sound_is_source (Format.sound_of h2 hl hne))

/-- C87: a field that the code does not know, for example a node that is not dense (field 1 of a group), a list that is not
packed, the bounding box in the header of a blob (`indexdata`, field 2), or a blob compressed in another way than with zlib:
after any conforming message it makes the reader panic. Nothing is dropped silently. -/
theorem C87_unsupported (p q rest sp : List UInt8) (f : Field) (hf : IsField q f) (hb : (Slice.mk (p ++ q ++ rest) sp).Fits) :
    (∀ st, IsStringTable p st → ¬ Only [] [1] [f] → ReadStringTable ⟨p ++ q ++ rest, sp⟩ = .panic) ∧
    (∀ w, IsWay p w → ¬ Only [1] [2, 3, 4, 8] [f] → ReadWay ⟨p ++ q ++ rest, sp⟩ = .panic) ∧
    (∀ r, IsRelation p r → ¬ Only [1] [2, 3, 4, 8, 9, 10] [f] → ReadRelation ⟨p ++ q ++ rest, sp⟩ = .panic) ∧
    (∀ dn, IsDense p dn → ¬ Only [] [1, 5, 8, 9, 10] [f] → ReadDenseNodes ⟨p ++ q ++ rest, sp⟩ = .panic) ∧
    (∀ o g, IsGroup p g → ¬ Only [] [2, 3, 4, 5] [f] → ReadPrimitiveGroup o ⟨p ++ q ++ rest, sp⟩ = .panic) ∧
    (∀ o b, IsBlock p b → ¬ Only [17, 18, 19, 20] [1, 2] [f] → ReadPrimitiveBlock o ⟨p ++ q ++ rest, sp⟩ = .panic) ∧
    (∀ kind size, IsBlobHeader p kind size → ¬ Only [3] [1] [f] → ReadBlobHeader ⟨p ++ q ++ rest, sp⟩ = .panic) ∧
    ∀ raw size zlib, IsBlob p raw size zlib → ¬ Only [2] [1, 3] [f] → ReadBlob ⟨p ++ q ++ rest, sp⟩ = .panic :=
  ⟨fun _ hp h => Format.unknown_stringTable hp hf h hb, fun _ hp h => Format.unknown_way hp hf h hb,
    fun _ hp h => Format.unknown_relation hp hf h hb, fun _ hp h => Format.unknown_dense hp hf h hb,
    fun o _ hp h => Format.unknown_group o hp hf h hb, fun o _ hp h => Format.unknown_block o hp hf h hb,
    fun _ _ hp h => Format.unknown_header hp hf h hb, fun _ _ _ hp h => Format.unknown_blob hp hf h hb⟩

/-- C87 is false of lists in several pieces, which is why the format above has them in one piece: protocol buffers join the
pieces (here the refs 2 and 5), the code keeps the last piece and starts counting anew (3). -/
theorem C87_false_of_split_lists : ∃ bs fs, IsMessage bs fs ∧ Only [1] [2, 3, 4, 8] fs ∧ PackedDelta (packed 8 fs) [2, 5] ∧
    ReadWay ⟨bs, []⟩ = .ok ⟨7, [], [], [3]⟩ :=
  ⟨[8, 7, 66, 1, 4, 66, 1, 6], [(1, .num 7), (8, .bytes [4]), (8, .bytes [6])],
    Format.parseMessage_sound (k := 8) (by decide +kernel), Format.onlyB_sound (by decide +kernel),
    ⟨[4, 6], Format.parsePacked_sound (k := 2) (by decide +kernel), by decide +kernel⟩, by decide +kernel⟩

/-- A way with its fields in an unusual order, an id of two bytes where one would do, and an info that is skipped. -/
example : ReadWay ⟨[66, 2, 4, 3, 34, 1, 9, 8, 133, 0], [255]⟩ = .ok ⟨5, [], [], [2, 0]⟩ :=
  (C87_entities _ _ (by unfold Slice.Fits; decide)).2.1 _ (Format.wayOf_sound _ _ (by decide +kernel))

theorem tiny_isBlock : IsBlock tinyPayload tinyBlock := Format.blockOf_sound _ _ (by decide +kernel)

/-- The file of `Props/Programs.lean`, which other programs could have written (its lengths are as short as possible, which this
code does not do), is in the format. -/
theorem tiny_conforms (inflate : Inflate) : IsOsmFile inflate tinyFile [none, some tinyBlock] := by
  refine ⟨[(osmHeader, [1, 2, 3]), (osmData, [10, 66] ++ tinyPayload)], ?_, .cons (.header _) (.cons (.data _ tinyPayload _
    (Format.rawPayloadOf_sound _ _ _ (by decide +kernel)) tiny_isBlock) .nil)⟩
  refine IsFile.cons [0, 0, 0, 13] [10, 9, 79, 83, 77, 72, 101, 97, 100, 101, 114, 24, 3] [1, 2, 3]
    ([0, 0, 0, 11, 10, 7, 79, 83, 77, 68, 97, 116, 97, 24, 68] ++ ([10, 66] ++ tinyPayload)) osmHeader 3 _ rfl (by decide)
    (Format.headerOf_sound _ _ _ (by decide +kernel)) (by decide) ?_
  have := IsFile.cons [0, 0, 0, 11] [10, 7, 79, 83, 77, 68, 97, 116, 97, 24, 68] ([10, 66] ++ tinyPayload) [] osmData 68 _ rfl
    (by decide) (Format.headerOf_sound _ _ _ (by decide +kernel)) (by decide) .nil
  simpa using this

/-- So `tiny_sound` again, from the format. -/
example (inflate : Inflate) : SoundSource inflate tinyFile [none, some tinyBlock] :=
  C87_source inflate _ (by decide +kernel) (by decide) _ (tiny_conforms inflate)

/-- A group with a node that is not dense. -/
example (o : PBReader) : ReadPrimitiveGroup o ⟨[26, 2, 8, 10] ++ [10, 1, 0] ++ [], []⟩ = .panic :=
  (C87_unsupported _ _ _ _ (1, .bytes [0]) (.bytes [10] [1] [0] 1 ⟨.last 10 (by decide), by decide, by decide⟩
    ⟨.last 1 (by decide), by decide, by decide⟩) (by unfold Slice.Fits; decide)).2.2.2.2.1 o _
    (Format.groupOfBytes_sound [26, 2, 8, 10] ⟨none, none, [⟨10, [], [], []⟩], [], [], []⟩ (by decide +kernel)) (by
      intro h
      have := h (1, .bytes [0]) (by simp)
      simp at this)

/-! ## C88: what is written is in the format -/

/-- C88: every string table, way, relation and dense nodes, if they are written at all (C10-C13 say when). -/
theorem C88_entities (pre out : List UInt8) (hl : out.length < 2 ^ 63) :
    (∀ st : StringTable, st.Write pre = .ok out → ∃ p, out = pre ++ p ∧ IsStringTable p st) ∧
    (∀ w : Way, w.Write pre = .ok out → ∃ p, out = pre ++ p ∧ IsWay p w) ∧
    (∀ r : Relation, r.Write pre = .ok out → ∃ p, out = pre ++ p ∧ IsRelation p r) ∧
    ∀ dn : DenseNodes, dn.Write pre = .ok out → ∃ p, out = pre ++ p ∧ IsDense p dn := by
  refine ⟨fun st h => ?_, fun w h => ?_, fun r h => ?_, fun dn h => ?_⟩
  · obtain ⟨p, hp, rfl⟩ := (stringTable_embSpec st).ok h
    cases hp
    exact ⟨_, rfl, Format.write_stringTable st (by rw [List.length_append] at hl; omega)⟩
  · obtain ⟨p, hp, rfl⟩ := (way_embSpec w).ok h
    exact ⟨p, rfl, Format.write_way w hp⟩
  · obtain ⟨p, hp, rfl⟩ := (relation_embSpec r).ok h
    exact ⟨p, rfl, Format.write_relation r hp⟩
  · obtain ⟨p, hp, rfl⟩ := (dense_embSpec dn).ok h
    exact ⟨p, rfl, Format.write_dense dn hp⟩

/-- C88: a block, assembled or read with any options from a conforming block and changed or not: what is written is in the format
and has the content that the block shows. -/
theorem C88_block (o : PBReader) (b c : PrimitiveBlock) (h : ShowsBlock o b c) (pre out : List UInt8)
    (hw : b.Write pre = .ok out) (hl : out.length < 2 ^ 63) : ∃ p, out = pre ++ p ∧ IsBlock p c := by
  obtain ⟨p, hp, rfl⟩ := (block_embSpec b).ok hw
  exact ⟨p, rfl, Format.write_block h hp (by rw [List.length_append] at hl; omega)⟩

/-- C88: a block with everything decoded. -/
theorem C88_assembled (b : PrimitiveBlock) (h : BlockShape readAll b) (pre out : List UInt8)
    (hw : b.Write pre = .ok out) (hl : out.length < 2 ^ 63) : ∃ p, out = pre ++ p ∧ IsBlock p b :=
  C88_block readAll b b (Format.shows_self h) pre out hw hl

/-- C88: a blob's header, a blob with the given sections (those that are not empty), and a blob around a block. -/
theorem C88_blob (inflate : Inflate) (out : List UInt8) (hl : out.length < 2 ^ 63) :
    (∀ bh : BlobHeader, bh.Write [] = out → IsBlobHeader out bh.Kind bh.DataSize) ∧
    (∀ b : Blob, b.Write none [] = .ok out → IsBlob out (nonEmpty b.Raw) b.RawSize (nonEmpty b.ZLibData)) ∧
    ∀ b : PrimitiveBlock, BlockShape readAll b → Blob.zero.Write (some b.Write) [] = .ok out →
      ∃ p, IsPayload inflate out p ∧ IsBlock p b := by
  refine ⟨fun bh h => ?_, fun b h => Format.write_blob_none b h hl, fun b hs h => ?_⟩
  · rw [blobHeader_write_eq, List.nil_append] at h
    subst h
    refine Format.write_header bh ?_
    unfold blobHeaderBytes at hl
    split at hl
    · next hk =>
      have : bh.Kind.length ≤ (bufField 1 bh.Kind).length := by
        unfold bufField
        simp only [List.length_append]
        omega
      rw [List.length_append] at hl
      omega
    · next hk =>
      rw [Decidable.not_not.1 hk]
      exact Nat.two_pow_pos 63
  · obtain ⟨q, q1, q2, q3⟩ := Format.write_blob_func Blob.zero (block_embSpec _) h hl
    exact ⟨q, .inl ⟨_, q3⟩, Format.write_block (Format.shows_self hs) q1 (by omega)⟩

/-- C88: the frames around blobs. -/
theorem C88_file (xs : List (GoStr × List UInt8)) (h : ∀ x ∈ xs, Writable x) : IsFile (fileOf xs) xs := Format.fileOf_isFile xs h

/-- C88: rewritenodes. From every file in the format it makes a file in the format, with the same blocks except for the refs that
some pass resolves. -/
theorem C88_rewritenodes (inflate : Inflate) (scheds : Nat → Block → Sched)
    (hsched : ∀ i b, (scheds i b).pooled.length < 2 ^ 63) {ix : NodeIdx} (wf : WellFormed ix.elements ix.locations)
    (hneg : NegativeLocs ix.locations) (memory : Option UInt64) (n : UInt64) (hn : passCount ix memory = .ok n)
    (hn0 : n ≠ 0) {subs : List SubIdx}
    (hsubs : mapRes (fun p => ix.SubIndex (UInt64.ofNat p) n) (List.range n.toNat) = .ok subs)
    (inp index out : String) {blocks : List (Option PrimitiveBlock)} {file ixFile : List UInt8} (hl : file.length < 2 ^ 63)
    (hne : file ≠ []) (hs : IsOsmFile inflate file blocks) (hsm : ∀ cs, FileHas inflate waysDecoded file cs → SmallFile cs)
    (fs : FS) (hin : Holds fs inp file) (hix : Holds fs index ixFile) (hload : NewNodeIndex ixFile = .ok ix) :
    ∃ fs' file', (rewritenodes inflate scheds memory inp index out).exec fs = .ok ((), fs') ∧ Holds fs' out file' ∧
      file'.length < 2 ^ 63 ∧
      IsOsmFile inflate file' (blocks.map (Option.map (mapRefs (locate (subs.flatMap (·.element)) ix.locations)))) := by
  obtain ⟨bs, s1, s2⟩ := Format.sound_of hs hl hne
  obtain ⟨cs, c1, c2⟩ := sound_source s2
  have hc : Format.ConfHas inflate file cs := ⟨⟨bs, s1, c1⟩, blocks, hs⟩
  obtain ⟨fs', file', h1, h2, h3, ⟨⟨bs', h4, h5⟩, blocks', h6⟩, _, _⟩ :=
    rewritenodes_gen inflate scheds wf hneg memory n hn hn0 hsubs
    (Format.ConfHas inflate) (Format.ConfHas inflate) (fun _ _ h => h)
    (fun p _ _ hw _ _ _ inp' out' fs hl hc hsm hin => Format.pass_conf inflate (scheds p) (hsched p) hw hl hc hsm inp' out' fs hin)
    inp index out hl hc (hsm cs (soundHas_has hc.1)) fs hin hix hload
  refine ⟨fs', file', h1, h2, h3, ?_⟩
  have hs' : SoundSource inflate file' _ := ⟨bs', h4, source_sound _ c2 h5⟩
  have hne' : file' ≠ [] := ((split_iff file' h3 bs').1 h4).1
  have := Format.source_unique (sound_is_source (Format.sound_of h6 h3 hne')) (sound_is_source hs')
  rw [← this]
  exact h6

/-- C88: tagfilter. Whatever blocks it was given, what a run that ends has written is a file in the format (or empty, if
nothing was left), and its content is what the code reads from it. -/
theorem C88_tagfilter (inflate : Inflate) (sched : Block → Sched) (file : List UInt8) (hl : file.length < 2 ^ 63) (W : Nat)
    (got : List Rewrite.Out) (hd : Delivers (TagFilter.filterCfg inflate sched file) W got) (out : String) (fs : FS) :
    ∃ fs' file' fillers cs, (TagFilter.output out got).exec fs = .ok (fillers, fs') ∧ Holds fs' out file' ∧
      IsOsmContents inflate file' cs ∧
      (file'.length < 2 ^ 63 → file' ≠ [] → ∀ cs', FileHas inflate readAll file' cs' → cs' = cs) := by
  obtain ⟨fs', h1, h2, _⟩ := TagFilter.output_exec out got fs
  obtain ⟨s, hr, hdn, hcc, rfl⟩ := hd
  obtain ⟨bs, e1, e2, _⟩ := C55_in_order _ hl rfl W s hr hdn hcc
  have e1 : split file = .ok bs := e1
  have e2 : mapRes (TagFilter.filterWork inflate sched) bs = .ok s.got := e2
  obtain ⟨_, hb⟩ := Rewrite.split_blocks hl e1
  obtain ⟨hw, cs, hcs⟩ := Format.filter_isContent inflate sched hb e2
  have hc : IsOsmContents inflate (fileOf (TagFilter.written s.got)) cs := ⟨_, Format.fileOf_isFile _ hw, hcs⟩
  exact ⟨fs', _, _, cs, h1, h2, hc, fun hl' hne cs' h => Format.fileHas_unique hl' h (Format.has_of hc hl' hne)⟩

/-- C88: and from a file in the format it makes one with the wanted part of the content (as in C49). -/
theorem C88_tagfilter_content (inflate : Inflate) (sched : Block → Sched) (hsched : ∀ b, (sched b).pooled.length < 2 ^ 63)
    (file : List UInt8) (hl : file.length < 2 ^ 63) (hne : file ≠ []) (cs : List Content) (hc : IsOsmContents inflate file cs)
    (its : List Item) (hi : Matches IsItem cs its) (hfew : ∀ it ∈ its, it.FewStrings) (hleft : its.filterMap Item.wanted ≠ [])
    (W : Nat) (got : List Rewrite.Out) (hd : Delivers (TagFilter.filterCfg inflate sched file) W got) (out : String) (fs : FS) :
    ∃ fs' file' fillers, (TagFilter.output out got).exec fs = .ok (fillers, fs') ∧ Holds fs' out file' ∧
      (file'.length < 2 ^ 63 → ∃ cs', IsOsmContents inflate file' cs' ∧ Matches Shows (its.filterMap Item.wanted) cs') := by
  obtain ⟨fs1, file1, n1, a1, a2, _, a4, _⟩ := C49_file_partial inflate sched hsched file hl cs (Format.has_of hc hl hne) its hi hfew
    W got hd out fs
  obtain ⟨fs2, file2, n2, cs2, b1, b2, b3, b4⟩ := C88_tagfilter inflate sched file hl W got hd out fs
  rw [a1] at b1
  cases b1
  have : file1 = file2 := by
    obtain ⟨_, a2⟩ := a2
    obtain ⟨_, b2⟩ := b2
    rw [a2] at b2
    cases b2
    rfl
  subst this
  refine ⟨fs1, file1, n1, a1, a2, fun hl' => ?_⟩
  obtain ⟨cs', c1, c2⟩ := a4 hleft hl'
  have hne' : file1 ≠ [] := by
    obtain ⟨bs, s1, _⟩ := c1
    exact ((split_iff file1 hl' bs).1 s1).1
  rw [b4 hl' hne' cs' c1] at c2
  exact ⟨cs2, b3, c2⟩

/-- C88: decompress. The output has blobs of the same types with the same payloads, and for a file of blocks the same blocks.
It can be read without zlib (`inflate'` is any function). -/
theorem C88_decompress (inflate inflate' : Inflate) (sched : Block → Sched) (file : List UInt8) (hl : file.length < 2 ^ 63)
    (hne : file ≠ []) (xs : List (GoStr × List UInt8)) (hx : IsFile file xs)
    (hk : ∀ x ∈ xs, x.1 = osmHeader ∨ x.1 = osmData) (ps : List (List UInt8))
    (hm : Matches (fun x p => IsPayload inflate x.2 p) xs ps) (hp : ∀ p ∈ ps, p ≠ [] ∧ p.length < 2 ^ 31 - 32) (W : Nat)
    (got : List (List UInt8)) (hd : Delivers (decompressCfg inflate sched file) W got) (f : String) (fs : FS) :
    ∃ fs' out ys, (decompressOutput f got).exec fs = .ok ((), fs') ∧ Holds fs' f out ∧ IsFile out ys ∧
      ys.map (·.1) = xs.map (·.1) ∧ Matches (fun y p => IsPayload inflate' y.2 p) ys ps ∧
      ∀ blocks, Matches (HasBlock inflate) xs blocks → IsOsmFile inflate' out blocks := by
  obtain ⟨s, hr, hdn, hc, rfl⟩ := hd
  obtain ⟨bs', e1, e2, _⟩ := C55_in_order _ hl rfl W s hr hdn hc
  obtain ⟨bs, e3, rfl⟩ := Format.split_of hx hl hne hk
  rw [show (decompressCfg inflate sched file).file = file from rfl, e3] at e1
  obtain rfl := Res.ok.inj e1
  have e2 : mapRes (decompressWork inflate sched) bs = .ok s.got := e2
  obtain ⟨fs', o1, o2, _⟩ := decompressOutput_exec f s.got fs
  obtain ⟨_, hb⟩ := Rewrite.split_blocks hl e3
  have hm' : Matches (fun b p => IsPayload inflate (Seen b).2 p) bs ps := Format.matches_seen hm
  have hout := Format.decompress_blobs inflate sched (fun b h => (hb b h).1) hm' (fun p h => (hp p h).1) e2
  obtain ⟨d1, d2, d3⟩ := Format.decompressed_conf inflate inflate' hm fun p h => (hp p h).2
  have hfile : IsFile (fileOf (Format.decompressed (bs.map Seen) ps)) (Format.decompressed (bs.map Seen) ps) := by
    refine Format.fileOf_isFile _ fun x hx => ⟨?_, d3 x hx⟩
    have : x.1 ∈ (Format.decompressed (bs.map Seen) ps).map (·.1) := List.mem_map_of_mem hx
    rw [d1] at this
    obtain ⟨y, hy, he⟩ := List.mem_map.1 this
    rw [← he]
    exact hk y hy
  refine ⟨fs', _, _, o1, o2, ?_, d1, d2, fun blocks hbk => ⟨_, ?_, Format.decompressed_blocks inflate inflate' ?_ hm
    (fun p h => (hp p h).2) hbk⟩⟩
  · rw [hout]; exact hfile
  · rw [hout]; exact hfile
  · intro x hx
    obtain ⟨b, h, rfl⟩ := List.mem_map.1 hx
    have := (hb b h).2.1
    show b.Data.bytes.length < _
    omega

/-- C69 from the format: the four commands one after the other on any file that is in the format.
Missing: as in `C69_any_memory_partial`. -/
theorem C69_format_partial (inflate : Inflate) {file : List UInt8} {blocks : List (Option PrimitiveBlock)}
    (hs : IsOsmFile inflate file blocks) (hl : file.length < 2 ^ 63) (hne : file ≠ [])
    (hi : Indexable blocks)
    (hsmall : ∀ cs, FileHas inflate waysDecoded file cs → SmallFile cs)
    {f : Int64 → Int64} (hf : Locates blocks f)
    {shift : Int64} (hw : WaysIndexable shift ((allWays blocks).map (relocate f))) (hw0 : allWays blocks ≠ [])
    (hr : RelationsOk (pathOf blocks f) (allRelations blocks)) (hr0 : allRelations blocks ≠ [])
    {n : Nat} (hn : 1 ≤ n) (hn2 : n ≤ 2 ^ shift.toInt.toNat)
    {src nix rew wix rix : String} (names : Names n src nix rew wix rix)
    (sched1 sched3 sched4 : Block → Sched) (scheds2 : Nat → Block → Sched)
    (hs2 : ∀ i b, (scheds2 i b).pooled.length < 2 ^ 63)
    (chunks1 chunks3 : Nat → Nat) (fs : FS) (hin : Holds fs src file) (memory : Option UInt64)
    (hcov : ∀ fs1 ixFile ix, (nodeindex inflate sched1 chunks1 src nix).exec fs = .ok ((), fs1) → Holds fs1 nix ixFile →
      NewNodeIndex ixFile = .ok ix → ∃ m, passCount ix memory = .ok m ∧ m ≠ 0 ∧ PassesCover ix m.toNat ∧
        ∀ p, 1 ≤ p → p < m.toNat → RelIndex.makePassFilename rew p m.toNat ≠ src)
    (relsFrom : String) (hfrom : relsFrom = src ∨ relsFrom = rew) :
    ∃ fs1 fs2 fs3 fs4,
      (nodeindex inflate sched1 chunks1 src nix).exec fs = .ok ((), fs1) ∧
      (Rewrite.rewritenodes inflate scheds2 memory src nix rew).exec fs1 = .ok ((), fs2) ∧
      (wayindex inflate sched3 chunks3 shift rew wix).exec fs2 = .ok ((), fs3) ∧
      (relindex inflate sched4 n relsFrom wix rix).exec fs3 = .ok ((), fs4) ∧
      Holds fs4 rix (Int64SliceAsByteSlice ((allRelations blocks).flatMap (relationEntry (pathOf blocks f)))) :=
  C69_any_memory_partial inflate (C87_source inflate file hl hne blocks hs) hl hi hsmall hf hw hw0 hr hr0 hn hn2 names
    sched1 sched3 sched4 scheds2 hs2 chunks1 chunks3 fs hin memory hcov relsFrom hfrom

/-! ### The hypotheses are met -/

/-- rewritenodes on the file above, in two passes: the result is in the format, node 2 of the ways is replaced by its location,
node 4, which is not in the file, is not. -/
example (inflate : Inflate) (scheds : Nat → Block → Sched) (hsched : ∀ i b, (scheds i b).pooled.length < 2 ^ 63)
    (sched1 : Block → Sched) (chunks1 : Nat → Nat) (fs : FS) (hin : Holds fs "src" tinyFile) :
    ∃ fs1 fs2 file' f, (Programs.nodeindex inflate sched1 chunks1 "src" "nix").exec fs = .ok ((), fs1) ∧
      (rewritenodes inflate scheds (some 1) "src" "nix" "rew").exec fs1 = .ok ((), fs2) ∧ Holds fs2 "rew" file' ∧
      IsOsmFile inflate file' [none, some (mapRefs f tinyBlock)] ∧ f 4 = 4 ∧
      NodeIndexer.nodeLocation tinyBlock 20 200 = .ok (f 2) := by
  obtain ⟨fs1, ixFile, ix, a1, a2, a3, a4, a5, a6, a7, a8, a9⟩ :=
    nodeindex_ok sched1 chunks1 (tiny_source inflate) tiny_indexable "src" "nix" fs hin
  obtain ⟨m, m1, m2, ⟨subs, p1, p2⟩, m4⟩ := tiny_cover inflate sched1 chunks1 fs hin fs1 ixFile ix a1 a2 a3
  rw [UInt64.ofNat_toNat] at p1
  obtain ⟨f, hf⟩ := C69_locates tiny_indexable
  have hin1 : Holds fs1 "src" tinyFile := by
    obtain ⟨pos, hin⟩ := hin
    exact ⟨pos, (a9 "src" (by decide) (by decide)).trans hin⟩
  obtain ⟨fs2, file2, b1, b2, b3, b4⟩ := C88_rewritenodes inflate scheds hsched a4 a7 (some 1) m m1 m2 p1 "src" "nix" "rew"
    (by decide +kernel) (by decide) (tiny_conforms inflate) (tiny_small inflate) fs1 hin1 a2 a3
  rw [p2, locate_source tiny_indexable hf a4 a8] at b4
  exact ⟨fs1, fs2, file2, f, a1, b1, b2, b4, hf.other 4 (by decide +kernel), hf.node (tinyBlock, ⟨2, 20, 200⟩) (by decide +kernel)⟩

/-- A header, and the block of above compressed (to `[9, 9]`, by a strange zlib). -/
def squeezedFile : List UInt8 := fileOf [(osmHeader, [10, 1, 5]), (osmData, [16, 66, 26, 2, 9, 9])]

/-- The strange zlib. -/
def strange : Inflate := fun z => if z = [9, 9] then some tinyPayload else none

theorem squeezed_payloads : Matches (fun (x : GoStr × List UInt8) p => IsPayload strange x.2 p)
    [(osmHeader, [10, 1, 5]), (osmData, [16, 66, 26, 2, 9, 9])] [[5], tinyPayload] :=
  .cons (Format.rawPayloadOf_sound _ _ _ (by decide +kernel)) (.cons (.inr ⟨66, [9, 9], ⟨[(2, .num 66), (3, .bytes [9, 9])],
    Format.parseMessage_sound (k := 6) (by decide +kernel), Format.onlyB_sound (by decide +kernel), by decide, by decide, by decide⟩,
    by decide +kernel, by decide +kernel⟩) .nil)

/-- Decompressed, it can be read without zlib and has the same block. -/
example (sched : Block → Sched) (f : String) (fs : FS) :
    ∃ got, Delivers (decompressCfg strange sched squeezedFile) 2 got ∧ ∃ fs' out, (decompressOutput f got).exec fs = .ok ((), fs') ∧
      Holds fs' f out ∧ IsOsmFile (fun _ => none) out [none, some tinyBlock] := by
  have hw : ∀ x ∈ [(osmHeader, [10, 1, 5]), (osmData, [16, 66, 26, 2, 9, 9])], Writable x := by unfold Writable; decide +kernel
  have hx := C88_file _ hw
  have hl : squeezedFile.length < 2 ^ 63 := by decide +kernel
  obtain ⟨bs, s1, s2⟩ := C87_file squeezedFile hl (by decide +kernel) _ hx fun x h => (hw x h).1
  obtain ⟨_, hb⟩ := Rewrite.split_blocks hl s1
  have hm := Format.matches_seen (bs := bs) (s2.symm ▸ squeezed_payloads)
  have hd : ∀ b ∈ bs, Decompressible strange b := by
    intro b h
    obtain ⟨p, hp, hbp⟩ := Rewrite.matches_mem hm b h
    refine ⟨p, Format.isPayload_block hbp (hb b h).1, ?_⟩
    simp only [List.mem_cons, List.not_mem_nil, or_false] at hp
    rcases hp with rfl | rfl <;> decide +kernel
  obtain ⟨got, hgot⟩ := (C51_completes strange sched squeezedFile hl bs s1 hd 2).2 (by decide)
  obtain ⟨fs', out, ys, h1, h2, h3, h4, h5, h6⟩ := C88_decompress strange (fun _ => none) sched squeezedFile hl (by decide +kernel) _ hx
    (fun x h => (hw x h).1) _ squeezed_payloads (by decide +kernel) 2 got hgot f fs
  refine ⟨got, hgot, fs', out, h1, h2, h6 _ (.cons (.header _) (.cons ?_ .nil))⟩
  cases squeezed_payloads with
  | cons _ h => cases h with
    | cons h _ => exact .data _ tinyPayload _ h tiny_isBlock

/-- tagfilter keeps the ways and the relation of the file above. -/
example (inflate : Inflate) : ∃ cs its, IsOsmContents inflate tinyFile cs ∧ Matches IsItem cs its ∧
    (∀ it ∈ its, it.FewStrings) ∧ its.filterMap Item.wanted ≠ [] := by
  obtain ⟨xs, h1, h2⟩ := tiny_conforms inflate
  cases h2 with
  | cons h h2 => cases h2 with
    | cons h' h2 =>
      cases h2
      cases h with
      | header bs =>
        cases h' with
        | data bs' p b hp hb =>
          refine ⟨[.other osmHeader bs, .data tinyBlock], [.other osmHeader bs, .entities
            [⟨2, [], 2000, 20000⟩, ⟨3, [], 3000, 30000⟩, ⟨5, [], 5000, 50000⟩] [⟨10, [], [2, 3, 4]⟩, ⟨11, [], [5, 5, 9]⟩]
            [⟨7, [], [], [10, 2, 99, 11], [1, 0, 1, 1]⟩]], ⟨_, h1, .cons (.header _)
            (.cons (.data _ _ _ hp hb) .nil)⟩, .cons ⟨rfl, rfl⟩ (.cons ⟨?_, ?_, ?_⟩ .nil), ?_, ?_⟩
          · decide +kernel
          · decide +kernel
          · decide +kernel
          · intro it hit
            simp only [List.mem_cons, List.not_mem_nil, or_false] at hit
            rcases hit with rfl | rfl
            · trivial
            · show List.length _ < _
              decide +kernel
          · simp [Item.wanted]

end Osm.Props
