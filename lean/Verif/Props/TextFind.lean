import Verif.Lemmas.TextFind
import Verif.Props.Find
import Verif.Props.Text

/-!
# C97: what entityfind prints can be read in only one way, and says exactly what is in the file
-/

namespace Osm.Props
open Osm Osm.T Osm.Spec Osm.Spec.Text Osm.TextFind

/-- C97: no text can be read as two different lists of entities. -/
theorem C97_unique (t : List Char) (as bs : List EntitySays) (ha : Lines EntityLine t as) (hb : Lines EntityLine t bs) : as = bs :=
  Text.Lines.unique (fun _ _ => entityLine_newline) (fun _ _ _ => entityLine_unique) ha hb

/-- C97: a string of any bytes (quotes, backslashes, newlines, invalid UTF-8) is printed so that exactly these bytes are read,
and one sees where it ends, whatever follows. -/
theorem C97_strings (P : Printing) (s : GoStr) :
    Quoted (quote P s) s ∧ ∀ t s' u u', Quoted t s' → quote P s ++ u = t ++ u' → s' = s ∧ u' = u := by
  refine ⟨quote_says P s, fun t s' u u' h he => ?_⟩
  obtain ⟨e1, e2⟩ := quoted_unique (quote_says P s) h he
  exact ⟨e1.symm, e2.symm⟩

/-- C97: what is printed of any entities can be read, and whoever reads it finds their ids, all their tags in ascending order
of the keys, and their coordinates, nodes, roles, members and types of members. -/
theorem C97_lines (P : Printing) (es : List Find.Entity) :
    (∃ r, Lines EntityLine (findText P es) r) ∧ ∀ r, Lines EntityLine (findText P es) r → Each Describes es r := by
  refine ⟨⟨_, findText_says P es⟩, fun r h => ?_⟩
  rw [C97_unique _ _ _ h (findText_says P es)]
  exact each_map _ _ fun e _ => entitySays_describes e

/-- C97: nothing is lost: entities of which the same is read are the same, but for the order in which tags are stored. -/
theorem C97_complete (e e' : Find.Entity) (s : EntitySays) (h : Describes e s) (h' : Describes e' s) : SameEntity e e' := by
  cases h with
  | @node n tags h =>
    generalize hs : EntitySays.node n.Id.toNat tags n.Lat.toInt n.Lon.toInt = s at h'
    cases h' with
    | node h' =>
      injection hs with a b c d
      subst b
      exact .node (UInt64.toNat_inj.1 a) (h.1.symm.trans h'.1) (Int64.toInt_inj.1 c) (Int64.toInt_inj.1 d)
    | way => cases hs
    | relation => cases hs
  | @way n tags h =>
    generalize hs : EntitySays.way n.Id.toInt tags (n.Nodes.map (·.toNat)) = s at h'
    cases h' with
    | node => cases hs
    | way h' =>
      injection hs with a b c
      subst b
      exact .way (Int64.toInt_inj.1 a) (h.1.symm.trans h'.1) (List.map_inj_right (fun _ _ => UInt64.toNat_inj.1) |>.1 c)
    | relation => cases hs
  | @relation n tags h =>
    generalize hs : EntitySays.relation n.Id.toInt tags n.Roles (n.Members.map (·.toInt)) (n.MemberType.map (·.toInt)) = s at h'
    cases h' with
    | node => cases hs
    | way => cases hs
    | relation h' =>
      injection hs with a b c d e
      subst b
      exact .relation (Int64.toInt_inj.1 a) (h.1.symm.trans h'.1) c
        (List.map_inj_right (fun _ _ => Int64.toInt_inj.1) |>.1 d) (List.map_inj_right (fun _ _ => Int64.toInt_inj.1) |>.1 e)

theorem sorted_same {m m' : TagMap} (hm : IsMap m) (hp : m.Perm m') : m.mergeSort keyLe = m'.mergeSort keyLe := by
  obtain ⟨p1, s1⟩ := listed_sorted m
  obtain ⟨p2, s2⟩ := listed_sorted m'
  refine List.Perm.eq_of_pairwise (le := fun p q => p.1 ≤ q.1) ?_ s1 s2 (p1.trans (hp.trans p2.symm))
  intro a b ha hb h1 h2
  have e := List.le_antisymm h1 h2
  have ha := p1.subset ha
  have hb := (hp.trans p2.symm).symm.subset hb
  unfold IsMap at hm
  rw [List.nodup_iff_pairwise_ne, List.pairwise_map] at hm
  by_contra hne
  obtain ⟨i, hi, rfl⟩ := List.getElem_of_mem ha
  obtain ⟨j, hj, rfl⟩ := List.getElem_of_mem hb
  rw [List.pairwise_iff_getElem] at hm
  rcases Nat.lt_trichotomy i j with hij | rfl | hij
  · exact hm i j hi hj hij e
  · exact hne rfl
  · exact hm j i hj hi hij e.symm

/-- C97: the same entity is always printed as the same text, although Go goes through maps in random order. -/
theorem C97_deterministic (P : Printing) (e e' : Find.Entity) (hm : IsMap (tagsOf e)) (h : SameEntity e e') :
    entityLine P e = entityLine P e' := by
  cases h with
  | node h1 h2 h3 h4 =>
    unfold entityLine sharpMap
    unfold tagsOf at hm
    dsimp only at hm ⊢
    rw [h1, h3, h4, sorted_same hm h2]
  | way h1 h2 h3 =>
    unfold entityLine sharpMap
    unfold tagsOf at hm
    dsimp only at hm ⊢
    rw [h1, h3, sorted_same hm h2]
  | relation h1 h2 h3 h4 h5 =>
    unfold entityLine sharpMap
    unfold tagsOf at hm
    dsimp only at hm ⊢
    rw [h1, h3, h4, h5, sorted_same hm h2]

/-- C97: whoever reads the output of a finished run of entityfind finds exactly the requested entities of the file, each as
often as it is there, and those of one block in their order. -/
theorem C97_found (P : Printing) (inflate : Inflate) (sched : Pbf.Block → Sched) (hsched : ∀ b, (sched b).pooled.length < 2 ^ 63)
    (ids : List UInt64) (file : List UInt8) (hl : file.length < 2 ^ 63) (cs : List Content)
    (hc : FileHas inflate readAll file cs) (hso : SoundFile cs) (W : Nat) (s : Pbf.St (List Find.Entity))
    (hr : Pbf.Reachable (Find.findCfg inflate sched ids file) W s) (hd : s.main = .done) (hcc : s.cancelled = false)
    (out : List Find.Entity) (hp : Find.Prints inflate sched ids s out) (r : List EntitySays)
    (h : Lines EntityLine (findText P out) r) :
    ∃ ess found, Each ContentEntities cs ess ∧ found.Perm (requested ids ess.flatten) ∧
      (∀ es ∈ ess, List.Sublist (requested ids es) found) ∧ Each Describes found r := by
  obtain ⟨ess, h1, h2, h3⟩ := C65_prints inflate sched hsched ids file hl cs hc hso W s hr hd hcc out hp
  exact ⟨ess, out, h1, h2, h3, (C97_lines P out).2 r h⟩

/-- Letters, digits and the like are printed as they are. -/
def plainPrinting : Printing := ⟨fun c => c.toNat ≥ 32 && c.toNat < 127, by decide, false⟩

/-- A node with a quote in one tag and a byte that is not UTF-8 in another, which come second and first. -/
example : String.ofList (entityLine plainPrinting (.node ⟨17, [([98], [34, 10]), ([97], [255, 195, 169])], -5, 3⟩)) =
    "&t.HLNode{Id:0x11, Tags:map[string]string{\"a\":\"\\xff\\u00e9\", \"b\":\"\\\"\\n\"}, Lat:-5, Lon:3}\n" := by
  have : List.mergeSort [([98], [34, 10]), ([97], [255, 195, 169])] keyLe = [([97], [255, 195, 169]), ([98], [34, 10])] := by
    simp [List.mergeSort, List.MergeSort.Internal.splitInTwo, List.merge, keyLe]
    decide
  unfold entityLine sharpMap
  dsimp only
  rw [this]
  decide +kernel

example : String.ofList (entityLine plainPrinting (.way ⟨-7, [], [5, 30]⟩)) =
    "&t.HLWay{Id:-7, Tags:map[string]string{}, Nodes:[]t.NodeId{0x5, 0x1e}}\n" := by decide +kernel

example : String.ofList (entityLine plainPrinting (.relation ⟨9, [([98], [97])], [[99], []], [7, -8], [1, 0]⟩)) =
    "&t.HLRelation{Id:9, Tags:map[string]string{\"b\":\"a\"}, Roles:[]string{\"c\", \"\"}, Members:[]int64{7, -8}, MemberType:[]int{1, 0}}\n" := by
  decide +kernel

/-- An entity with distinct keys in two orders. -/
example : IsMap (tagsOf (.node ⟨17, [([98], [34]), ([97], [255])], -5, 3⟩)) ∧
    SameEntity (.node ⟨17, [([98], [34]), ([97], [255])], -5, 3⟩) (.node ⟨17, [([97], [255]), ([98], [34])], -5, 3⟩) :=
  ⟨by unfold IsMap tagsOf; decide, .node rfl (List.Perm.swap _ _ _) rfl rfl⟩

end Osm.Props
