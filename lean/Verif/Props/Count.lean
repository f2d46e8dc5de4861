import Verif.Lemmas.Count
import Verif.Props.Pbf

/-! # Counting entities and blocks (C60, C61) -/

namespace Osm.Props
open Osm Osm.Pb Osm.T Osm.Spec Osm.Count

section
variable {V : Type} [DecidableEq V]

/-! ## C60 -/

/-- C60: any number of goroutines make any updates, interleaved in any way. When all have been made, a variable whose
updates are all `atomicSetMaximum` holds the maximum of its initial value and all arguments. -/
theorem C60_maximum (m : V → UInt64) (ops : List (List (Op V))) (n : Nat) (u : Upd V)
    (h : Count.Steps n (start m ops) u) (hd : u.Done) (v : V) (hv : addArgs v ops.flatten = []) :
    IsMax (u.mem v) (m v :: maxArgs v ops.flatten) :=
  run_max h hd v hv

/-- C60: at every point of every execution the variable holds its initial value or one of the arguments, and it never
decreases. -/
theorem C60_between (m : V → UInt64) (ops : List (List (Op V))) (n : Nat) (u : Upd V)
    (h : Count.Steps n (start m ops) u) (v : V) (hv : addArgs v ops.flatten = []) :
    u.mem v ∈ m v :: maxArgs v ops.flatten ∧ ∀ u', Count.Step u u' → u.mem v ≤ u'.mem v := by
  have hi := steps_inv h (maxInv_start v m ops hv) (fun _ _ => maxInv_step)
  refine ⟨hi.mem, fun u' hs => ?_⟩
  cases hs with
  | @mk m1 m2 t t' l1 l2 hs =>
    dsimp only
    cases hs with
    | @add v' x o =>
      have hne : v' ≠ v := by
        rintro rfl
        have := hi.noAdd
        rw [pend_mid, addArgs_append, addArgs_append, addArgs_add] at this
        simp at this
      rw [store_other _ _ (Ne.symm hne)]
      exact UInt64.le_refl _
    | @cas v' x o old hgt heq =>
      by_cases hv' : v' = v
      · subst hv'
        rw [store_same, heq]
        exact UInt64.le_of_lt hgt
      · rw [store_other _ _ (Ne.symm hv')]
        exact UInt64.le_refl _
    | load => exact UInt64.le_refl _
    | leave => exact UInt64.le_refl _
    | casFail => exact UInt64.le_refl _

/-- `k` steps of one goroutine while the others do nothing. -/
inductive Alone : Nat → (V → UInt64) → Thread V → (V → UInt64) → Thread V → Prop where
  | refl {m t} : Alone 0 m t m t
  | step {k m t m' t' m'' t''} : TStep m t m' t' → Alone k m' t' m'' t'' → Alone (k + 1) m t m'' t''

/-- C60: from any point of any execution, a goroutine in the middle of an update that runs alone completes that update:
it can make three more steps unless it is done with all its updates before, and after three steps the update is made. -/
theorem C60_alone (m : V → UInt64) (ops : List (List (Op V))) (n : Nat) (u : Upd V)
    (h : Count.Steps n (start m ops) u) (t : Thread V) (ht : t ∈ u.threads) (op : Op V) (rest : List (Op V))
    (hop : t.ops = op :: rest) :
    (∃ k m' t', k ≤ 3 ∧ Alone k u.mem t m' t' ∧ t'.ops = rest) ∧
    ∀ m' t', Alone 3 u.mem t m' t' → t'.ops.length ≤ rest.length := by
  have hw : Wf t := steps_inv h (wf_start m ops) (fun _ _ => wf_step) t ht
  obtain ⟨o, old⟩ := t
  dsimp only at hop
  subst hop
  refine ⟨?_, ?_⟩
  · cases old with
    | none =>
      cases op with
      | add v x => exact ⟨1, _, _, by omega, .step .add .refl, rfl⟩
      | setMax v x =>
        by_cases hx : x > u.mem v
        · exact ⟨2, _, _, by omega, .step .load (.step (.cas hx rfl) .refl), rfl⟩
        · exact ⟨2, _, _, by omega, .step .load (.step (.leave hx) .refl), rfl⟩
    | some old =>
      obtain ⟨v, x, os, e⟩ := hw old rfl
      cases e
      by_cases h0 : x > old
      · by_cases h1 : u.mem v = old
        · exact ⟨1, _, _, by omega, .step (.cas h0 h1) .refl, rfl⟩
        · by_cases hx : x > u.mem v
          · exact ⟨3, _, _, by omega, .step (.casFail h0 h1) (.step .load (.step (.cas hx rfl) .refl)), rfl⟩
          · exact ⟨3, _, _, by omega, .step (.casFail h0 h1) (.step .load (.step (.leave hx) .refl)), rfl⟩
      · exact ⟨1, _, _, by omega, .step (.leave h0) .refl, rfl⟩
  · intro m' t' ha
    have shrink : ∀ {k : Nat} {a : V → UInt64} {t : Thread V} {b : V → UInt64} {t' : Thread V},
        Alone k a t b t' → t'.ops.length ≤ t.ops.length := by
      intro k a t b t' h
      induction h with
      | refl => exact Nat.le_refl _
      | step h _ ih => cases h <;> simp only [List.length_cons] at ih ⊢ <;> omega
    cases ha with
    | step s1 ha =>
      cases s1 with
      | add => exact shrink ha
      | leave => exact shrink ha
      | cas => exact shrink ha
      | load =>
        cases ha with
        | step s2 ha =>
          cases s2 with
          | leave => exact shrink ha
          | cas => exact shrink ha
          | casFail _ hne => exact absurd rfl hne
      | casFail =>
        cases ha with
        | step s2 ha =>
          cases s2 with
          | load =>
            cases ha with
            | step s3 ha =>
              cases s3 with
              | leave => exact shrink ha
              | cas => exact shrink ha
              | casFail _ hne => exact absurd rfl hne

/-- C60: no execution goes on for ever, whatever the scheduler does, and it can always go on until all updates are made.
With `N` goroutines and `S` updates there are at most `S (2N + 1) + 2N` steps. -/
theorem C60_terminates (m : V → UInt64) (ops : List (List (Op V))) (n : Nat) (u : Upd V)
    (h : Count.Steps n (start m ops) u) :
    n ≤ ops.flatten.length * (2 * ops.length + 1) + 2 * ops.length ∧ (¬ u.Done → ∃ u', Count.Step u u') ∧
      ∃ k u', Count.Steps k u u' ∧ u'.Done := by
  have hw : WfU u := steps_inv h (wf_start m ops) (fun _ _ => wf_step)
  refine ⟨?_, not_done hw, finishes _ u (Nat.le_refl _) hw⟩
  have hb := steps_work h
  have : Count.work (start m ops) = ops.flatten.length * (2 * ops.length + 1) + 2 * ops.length := by
    unfold Count.work
    rw [ranks_start, pend_start]
    simp [start]
  omega

/-- C60: likewise, a variable whose updates are all additions holds the sum (modulo 2^64). -/
theorem C60_sum (m : V → UInt64) (ops : List (List (Op V))) (n : Nat) (u : Upd V)
    (h : Count.Steps n (start m ops) u) (hd : u.Done) (v : V) (hv : maxArgs v ops.flatten = []) :
    u.mem v = m v + (addArgs v ops.flatten).sum :=
  run_add h hd v hv

/-- Two goroutines that set the same maximum: both load 3, the larger one wins the exchange, the smaller one tries
again and leaves. -/
example : ∃ n u, Count.Steps n (start (fun _ : Unit => 3) [[.setMax () 5], [.setMax () 9]]) u ∧ u.Done ∧ u.mem () = 9 := by
  refine ⟨6, ⟨store (fun _ => 3) () 9, [⟨[], none⟩, ⟨[], none⟩]⟩, ?_, ?_, rfl⟩
  · have s1 : Count.Step (start (fun _ : Unit => 3) [[.setMax () 5], [.setMax () 9]])
        ⟨fun _ => 3, [⟨[.setMax () 5], some 3⟩, ⟨[.setMax () 9], none⟩]⟩ :=
      .mk (l1 := []) .load
    have s2 : Count.Step (V := Unit) ⟨fun _ => 3, [⟨[.setMax () 5], some 3⟩, ⟨[.setMax () 9], none⟩]⟩
        ⟨fun _ => 3, [⟨[.setMax () 5], some 3⟩, ⟨[.setMax () 9], some 3⟩]⟩ :=
      .mk (l1 := [⟨[.setMax () 5], some 3⟩]) .load
    have s3 : Count.Step (V := Unit) ⟨fun _ => 3, [⟨[.setMax () 5], some 3⟩, ⟨[.setMax () 9], some 3⟩]⟩
        ⟨store (fun _ => 3) () 9, [⟨[.setMax () 5], some 3⟩, ⟨[], none⟩]⟩ :=
      .mk (l1 := [⟨[.setMax () 5], some 3⟩]) (.cas (by decide) rfl)
    have s4 : Count.Step (V := Unit) ⟨store (fun _ => 3) () 9, [⟨[.setMax () 5], some 3⟩, ⟨[], none⟩]⟩
        ⟨store (fun _ => 3) () 9, [⟨[.setMax () 5], none⟩, ⟨[], none⟩]⟩ :=
      .mk (l1 := []) (.casFail (by decide) (by simp [store]))
    have s5 : Count.Step (V := Unit) ⟨store (fun _ => 3) () 9, [⟨[.setMax () 5], none⟩, ⟨[], none⟩]⟩
        ⟨store (fun _ => 3) () 9, [⟨[.setMax () 5], some 9⟩, ⟨[], none⟩]⟩ :=
      .mk (l1 := []) .load
    have s6 : Count.Step (V := Unit) ⟨store (fun _ => 3) () 9, [⟨[.setMax () 5], some 9⟩, ⟨[], none⟩]⟩
        ⟨store (fun _ => 3) () 9, [⟨[], none⟩, ⟨[], none⟩]⟩ :=
      .mk (l1 := []) (.leave (by decide))
    exact .step (.step (.step (.step (.step (.step .refl s1) s2) s3) s4) s5) s6
  · intro t ht
    simp only [List.mem_cons, List.not_mem_nil, or_false, or_self] at ht
    rw [ht]

end

/-! ## C61 -/

theorem sum_ge {x : Nat} : ∀ {xs : List Nat}, x ∈ xs → x ≤ xs.sum
  | y :: ys, h => by
    rw [List.sum_cons]
    rcases List.mem_cons.1 h with rfl | h
    · omega
    · have := sum_ge h
      omega

/-- C61: after a complete run with any number of workers, any distribution of the blocks over them and any interleaving
of their final updates, what is printed are the totals and maxima of the file, if no id in it is negative.
Missing: negative ids, for which the maxima are not those of the file (`C61_false_with_negative`). -/
theorem C61_totals_partial (inflate : Inflate) (sched : Pbf.Block → Sched) (hsched : ∀ b, (sched b).pooled.length < 2 ^ 63)
    (file : List UInt8) (hl : file.length < 2 ^ 63) (cs : List Content) (hc : FileHas inflate entitiesDecoded file cs)
    (hn : NonNegativeIds cs) (h64 : Fit64 (totals cs)) (W : Nat) (s : Pbf.St (List T.PrimitiveGroup))
    (hr : Pbf.Reachable (countCfg inflate sched file) W s) (hd : s.main = .done) (hcc : s.cancelled = false)
    (m : Var → UInt64) (hp : Prints inflate sched s m) :
    (m .blockCount).toNat = (totals cs).blocks ∧
    (m .nodeCount).toNat = (totals cs).nodes ∧
    (m .wayCount).toNat = (totals cs).ways ∧
    (m .relationCount).toNat = (totals cs).relations ∧
    (m .wayRefCount).toNat = (totals cs).refs ∧
    (m .maxNode).toNat = (totals cs).maxNode ∧
    (m .maxWay).toNat = (totals cs).maxWay ∧
    (m .maxRelation).toNat = (totals cs).maxRelation ∧
    (m .maxWayRefCount).toNat = (totals cs).maxRefs := by
  obtain ⟨bs, b1, b2⟩ := hc
  obtain ⟨bs', e1, _, e3, _⟩ := C55_each_once _ hl W s hr hd hcc
  have e1 : Pbf.split file = .ok bs' := e1
  rw [b1] at e1
  cases e1
  have hf := fun b hb => ((Rewrite.split_blocks hl b1).2 b hb).1
  have hv := (prints_local inflate sched hsched hf b2 e3).2 m hp
  obtain ⟨n1, n2, n3⟩ := hn
  obtain ⟨f1, f2, f3, f4, f5⟩ := h64
  have hof : ∀ n : Nat, n < 2 ^ 64 → (0 + UInt64.ofNat n).toNat = n := by
    intro n hn
    rw [UInt64.zero_add, UInt64.toNat_ofNat', Nat.mod_eq_of_lt hn]
  refine ⟨?_, ?_, ?_, ?_, ?_, ?_, ?_, ?_, ?_⟩
  · rw [hv]; exact hof _ f1
  · rw [hv]; exact hof _ f2
  · rw [hv]; exact hof _ f3
  · rw [hv]; exact hof _ f4
  · rw [hv]; exact hof _ f5
  · rw [hv]; exact umax_ids _ n1
  · rw [hv]
    show (umax 0 ((fileWays cs).map (·.ID.toUInt64))).toNat = maxId ((fileWays cs).map (·.ID))
    rw [← umax_ids, List.map_map]
    · rfl
    · intro i hi
      obtain ⟨w, hw, rfl⟩ := List.mem_map.1 hi
      exact n2 w hw
  · rw [hv]
    show (umax 0 ((fileRelations cs).map (·.ID.toUInt64))).toNat = maxId ((fileRelations cs).map (·.ID))
    rw [← umax_ids, List.map_map]
    · rfl
    · intro i hi
      obtain ⟨w, hw, rfl⟩ := List.mem_map.1 hi
      exact n3 w hw
  · rw [hv]
    show (umax 0 ((fileWays cs).map fun w => UInt64.ofNat w.Refs.length)).toNat = _
    rw [umax_nat, List.map_map]
    show _ = ((fileWays cs).map (·.Refs.length)).foldl Nat.max 0
    congr 1
    apply List.map_congr_left
    intro w hw
    simp only [Function.comp, UInt64.toNat_ofNat']
    apply Nat.mod_eq_of_lt
    exact Nat.lt_of_le_of_lt (sum_ge (List.mem_map.2 ⟨w, hw, rfl⟩)) f5

/-- C61, for every file: what is printed are the totals modulo 2^64, and the largest ids as unsigned 64-bit numbers (0 if
there are none). -/
theorem C61_exact (inflate : Inflate) (sched : Pbf.Block → Sched) (hsched : ∀ b, (sched b).pooled.length < 2 ^ 63)
    (file : List UInt8) (hl : file.length < 2 ^ 63) (cs : List Content) (hc : FileHas inflate entitiesDecoded file cs)
    (W : Nat) (s : Pbf.St (List T.PrimitiveGroup))
    (hr : Pbf.Reachable (countCfg inflate sched file) W s) (hd : s.main = .done) (hcc : s.cancelled = false)
    (m : Var → UInt64) (hp : Prints inflate sched s m) :
    m .blockCount = UInt64.ofNat (totals cs).blocks ∧
    m .nodeCount = UInt64.ofNat (totals cs).nodes ∧
    m .wayCount = UInt64.ofNat (totals cs).ways ∧
    m .relationCount = UInt64.ofNat (totals cs).relations ∧
    m .wayRefCount = UInt64.ofNat (totals cs).refs ∧
    IsMax (m .maxNode) (0 :: (nodeIds cs).map (·.toUInt64)) ∧
    IsMax (m .maxWay) (0 :: (fileWays cs).map (·.ID.toUInt64)) ∧
    IsMax (m .maxRelation) (0 :: (fileRelations cs).map (·.ID.toUInt64)) ∧
    IsMax (m .maxWayRefCount) (0 :: (fileWays cs).map fun w => UInt64.ofNat w.Refs.length) := by
  obtain ⟨bs, b1, b2⟩ := hc
  obtain ⟨bs', e1, _, e3, _⟩ := C55_each_once _ hl W s hr hd hcc
  have e1 : Pbf.split file = .ok bs' := e1
  rw [b1] at e1
  cases e1
  have hf := fun b hb => ((Rewrite.split_blocks hl b1).2 b hb).1
  have hv := (prints_local inflate sched hsched hf b2 e3).2 m hp
  refine ⟨?_, ?_, ?_, ?_, ?_, ?_, ?_, ?_, ?_⟩
  · rw [hv]; exact UInt64.zero_add _
  · rw [hv]; exact UInt64.zero_add _
  · rw [hv]; exact UInt64.zero_add _
  · rw [hv]; exact UInt64.zero_add _
  · rw [hv]; exact UInt64.zero_add _
  all_goals (rw [hv]; exact umax_isMax 0 _)

theorem maxId_iff (ids : List Int64) (x : UInt64) (h : IsMax x (0 :: ids.map (·.toUInt64))) :
    x.toNat = maxId ids ↔ ∀ id ∈ ids, 0 ≤ id.toInt := by
  have hneg : ∀ id : Int64, id.toInt < 0 → 2 ^ 63 ≤ id.toUInt64.toNat := by
    intro id hid
    have e : id.toUInt64.toNat = id.toBitVec.toNat := rfl
    have e2 : id.toInt = id.toBitVec.toInt := rfl
    rw [e2, BitVec.toInt_eq_toNat_cond] at hid
    rw [e]
    have := id.toBitVec.isLt
    split at hid <;> omega
  constructor
  · intro hx id hid
    apply Int.not_lt.1
    intro hlt
    have h1 : id.toUInt64 ≤ x := h.2 _ (List.mem_cons_of_mem _ (List.mem_map.2 ⟨id, hid, rfl⟩))
    have h1 := UInt64.le_iff_toNat_le.1 h1
    have h2 := hneg id hlt
    have h3 : ∀ (ns : List Nat) (a : Nat), a < 2 ^ 63 → (∀ n ∈ ns, n < 2 ^ 63) → ns.foldl Nat.max a < 2 ^ 63 := by
      intro ns
      induction ns with
      | nil => intro a ha _; exact ha
      | cons n ns ih =>
        intro a ha hn
        exact ih _ (Nat.max_lt.2 ⟨ha, hn n List.mem_cons_self⟩) (fun n' h' => hn n' (List.mem_cons_of_mem _ h'))
    have h4 : maxId ids < 2 ^ 63 := by
      refine h3 _ 0 (by decide) ?_
      intro n hn
      obtain ⟨i, _, rfl⟩ := List.mem_map.1 hn
      have := i.toInt_lt
      omega
    omega
  · intro hn
    have hx : x = umax 0 (ids.map (·.toUInt64)) := by
      have h' := umax_isMax 0 (ids.map (·.toUInt64))
      exact UInt64.le_antisymm (h'.2 _ h.1) (h.2 _ h'.1)
    rw [hx]
    exact umax_ids ids hn

/-- C61: the maxima printed are those of the file exactly if no id in it is negative. -/
theorem C61_maxima_iff (inflate : Inflate) (sched : Pbf.Block → Sched) (hsched : ∀ b, (sched b).pooled.length < 2 ^ 63)
    (file : List UInt8) (hl : file.length < 2 ^ 63) (cs : List Content) (hc : FileHas inflate entitiesDecoded file cs)
    (W : Nat) (s : Pbf.St (List T.PrimitiveGroup))
    (hr : Pbf.Reachable (countCfg inflate sched file) W s) (hd : s.main = .done) (hcc : s.cancelled = false)
    (m : Var → UInt64) (hp : Prints inflate sched s m) :
    ((m .maxNode).toNat = (totals cs).maxNode ∧ (m .maxWay).toNat = (totals cs).maxWay ∧
      (m .maxRelation).toNat = (totals cs).maxRelation) ↔ NonNegativeIds cs := by
  obtain ⟨_, _, _, _, _, h1, h2, h3, _⟩ := C61_exact inflate sched hsched file hl cs hc W s hr hd hcc m hp
  have g1 := maxId_iff _ _ h1
  have g2 := maxId_iff ((fileWays cs).map (·.ID)) (m .maxWay) (by rw [List.map_map]; exact h2)
  have g3 := maxId_iff ((fileRelations cs).map (·.ID)) (m .maxRelation) (by rw [List.map_map]; exact h3)
  unfold NonNegativeIds
  show ((m .maxNode).toNat = maxId _ ∧ (m .maxWay).toNat = maxId _ ∧ (m .maxRelation).toNat = maxId _) ↔ _
  rw [g1, g2, g3]
  simp

/-- C61: whatever is in the file, all complete runs print the same. -/
theorem C61_same (inflate : Inflate) (sched sched' : Pbf.Block → Sched) (hsched : ∀ b, (sched b).pooled.length < 2 ^ 63)
    (hsched' : ∀ b, (sched' b).pooled.length < 2 ^ 63)
    (file : List UInt8) (hl : file.length < 2 ^ 63) (cs : List Content) (hc : FileHas inflate entitiesDecoded file cs)
    (W W' : Nat) (s s' : Pbf.St (List T.PrimitiveGroup))
    (hr : Pbf.Reachable (countCfg inflate sched file) W s) (hd : s.main = .done) (hcc : s.cancelled = false)
    (hr' : Pbf.Reachable (countCfg inflate sched' file) W' s') (hd' : s'.main = .done) (hcc' : s'.cancelled = false)
    (m m' : Var → UInt64) (hp : Prints inflate sched s m) (hp' : Prints inflate sched' s' m') : m = m' := by
  obtain ⟨bs, b1, b2⟩ := hc
  have hf := fun b hb => ((Rewrite.split_blocks hl b1).2 b hb).1
  obtain ⟨bs', e1, _, e3, _⟩ := C55_each_once _ hl W s hr hd hcc
  have e1 : Pbf.split file = .ok bs' := e1
  rw [b1] at e1
  cases e1
  obtain ⟨bs', e1, _, e3', _⟩ := C55_each_once _ hl W' s' hr' hd' hcc'
  have e1 : Pbf.split file = .ok bs' := e1
  rw [b1] at e1
  cases e1
  funext v
  rw [(prints_local inflate sched hsched hf b2 e3).2 m hp, (prints_local inflate sched' hsched' hf b2 e3').2 m' hp']

/-- C61: no schedule panics; with at least one worker a run can be completed from every state, and after every complete
run something is printed. -/
theorem C61_completes (inflate : Inflate) (sched : Pbf.Block → Sched) (hsched : ∀ b, (sched b).pooled.length < 2 ^ 63)
    (file : List UInt8) (hl : file.length < 2 ^ 63) (cs : List Content) (hc : FileHas inflate entitiesDecoded file cs)
    (W : Nat) :
    (∀ s, Pbf.Reachable (countCfg inflate sched file) W s → s.crashed = false) ∧
    (∀ s, Pbf.Reachable (countCfg inflate sched file) W s → s.main = .done → s.cancelled = false →
      ∃ m, Prints inflate sched s m) ∧
    (0 < W → ∀ s, Pbf.Reachable (countCfg inflate sched file) W s →
        ∃ n s', Pbf.Steps (countCfg inflate sched file) n s s' ∧ s'.cancelled = s.cancelled ∧ s'.main = .done) := by
  obtain ⟨bs, b1, b2⟩ := hc
  have hf := fun b hb => ((Rewrite.split_blocks hl b1).2 b hb).1
  have hcl := Pbf.clean_run (c := countCfg inflate sched file) hl b1 (fun b hb => by
    obtain ⟨c, hc', hcc⟩ := Rewrite.matches_mem b2 b hb
    obtain ⟨gs, h1, _⟩ := content_groups inflate sched hsched (hf b hb) hcc
    exact ⟨gs, h1⟩) (fun _ => rfl) (fun _ => rfl) W
  refine ⟨hcl.1, ?_, fun hW => (hcl.2 hW).1⟩
  intro s hr hd hcc
  obtain ⟨bs', e1, _, e3, _⟩ := C55_each_once _ hl W s hr hd hcc
  have e1 : Pbf.split file = .ok bs' := e1
  rw [b1] at e1
  cases e1
  obtain ⟨ops, ho⟩ := (prints_local inflate sched hsched hf b2 e3).1
  obtain ⟨_, _, k, u, h1, h2⟩ := C60_terminates (fun _ => 0) ops 0 _ .refl
  exact ⟨u.mem, ops, k, u, ho, h1, h2, rfl⟩

/-- C61: with a negative id the maximum printed is not a maximum of ids: it is the largest id as an unsigned number, so
18446744073709551615 for the nodes -1 and 5. -/
theorem C61_false_with_negative (inflate : Inflate) (sched : Pbf.Block → Sched)
    (hsched : ∀ b, (sched b).pooled.length < 2 ^ 63)
    (file : List UInt8) (hl : file.length < 2 ^ 63) (cs : List Content) (hc : FileHas inflate entitiesDecoded file cs)
    (hids : nodeIds cs = [-1, 5]) (W : Nat) (s : Pbf.St (List T.PrimitiveGroup))
    (hr : Pbf.Reachable (countCfg inflate sched file) W s) (hd : s.main = .done) (hcc : s.cancelled = false)
    (m : Var → UInt64) (hp : Prints inflate sched s m) : (m .maxNode).toNat = 18446744073709551615 := by
  obtain ⟨bs, b1, b2⟩ := hc
  obtain ⟨bs', e1, _, e3, _⟩ := C55_each_once _ hl W s hr hd hcc
  have e1 : Pbf.split file = .ok bs' := e1
  rw [b1] at e1
  cases e1
  have hf := fun b hb => ((Rewrite.split_blocks hl b1).2 b hb).1
  rw [(prints_local inflate sched hsched hf b2 e3).2 m hp]
  show (umax 0 ((nodeIds cs).map (·.toUInt64))).toNat = _
  rw [hids]
  decide

/-- C61: the block counter prints the number of blocks, of any kind, in the file, however they are distributed. -/
theorem C61_blocks (file : List UInt8) (hl : file.length < 2 ^ 63) (W : Nat) (s : Pbf.St Unit)
    (hr : Pbf.Reachable (blocksCfg file) W s) (hd : s.main = .done) (hcc : s.cancelled = false) :
    ∃ bs, Pbf.split file = .ok bs ∧ ∀ n, PrintsBlocks s n → n.toNat = bs.length := by
  obtain ⟨bs, e1, _, e3, _⟩ := C55_each_once _ hl W s hr hd hcc
  have e1 : Pbf.split file = .ok bs := e1
  refine ⟨bs, e1, ?_⟩
  rintro n ⟨k, u, h1, h2, rfl⟩
  obtain ⟨a1, a2⟩ := blocks_args (s.workers.map (·.took))
  rw [List.map_map] at a1 a2
  have a1' : addArgs () (List.map (fun w => blocksWorker w.took) s.workers).flatten = _ := a1
  have a2' : maxArgs () (List.map (fun w => blocksWorker w.took) s.workers).flatten = _ := a2
  rw [run_add h1 h2 () a2', a1', UInt64.zero_add]
  have e : (s.workers.map (·.took)).map (fun t => UInt64.ofNat t.length) =
      ((s.workers.map (·.took)).map List.length).map UInt64.ofNat := by
    simp only [List.map_map]; rfl
  rw [e, sum_ofNat, ← List.length_flatten, ← List.flatMap_def, e3.length_eq, UInt64.toNat_ofNat']
  apply Nat.mod_eq_of_lt
  have := split_length hl e1
  omega

/-- C61: the same for completion. -/
theorem C61_blocks_complete (file : List UInt8) (hl : file.length < 2 ^ 63) (bs : List Pbf.Block)
    (hs : Pbf.split file = .ok bs) (W : Nat) :
    (∀ s, Pbf.Reachable (blocksCfg file) W s → s.crashed = false ∧ ∃ n, PrintsBlocks s n) ∧
    (0 < W → ∀ s, Pbf.Reachable (blocksCfg file) W s →
        ∃ n s', Pbf.Steps (blocksCfg file) n s s' ∧ s'.cancelled = s.cancelled ∧ s'.main = .done) := by
  have hcl := Pbf.clean_run (c := blocksCfg file) hl hs (fun b hb => ⟨(), rfl⟩) (fun _ => rfl) (fun _ => rfl) W
  refine ⟨fun s hr => ⟨hcl.1 s hr, ?_⟩, fun hW => (hcl.2 hW).1⟩
  obtain ⟨_, _, k, u, h1, h2⟩ :=
    C60_terminates (fun _ => 0) (s.workers.map fun w => blocksWorker w.took) 0 _ .refl
  exact ⟨u.mem (), k, u, h1, h2, rfl⟩

/-! ## Example -/

/-- Two nodes, two ways (of which one with three refs) and a relation. -/
def countedBlock : PrimitiveBlock :=
  ⟨some (Slice.full []), none,
    [⟨none, some ⟨[5, 6], [1, 2], [4, 5], []⟩, [], [], [], []⟩,
     ⟨none, none, [⟨9, [], [], [5, 6]⟩, ⟨8, [], [], [5, 6, 5]⟩], [], [⟨3, [], [], [], [], []⟩], []⟩], 100, 1000, 0, 0⟩

example : totals [.other Pbf.osmHeader [1, 2, 3], .data countedBlock] = ⟨2, 2, 2, 1, 5, 6, 9, 3, 3⟩ := by rfl

/-- A file with a header and the given block. -/
theorem oneBlockFile (inflate : Inflate) (o : PBReader) (pb : PrimitiveBlock) (hs : BlockShape o pb)
    (ht : trimBlock pb = pb) (h : (Blob.zero.Write (some pb.Write) []).isOk = true) :
    ∃ file : List UInt8, file.length < 2 ^ 63 ∧
      FileHas inflate o file [.other Pbf.osmHeader [1, 2, 3], .data pb] := by
  obtain ⟨b1, hb1⟩ : ∃ blob, Blob.zero.Write (some pb.Write) [] = .ok blob := by
    cases hx : Blob.zero.Write (some pb.Write) [] with
    | ok x => exact ⟨x, rfl⟩
    | panic => rw [hx] at h; cases h
    | hang => rw [hx] at h; cases h
  obtain ⟨h1, h2⟩ := written_reads inflate hs hb1
  rw [ht] at h1
  have hw : ∀ x ∈ [(Pbf.osmHeader, [1, 2, 3]), (Pbf.osmData, b1)], Writable x := by
    intro x hx
    simp only [List.mem_cons, List.not_mem_nil, or_false] at hx
    rcases hx with rfl | rfl
    · exact ⟨.inl rfl, by decide⟩
    · exact ⟨.inr rfl, h2⟩
  have hl := Rewrite.fileOf_length _ hw
  simp only [List.length_cons, List.length_nil] at hl
  exact ⟨_, by omega, Rewrite.fileOf_has inflate o (by simp) hw (by omega)
    (.cons ⟨rfl, rfl, by decide⟩ (.cons ⟨rfl, h1⟩ .nil))⟩

/-- A file that meets the hypotheses of C61. -/
theorem countedFile (inflate : Inflate) : ∃ file : List UInt8, file.length < 2 ^ 63 ∧
    FileHas inflate entitiesDecoded file [.other Pbf.osmHeader [1, 2, 3], .data countedBlock] ∧
    NonNegativeIds [.other Pbf.osmHeader [1, 2, 3], .data countedBlock] ∧
    Fit64 (totals [.other Pbf.osmHeader [1, 2, 3], .data countedBlock]) := by
  obtain ⟨file, h1, h2⟩ := oneBlockFile inflate Count.reader countedBlock
    (by
      refine ⟨rfl, ?_⟩
      intro g hg
      simp only [countedBlock, List.mem_cons, List.not_mem_nil, or_false] at hg
      rcases hg with rfl | rfl <;> exact ⟨rfl, rfl, rfl⟩) (by decide +kernel) (by decide +kernel)
  refine ⟨file, h1, h2, ?_, ?_⟩
  · unfold NonNegativeIds
    decide +kernel
  · unfold Fit64
    decide +kernel

/-- One that meets those of `C61_false_with_negative`. -/
theorem negativeFile (inflate : Inflate) : ∃ file : List UInt8, file.length < 2 ^ 63 ∧
    ∃ cs, FileHas inflate entitiesDecoded file cs ∧ nodeIds cs = [-1, 5] := by
  obtain ⟨file, h1, h2⟩ := oneBlockFile inflate Count.reader
    ⟨some (Slice.full []), none, [⟨none, some ⟨[-1, 5], [1, 2], [4, 5], []⟩, [], [], [], []⟩], 100, 1000, 0, 0⟩
    (by
      refine ⟨rfl, ?_⟩
      intro g hg
      obtain rfl := List.mem_singleton.1 hg
      exact ⟨rfl, rfl, rfl⟩) (by decide +kernel) (by decide +kernel)
  exact ⟨file, h1, _, h2, rfl⟩

end Osm.Props
