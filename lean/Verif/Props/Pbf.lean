import Verif.Lemmas.PipelineLive

/-!
# C53–C59: splitting a file into blocks, and processing it with goroutines
-/

namespace Osm.Props
open Osm Osm.T Osm.Pb Osm.Pbf Osm.Spec

/-! ## C53 -/

/-- C53: splitting a file succeeds exactly on a non-empty sequence of frames, with exactly its blocks, in order. -/
theorem C53_split_iff (file : List UInt8) (hl : file.length < 2 ^ 63) (bs : List Block) :
    split file = .ok bs ↔ file ≠ [] ∧ BlockFile 0 file bs := split_iff file hl bs

/-- C53: on any other file it panics; it never loops for ever. -/
theorem C53_otherwise (file : List UInt8) (hl : file.length < 2 ^ 63)
    (h : ∀ bs, ¬ BlockFile 0 file bs) : split file = .panic := by
  cases hs : split file with
  | ok bs => exact absurd ((split_iff file hl bs).1 hs).2 (h bs)
  | panic => rfl
  | hang => exact absurd hs (split_ne_hang file hl)

theorem blockFile_index {i : Nat} {file : List UInt8} {bs : List Block} (h : BlockFile i file bs) :
    bs.map (·.Index) = List.range' i bs.length := by
  induction h with
  | nil => rfl
  | cons _ _ _ _ _ _ _ _ _ _ _ _ ih => simp [ih, List.range'_succ]

/-- C53: the indices of the blocks are 0, 1, 2, ... -/
theorem C53_indices (file : List UInt8) (hl : file.length < 2 ^ 63) (bs : List Block) (h : split file = .ok bs) :
    bs.map (·.Index) = List.range bs.length := by
  rw [blockFile_index ((split_iff file hl bs).1 h).2, List.range_eq_range']

/-- C53: the blocks written by a writer are read back: same kinds, same data, same order. -/
theorem C53_round_trip (xs : List (GoStr × List UInt8)) (hne : xs ≠ []) (hw : ∀ x ∈ xs, Writable x)
    (hl : (fileOf xs).length < 2 ^ 63) :
    ∃ bs, split (fileOf xs) = .ok bs ∧ bs.map Seen = xs ∧ bs.map (·.Index) = List.range xs.length := by
  refine ⟨blocksFrom 0 xs, (split_iff _ hl _).2 ⟨?_, blockFile_fileOf xs hw hl 0⟩, blocksFrom_seen xs 0, ?_⟩
  · cases xs with
    | nil => exact absurd rfl hne
    | cons x xs =>
      intro h
      have := congrArg List.length h
      simp [fileOf, frame_eq, be32_length] at this
  · rw [blocksFrom_index, List.range_eq_range']

/-- C53: a file cut inside its last block panics, wherever it is cut. -/
theorem C53_truncated (xs : List (GoStr × List UInt8)) (hw : ∀ x ∈ xs, Writable x) (kind : GoStr)
    (data cut missing : List UInt8) (hd : Writable (kind, data)) (hc : cut ++ missing = frame kind data) (h1 : cut ≠ [])
    (h2 : missing ≠ []) (hl : (fileOf xs ++ cut).length < 2 ^ 62) : split (fileOf xs ++ cut) = .panic := by
  refine C53_otherwise _ (by omega) fun bs hb => ?_
  obtain ⟨bs', hb'⟩ := blockFile_append hw hl hb
  exact blockFile_cut hd (by simp only [List.length_append] at hl; omega) hc h1 h2 hb'

/-- C53: any data behind the last block that is not itself a sequence of blocks panics. -/
theorem C53_trailing (xs : List (GoStr × List UInt8)) (hw : ∀ x ∈ xs, Writable x) (tail : List UInt8)
    (ht : ∀ i bs, ¬ BlockFile i tail bs) (hl : (fileOf xs ++ tail).length < 2 ^ 62) :
    split (fileOf xs ++ tail) = .panic := by
  refine C53_otherwise _ (by omega) fun bs hb => ?_
  obtain ⟨bs', hb'⟩ := blockFile_append hw hl hb
  exact ht _ _ hb'

/-- C53: so does a single block of an unknown kind. -/
theorem C53_unknown_kind (xs : List (GoStr × List UInt8)) (hw : ∀ x ∈ xs, Writable x) (kind : GoStr)
    (data tail : List UInt8) (hk : kind ≠ osmHeader ∧ kind ≠ osmData) (hkl : (headerOf kind data).length < 2 ^ 32)
    (hl : (fileOf xs ++ (frame kind data ++ tail)).length < 2 ^ 62) :
    split (fileOf xs ++ (frame kind data ++ tail)) = .panic := by
  refine C53_trailing xs hw _ (fun i bs hb => ?_) hl
  rw [frame_eq] at hb hl
  generalize hf : be32 (UInt32.ofNat (headerOf kind data).length) ++ headerOf kind data ++ data ++ tail = f at hb
  cases hb with
  | nil =>
    have := congrArg List.length hf
    simp [be32_length] at this
  | cons _ header data' rest kind' size bs hh hr hk' hsz hrest =>
    simp only [List.append_assoc] at hf
    obtain ⟨he, hf1⟩ := append_split hf (by simp [be32_length])
    have he := be32_inj he
    have hln : (headerOf kind data).length = header.length := by
      have := congrArg UInt32.toNat he
      rw [UInt32.toNat_ofNat', UInt32.toNat_ofNat', Nat.mod_eq_of_lt (by omega), Nat.mod_eq_of_lt hh] at this
      exact this
    obtain ⟨hhd, hf2⟩ := append_split hf1 hln
    subst hhd
    simp only [List.length_append, be32_length] at hl
    rw [headerOf_read kind data _ (by rw [← hf2]; simp only [List.length_append]; omega)] at hr
    cases hr
    rcases hk' with h | h
    · exact hk.1 h
    · exact hk.2 h

/-- A header block and two data blocks, one of them empty. -/
def threeBlocks : List (GoStr × List UInt8) := [(osmHeader, [1]), (osmData, []), (osmData, [2, 3])]

theorem threeBlocks_writable : ∀ x ∈ threeBlocks, Writable x := by unfold Writable; decide +kernel

example : ∃ bs, split (fileOf threeBlocks) = .ok bs ∧ bs.map Seen = threeBlocks ∧
    bs.map (·.Index) = [0, 1, 2] :=
  C53_round_trip threeBlocks (by decide) threeBlocks_writable (by decide +kernel)

example : split (fileOf threeBlocks ++ (frame osmData [9]).take 7) = .panic :=
  C53_truncated threeBlocks threeBlocks_writable osmData [9] _ ((frame osmData [9]).drop 7) (by unfold Writable; decide +kernel)
    (List.take_append_drop ..) (by decide +kernel) (by decide +kernel) (by decide +kernel)

/-- "Filler" is a kind that the tag filter uses internally. -/
example : split (fileOf threeBlocks ++ (frame [70, 105, 108, 108, 101, 114] [9] ++ [])) = .panic :=
  C53_unknown_kind threeBlocks threeBlocks_writable _ [9] [] (by decide) (by decide +kernel) (by decide +kernel)

/-! ## C54 -/

variable {O : Type}

theorem zip_lookup (xs : List O) (k i : Nat) :
    ((List.range' k xs.length).zip xs).lookup i = if k ≤ i then xs[i - k]? else none := by
  induction xs generalizing k with
  | nil => simp
  | cons x xs ih =>
    rw [List.length_cons, List.range'_succ, List.zip_cons_cons, List.lookup_cons, ih]
    by_cases h : i = k
    · subst h; simp
    · rw [beq_false_of_ne h]
      by_cases h1 : k ≤ i
      · rw [if_pos h1, if_pos (by omega), show i - k = (i - (k + 1)) + 1 by omega]; rfl
      · rw [if_neg h1, if_neg (by omega)]

theorem lookup_of_mem {l : List (Nat × O)} (hn : (l.map (·.1)).Nodup) {i : Nat} {o : O} (h : (i, o) ∈ l) :
    l.lookup i = some o := by
  induction l with
  | nil => simp at h
  | cons p l ih =>
    obtain ⟨a, x⟩ := p
    simp only [List.map_cons, List.nodup_cons] at hn
    rw [List.lookup_cons]
    rcases List.mem_cons.1 h with h | h
    · cases h; simp
    · have : i ≠ a := by
        intro e
        subst e
        exact hn.1 (List.mem_map.2 ⟨_, ‹(i, o) ∈ l›, rfl⟩)
      rw [beq_false_of_ne this]
      exact ih hn.2 h

/-- What the reorderer does on distinct indices: it sends the blocks from 0 up to the first index that never comes, in
order, and panics exactly if it received more than that. -/
theorem reorder_spec (arrivals : List (Nat × O)) (hn : (arrivals.map (·.1)).Nodup) :
    ∃ k, (reorder arrivals).1.map some = (List.range k).map (fun i => arrivals.lookup i) ∧
      arrivals.lookup k = none ∧
      (reorder arrivals).2 = if k < arrivals.length then .panic else .ok () := by
  obtain ⟨k, h1, h2⟩ := reorderLoop_inv arrivals ([] : List (Nat × O)) [] 0 [] RInv.init rfl (by simpa using hn)
  simp only [List.nil_append] at h1 h2
  refine ⟨k, h1.sent, h2, ?_⟩
  have := h1.count
  simp only [reorder]
  by_cases h : k < arrivals.length
  · rw [if_pos h, if_pos (by omega)]
  · rw [if_neg h, if_neg (by omega)]

/-- C54: in whatever order the blocks 0..n-1 arrive, they leave in index order, each once, and the reorderer returns. -/
theorem C54_any_order (xs : List O) (arrivals : List (Nat × O))
    (h : arrivals.Perm ((List.range xs.length).zip xs)) : reorder arrivals = (xs, .ok ()) := by
  have hmap : ((List.range xs.length).zip xs).map (·.1) = List.range xs.length := by
    rw [← List.unzip_fst, List.unzip_zip (by simp)]
  have hn : (arrivals.map (·.1)).Nodup := by
    rw [(h.map (·.1)).nodup_iff, hmap]
    exact List.nodup_range
  have hn' : (((List.range xs.length).zip xs).map (·.1)).Nodup := by rw [hmap]; exact List.nodup_range
  have hlook : ∀ i, arrivals.lookup i = xs[i]? := by
    intro i
    have hz := zip_lookup xs 0 i
    rw [if_pos (by omega), Nat.sub_zero, ← List.range_eq_range'] at hz
    cases hx : xs[i]? with
    | none =>
      rw [hx] at hz
      refine lookup_none_of_not_mem fun hm => ?_
      rw [(h.map (·.1)).mem_iff, hmap, List.mem_range] at hm
      rw [List.getElem?_eq_getElem hm] at hx
      cases hx
    | some o =>
      rw [hx] at hz
      exact lookup_of_mem hn (h.mem_iff.2 (lookup_mem hz))
  obtain ⟨k, h1, h2, h3⟩ := reorder_spec arrivals hn
  have hlen : arrivals.length = xs.length := by simpa using h.length_eq
  have hk : k = xs.length := by
    have hge : xs.length ≤ k := by
      rw [hlook] at h2
      exact List.getElem?_eq_none_iff.1 h2
    apply Nat.le_antisymm _ hge
    apply Nat.le_of_not_lt
    intro hlt
    have := congrArg (fun l => l[xs.length]?) h1
    have hl : (reorder arrivals).1.length = k := by simpa using congrArg List.length h1
    simp only [List.getElem?_map, List.getElem?_range hlt, Option.map_some, hlook] at this
    rw [List.getElem?_eq_getElem (by omega)] at this
    simp at this
  subst hk
  have hout : (reorder arrivals).1 = xs := by
    apply List.map_inj_right (f := some) (by intro a b h; cases h; rfl) |>.1
    rw [h1]
    apply List.ext_getElem?
    intro i
    simp only [List.getElem?_map, hlook]
    by_cases hi : i < xs.length
    · rw [List.getElem?_range hi]
      simp [hi]
    · rw [List.getElem?_eq_none (by simpa using hi), List.getElem?_eq_none (by simpa using hi)]
      rfl
  rw [if_neg (by omega)] at h3
  exact Prod.ext hout h3

/-- C54: if some index never arrives but a later one does, the reorderer sends exactly what precedes the first missing
index and then panics when its input is closed. -/
theorem C54_missing (arrivals : List (Nat × O)) (hn : (arrivals.map (·.1)).Nodup) (k : Nat)
    (hk : k ∉ arrivals.map (·.1)) (hbelow : ∀ i < k, i ∈ arrivals.map (·.1))
    (hlater : ∃ j ∈ arrivals.map (·.1), k < j) :
    (reorder arrivals).2 = .panic ∧ (reorder arrivals).1.map some = (List.range k).map (fun i => arrivals.lookup i) := by
  obtain ⟨k', h1, h2, h3⟩ := reorder_spec arrivals hn
  have hin : ∀ i ∈ arrivals.map (·.1), arrivals.lookup i ≠ none := by
    intro i hi he
    obtain ⟨p, hp, rfl⟩ := List.mem_map.1 hi
    rw [lookup_of_mem hn (o := p.2) (by exact hp)] at he
    cases he
  have hkk : k' = k := by
    rcases Nat.lt_trichotomy k' k with h | h | h
    · exact absurd h2 (hin _ (hbelow _ h))
    · exact h
    · exfalso
      have hl : (reorder arrivals).1.length = k' := by simpa using congrArg List.length h1
      have := congrArg (fun l => l[k]?) h1
      simp only [List.getElem?_map, List.getElem?_range h, Option.map_some, lookup_none_of_not_mem hk] at this
      rw [List.getElem?_eq_getElem (by omega)] at this
      cases this
  subst hkk
  refine ⟨?_, h1⟩
  rw [h3, if_pos]
  obtain ⟨j, hj, hlt⟩ := hlater
  -- `0 .. k-1` and `j` are among the distinct indices
  have hsub := List.Nodup.length_le_of_subset (l₁ := j :: List.range k') (l₂ := arrivals.map (·.1))
    (by
      rw [List.nodup_cons]
      exact ⟨fun h => by have := List.mem_range.1 h; omega, List.nodup_range⟩)
    (by
      intro x hx
      rcases List.mem_cons.1 hx with rfl | hx
      · exact hj
      · exact hbelow x (List.mem_range.1 hx))
  simp at hsub
  omega

example : reorder [(2, 'c'), (0, 'a'), (1, 'b')] = (['a', 'b', 'c'], .ok ()) :=
  C54_any_order ['a', 'b', 'c'] _ (by decide)

example : (reorder [(3, 'd'), (0, 'a'), (1, 'b')]).2 = .panic :=
  (C54_missing [(3, 'd'), (0, 'a'), (1, 'b')] (by decide) 2 (by decide) (by decide) ⟨3, by decide, by decide⟩).1

/-! ## C55 -/

/-- C55: when a run that was not cancelled completes, the writer has received exactly the result of the worker on each
block of the file, in file order, and its own steps all succeeded: for every number of workers and every interleaving. -/
theorem C55_in_order (c : Cfg O) (hl : c.file.length < 2 ^ 63) (hw : c.hasWriter = true) (W : Nat) (s : St O)
    (hr : Reachable c W s) (hd : s.main = .done) (hc : s.cancelled = false) :
    ∃ bs, split c.file = .ok bs ∧ mapRes c.work bs = .ok s.got ∧
      (∀ p q, s.got = p ++ q → p ≠ [] → c.write p = .ok ()) ∧ c.finish s.got = .ok () := by
  have hI := hr.inv hl
  have hW := hr.winv hl
  obtain ⟨_, p, hh, ha⟩ := hI.a
  rw [hd] at ha
  have ha : p = c.file.length := by
    rcases ha with ha | ha
    · exact ha.1
    · rw [hc] at ha; cases ha.1
  subst ha
  have hr8 : rank s.main = 8 := by rw [hd]; rfl
  refine ⟨s.sent, hh.all hl (hr.file_ne (Or.inr (by rw [hd]; simp))), ?_, ?_, ?_⟩
  · have hall := hI.seen_all hw (hI.b.workersExited (by omega))
    have hlen : s.seen.length = s.sent.length := by simpa using hall.length_eq.symm
    have hro := (hI.d hw).reorder
    rw [hI.b.reorderExited hw (by omega)] at hro
    have := ((hI.d hw).prefix hro).2
    rw [hlen, List.take_length] at this
    exact this
  · intro p q hpq hp
    exact hW.before p q hpq hp (Or.inr (by rw [hI.b.writerExited hw (by omega)]; simp))
  · exact hW.finished (hI.b.writerExited hw (by omega)) hw

/-- C55: with or without a writer, each block of the file has gone to exactly one worker, which has processed it. -/
theorem C55_each_once (c : Cfg O) (hl : c.file.length < 2 ^ 63) (W : Nat) (s : St O)
    (hr : Reachable c W s) (hd : s.main = .done) (hc : s.cancelled = false) :
    ∃ bs, split c.file = .ok bs ∧ s.workers.length = W ∧ (s.workers.flatMap (·.took)).Perm bs ∧
      ∀ b ∈ bs, ∃ o, c.work b = .ok o := by
  have hI := hr.inv hl
  obtain ⟨_, p, hh, ha⟩ := hI.a
  rw [hd] at ha
  have ha : p = c.file.length := by
    rcases ha with ha | ha
    · exact ha.1
    · rw [hc] at ha; cases ha.1
  subst ha
  have hr8 : rank s.main = 8 := by rw [hd]; rfl
  refine ⟨s.sent, hh.all hl (hr.file_ne (Or.inr (by rw [hd]; simp))), hI.b.count, hI.k.perm, fun b hb => ?_⟩
  obtain ⟨w, hw, hbw⟩ := List.mem_flatMap.1 (hI.k.perm.mem_iff.2 hb)
  have := hI.k.done w hw
  unfold WorkerDone at this
  rw [hI.b.workersExited (by omega) w hw] at this
  exact this b hbw

/-- C55: if the file is well-formed and neither the workers nor the writer panic, no run panics, cancelled or not. -/
theorem C55_no_panic (c : Cfg O) (hl : c.file.length < 2 ^ 63) (bs : List Block) (h : Clean c bs) (W : Nat) (s : St O)
    (hr : Reachable c W s) : s.crashed = false := by
  obtain ⟨n, hr⟩ := hr
  generalize he : St.init c W = s0 at hr
  induction hr with
  | refl =>
    subst he
    have := ((split_iff _ hl _).1 h.split).1
    simp [St.init, this]
  | step h1 h2 _ =>
    subst he
    exact no_crash hl (h1.inv hl) h2.2 h2.1 h.split h.work h.write h.finish

/-! ## C56 -/

/-- C56: no run has more than `20 * size of the file + number of workers + 14` steps. -/
theorem C56_bounded (c : Cfg O) (hl : c.file.length < 2 ^ 63) (W n : Nat) (s : St O)
    (h : Steps c n (St.init c W) s) : n ≤ 20 * c.file.length + W + 14 := by
  have := h.measure hl
  omega

/-- C56: with at least one worker, a run that has neither completed nor panicked can always go on, and need not be
cancelled for that. -/
theorem C56_no_deadlock (c : Cfg O) (hl : c.file.length < 2 ^ 63) (ht : Total c) (W : Nat) (hW : 0 < W) (s : St O)
    (hr : Reachable c W s) (hc : s.crashed = false) (hd : s.main ≠ .done) :
    ∃ s', Step c s s' ∧ s'.cancelled = s.cancelled := by
  obtain ⟨s', h1, h2⟩ := moves hl ht hW (hr.inv hl) (hr.winv hl) hd
  exact ⟨s', ⟨hc, h1⟩, h2⟩

/-- C56: so from every state of every run completion is reached, unless something panics. -/
theorem C56_completes (c : Cfg O) (hl : c.file.length < 2 ^ 63) (ht : Total c) (W : Nat) (hW : 0 < W) (s : St O)
    (hr : Reachable c W s) :
    ∃ n s', Steps c n s s' ∧ s'.cancelled = s.cancelled ∧ (s'.crashed = true ∨ s'.main = .done) :=
  completes hl ht hW _ s (Nat.le_refl _) hr

/-- C56: at least one worker is needed: with none, a well-formed file with a block leads to a state in which nothing can
happen except a cancellation. -/
theorem C56_zero_workers (c : Cfg O) (hl : c.file.length < 2 ^ 63) (bs : List Block) (hs : split c.file = .ok bs) :
    ∃ s, Reachable c 0 s ∧ s.crashed = false ∧ s.main ≠ .done ∧ ∀ s', Step c s s' → s'.cancelled ≠ s.cancelled := by
  obtain ⟨hne, hbf⟩ := (split_iff _ hl _).1 hs
  have hpos : 0 < c.file.length := List.length_pos_iff.2 hne
  obtain ⟨b, p', hn, _⟩ := (Handed.nil (file := c.file)).next_ok hl hbf hpos
  unfold nextBlock at hn
  obtain ⟨size, e1, hn⟩ := Res.bind_eq_ok.1 hn
  obtain ⟨bh, e2, hn⟩ := Res.bind_eq_ok.1 hn
  obtain ⟨b', e3, hn⟩ := Res.bind_eq_ok.1 hn
  have s1 : Steps c 1 (St.init c 0) { St.init c 0 with main := .header size, pos := 4 } :=
    .step .refl ⟨by simp [St.init, hne], Step'.load (s := St.init c 0) rfl hpos e1⟩
  have s2 := Steps.step s1 ⟨by simp [St.init, hne], Step'.header (c := c) rfl e2⟩
  have s3 := Steps.step s2 ⟨by simp [St.init, hne], Step'.data (c := c) rfl e3⟩
  refine ⟨_, ⟨3, s3⟩, by simp [St.init, hne], by simp, ?_⟩
  rintro s' ⟨_, hst⟩
  generalize hfin : ({ St.init c 0 with main := .send b' (dataSize bh), pos := 0 + 4 + size } : St O) = fin
  have hst : Step' c fin s' := by rw [← hfin]; exact hst
  have hfc : fin.cancelled = false := by rw [← hfin]; rfl
  show s'.cancelled ≠ fin.cancelled
  rw [hfc]
  have hmain : fin.main = .send b' (dataSize bh) := by rw [← hfin]
  have hwk : fin.workers = [] := by rw [← hfin]; rfl
  have hwr : fin.outClosed = false := by rw [← hfin]; rfl
  have hrc : fin.reorderClosed = false := by rw [← hfin]; rfl
  have hro : fin.reorder = .exited ∨ fin.reorder = .recv [] 0 := by
    rw [← hfin]
    simp only [St.init]
    cases c.hasWriter <;> simp
  have hwi : fin.writer = .exited ∨ fin.writer = .recv := by
    rw [← hfin]
    simp only [St.init]
    cases c.hasWriter <;> simp
  clear hfin s1 s2 s3
  cases hst <;> simp_all

/-! ## C57 -/

/-- C57: at every moment of every run, cancelled or not, panicked or not, the writer has received the results of the
first blocks of the file, in order. -/
theorem C57_prefix (c : Cfg O) (hl : c.file.length < 2 ^ 63) (hw : c.hasWriter = true) (W : Nat) (s : St O)
    (hr : Reachable c W s) (bs : List Block) (hs : split c.file = .ok bs) :
    ∃ k ≤ bs.length, mapRes c.work (bs.take k) = .ok s.got := by
  have hI := hr.inv hl
  obtain ⟨_, p, hh, _⟩ := hI.a
  obtain ⟨rest, rfl⟩ := hh.prefix hl hs
  have key : ∀ {rob : Held O} {next : Nat} {out : List O}, RInv s.seen rob next out →
      ∃ k ≤ (s.sent ++ rest).length, mapRes c.work ((s.sent ++ rest).take k) = .ok out := by
    intro rob next out hR
    obtain ⟨h1, h2⟩ := (hI.d hw).prefix hR
    refine ⟨next, by simp; omega, ?_⟩
    rw [List.take_append_of_le_length h1]
    exact h2
  have hro := (hI.d hw).reorder
  cases hre : s.reorder with
  | recv rob next => rw [hre] at hro; exact key hro.1
  | check rob next => rw [hre] at hro; exact key hro
  | exited => rw [hre] at hro; exact key hro
  | send rob next o =>
    rw [hre] at hro
    obtain ⟨k, hk, h⟩ := key hro
    -- one result is still on its way
    have hlen : (s.got ++ [o]).length = ((s.sent ++ rest).take k).length := mapRes_length h
    rw [List.length_append, List.length_singleton, List.length_take] at hlen
    have hk1 : (s.sent ++ rest).take k = (s.sent ++ rest).take s.got.length ++ ((s.sent ++ rest).take k).drop s.got.length := by
      have := (List.take_append_drop s.got.length ((s.sent ++ rest).take k)).symm
      rw [List.take_take, Nat.min_eq_left (by omega)] at this
      exact this
    refine ⟨s.got.length, by omega, ?_⟩
    rw [hk1] at h
    obtain ⟨a, b, h1, h2, h3⟩ := mapRes_append_ok h
    have := mapRes_length h1
    rw [List.length_take] at this
    obtain ⟨rfl, _⟩ := List.append_inj h3 (by omega)
    exact h1

/-- C57: when a run completes, every block that was handed to a worker has been delivered: nothing is lost behind the
cancellation, and the reorderer did not panic ("not all blocks processed"). -/
theorem C57_nothing_lost (c : Cfg O) (hl : c.file.length < 2 ^ 63) (hw : c.hasWriter = true) (W : Nat) (s : St O)
    (hr : Reachable c W s) (hd : s.main = .done) (bs : List Block) (hs : split c.file = .ok bs) :
    ∃ k ≤ bs.length, (s.workers.flatMap (·.took)).Perm (bs.take k) ∧ mapRes c.work (bs.take k) = .ok s.got ∧
      (∀ p q, s.got = p ++ q → p ≠ [] → c.write p = .ok ()) ∧ c.finish s.got = .ok () := by
  have hI := hr.inv hl
  have hW := hr.winv hl
  obtain ⟨_, p, hh, _⟩ := hI.a
  obtain ⟨rest, rfl⟩ := hh.prefix hl hs
  have hr8 : rank s.main = 8 := by rw [hd]; rfl
  have hall := hI.seen_all hw (hI.b.workersExited (by omega))
  have hlen : s.seen.length = s.sent.length := by simpa using hall.length_eq.symm
  have hro := (hI.d hw).reorder
  rw [hI.b.reorderExited hw (by omega)] at hro
  have := ((hI.d hw).prefix hro).2
  rw [hlen, List.take_length] at this
  refine ⟨s.sent.length, by simp, ?_, ?_, ?_, ?_⟩
  · rw [List.take_left]; exact hI.k.perm
  · rw [List.take_left]; exact this
  · intro p q hpq hp
    exact hW.before p q hpq hp (Or.inr (by rw [hI.b.writerExited hw (by omega)]; simp))
  · exact hW.finished (hI.b.writerExited hw (by omega)) hw

/-- C57: cancelling at any point of any run still leads to completion, without a panic. -/
theorem C57_shutdown (c : Cfg O) (hl : c.file.length < 2 ^ 63) (ht : Total c) (bs : List Block) (h : Clean c bs)
    (W : Nat) (hW : 0 < W) (s : St O) (hr : Reachable c W s) :
    ∃ n s', Steps c n { s with cancelled := true } s' ∧ s'.main = .done := by
  have hs := C55_no_panic c hl bs h W s hr
  have hr' : Reachable c W { s with cancelled := true } := by
    cases hc : s.cancelled
    · exact hr.step ⟨hs, .cancel hc⟩
    · rw [← hc]; exact hr
  obtain ⟨n, s', h1, h2, h3⟩ := C56_completes c hl ht W hW _ hr'
  refine ⟨n, s', h1, ?_⟩
  rcases h3 with h3 | h3
  · have hreach : Reachable c W s' := by
      clear h2 h3
      generalize ({ s with cancelled := true } : St O) = s1 at h1 hr'
      induction h1 with
      | refl => exact hr'
      | step _ h5 ih => exact (ih hr').step h5
    rw [C55_no_panic c hl bs h W s' hreach] at h3
    cases h3
  · exact h3

/-! ## C58 -/

/-- C58: whenever the input file has been unmapped, every worker, the reorderer and the writer have returned. -/
theorem C58_unmapped_last (c : Cfg O) (hl : c.file.length < 2 ^ 63) (W : Nat) (s : St O) (hr : Reachable c W s)
    (hm : s.mapped = false) : (∀ w ∈ s.workers, w.pc = .exited) ∧ s.reorder = .exited ∧ s.writer = .exited := by
  have hB := (hr.inv hl).b
  have h8 := hB.mapped.1 hm
  refine ⟨hB.workersExited (by omega), ?_, ?_⟩
  · cases hc : c.hasWriter
    · exact (hB.noWriter hc).1
    · exact hB.reorderExited hc (by omega)
  · cases hc : c.hasWriter
    · exact (hB.noWriter hc).2.1
    · exact hB.writerExited hc (by omega)

/-- C58: and it is unmapped when the run has completed. -/
theorem C58_unmapped (c : Cfg O) (hl : c.file.length < 2 ^ 63) (W : Nat) (s : St O) (hr : Reachable c W s)
    (hd : s.main = .done) : s.mapped = false :=
  (hr.inv hl).b.mapped.2 (by rw [hd]; rfl)

/-! ## C59 -/

/-- C59: the position never decreases. -/
theorem C59_monotone (c : Cfg O) (s s' : St O) (h : Step c s s') : s.pos ≤ s'.pos := by
  cases h.2 <;> dsimp only <;> omega

/-- C59: and it never exceeds the size of the file. -/
theorem C59_bounded (c : Cfg O) (hl : c.file.length < 2 ^ 63) (W : Nat) (s : St O) (hr : Reachable c W s) :
    s.pos ≤ c.file.length := (hr.inv hl).a.pos_le hl

/-- C59: it is the size of the file when a run completes that was not cancelled. -/
theorem C59_end (c : Cfg O) (hl : c.file.length < 2 ^ 63) (W : Nat) (s : St O) (hr : Reachable c W s)
    (hd : s.main = .done) (hc : s.cancelled = false) : s.pos = c.file.length := by
  obtain ⟨_, p, _, ha⟩ := (hr.inv hl).a
  rw [hd] at ha
  rcases ha with ha | ha
  · omega
  · rw [hc] at ha; cases ha.1

/-! ## The hypotheses are met -/

/-- Three blocks, a worker that returns the block's data, a writer that accepts everything. -/
def copyCfg : Cfg (List UInt8) where
  file := fileOf threeBlocks
  work b := .ok b.Data.bytes
  hasWriter := true
  write _ := .ok ()
  finish _ := .ok ()

theorem copyCfg_total : Total copyCfg := ⟨by simp [copyCfg], by simp [copyCfg], by simp [copyCfg]⟩

theorem copyCfg_clean : ∃ bs, Clean copyCfg bs ∧ bs.map Seen = threeBlocks := by
  obtain ⟨bs, h1, h2, _⟩ := C53_round_trip threeBlocks (by decide) threeBlocks_writable (by decide +kernel)
  exact ⟨bs, ⟨h1, by simp [copyCfg], by simp [copyCfg], by simp [copyCfg]⟩, h2⟩

/-- With two workers some run completes, and (C55) every such run delivers the three blocks in order, (C57) every
cancelled one a prefix. -/
example : ∃ s, Reachable copyCfg 2 s ∧ s.main = .done ∧ s.cancelled = false ∧ s.got = [[1], [], [2, 3]] ∧
    s.mapped = false ∧ s.pos = copyCfg.file.length := by
  have hl : copyCfg.file.length < 2 ^ 63 := by decide +kernel
  obtain ⟨bs, hcl, hseen⟩ := copyCfg_clean
  have h0 : Reachable copyCfg 2 (St.init copyCfg 2) := ⟨0, .refl⟩
  obtain ⟨n, s, h1, h2, h3⟩ := C56_completes copyCfg hl copyCfg_total 2 (by omega) _ h0
  have hr : Reachable copyCfg 2 s := ⟨n, h1⟩
  have hd : s.main = .done := by
    rcases h3 with h3 | h3
    · rw [C55_no_panic copyCfg hl bs hcl 2 s hr] at h3; cases h3
    · exact h3
  obtain ⟨bs', e1, e2, _⟩ := C55_in_order copyCfg hl rfl 2 s hr hd h2
  rw [hcl.split] at e1
  cases e1
  have hb : bs.map (·.Data.bytes) = [[1], [], [2, 3]] := by
    have := congrArg (List.map Prod.snd) hseen
    rw [List.map_map] at this
    exact this
  have hm : ∀ l : List Block, mapRes copyCfg.work l = .ok (l.map (·.Data.bytes)) := by
    intro l
    induction l with
    | nil => rfl
    | cons x xs ih => simp only [mapRes, ih]; rfl
  rw [hm, hb, Res.ok.injEq] at e2
  exact ⟨s, hr, hd, h2, e2.symm, C58_unmapped copyCfg hl 2 s hr hd, C59_end copyCfg hl 2 s hr hd h2⟩

end Osm.Props
