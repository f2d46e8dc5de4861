import Verif.Lemmas.RaceSafe
import Verif.Props.Pbf

/-!
# C91: no data races
-/

namespace Osm.Props
open Osm Osm.T Osm.Pbf Osm.Spec Osm.Spec.Race Osm.Race

variable {O : Type}

theorem opening_no_race (c : Cfg O) (W : Nat) {before : Trace} (hb : Prepares before) (i j : Nat) :
    ¬ Race (opening c W before) i j := by
  rintro ⟨hlt, e, f, he, hf, hc, hb', _⟩
  obtain ⟨l, hl⟩ := Option.ne_none_iff_exists'.1 hc.1
  have hf' : f.act.loc = some l := hc.2.1 ▸ hl
  have ht : e.thread = f.thread := by
    rcases opening_acc hb (List.mem_of_getElem? he) hl with ⟨h1, _, h2⟩ | ⟨h1, h2⟩ <;>
      rcases opening_acc hb (List.mem_of_getElem? hf) hf' with ⟨h3, _, h4⟩ | ⟨h3, h4⟩
    · rw [h1, h3]
    · subst h4; simp at h2
    · subst h2; simp at h4
    · rw [h1, h3]
  exact hb' (.single (.inl ⟨hlt, e, f, he, hf, ht⟩))

theorem races (c : Cfg O) (pw : Bool) (hl : c.file.length < 2 ^ 63) (W : Nat) (r : Run O) (h : Race.Reachable c pw W r)
    (i j : Nat) (hr : Race r.trace i j) : pw = true ∧ SizeRace r.trace i j := by
  induction h generalizing i j with
  | init hb => exact absurd hr (opening_no_race c W hb i j)
  | step h hc hs ih =>
    rcases step_race hl (h.inv hl) hs hr with h' | h'
    · obtain ⟨h1, h2⟩ := ih i j h'
      obtain ⟨evs, hd⟩ := does (fun hr => ((h.inv hl).early hr).1) hs
      rw [hd.trace]
      exact ⟨h1, sizeRace_append h2⟩
    · exact h'

/-- C91: whatever the workers and the writer of a command do with the memory they may use, however the goroutines are
scheduled, and whether or not the run is cancelled: no two accesses race, in a command that does not show the progress of
passes. -/
theorem C91_no_race (c : Cfg O) (hl : c.file.length < 2 ^ 63) (W : Nat) (r : Run O) (h : Race.Reachable c false W r)
    (i j : Nat) : ¬ Race r.trace i j := fun hr => nomatch (races c false hl W r h i j hr).1

/-- C91: in a command that does show it, the only race is between the write of the size of the file, when the reading
begins, and the widget's reading of it. -/
theorem C91_only_size_partial (c : Cfg O) (hl : c.file.length < 2 ^ 63) (W : Nat) (r : Run O)
    (h : Race.Reachable c true W r) (i j : Nat) (hr : Race r.trace i j) :
    (r.trace[i]? = some ⟨.ui, .read .size⟩ ∧ r.trace[j]? = some ⟨.main, .write .size⟩) ∨
      (r.trace[i]? = some ⟨.main, .write .size⟩ ∧ r.trace[j]? = some ⟨.ui, .read .size⟩) :=
  (races c true hl W r h i j hr).2

theorem first_edge {α : Type} {R : α → α → Prop} {a b : α} (h : Relation.TransGen R a b) : ∃ k, R a k := by
  induction h with
  | single h => exact ⟨_, h⟩
  | tail _ _ ih => exact ih

/-- C91: that race exists, in every command that shows the progress of passes. -/
theorem C91_false_pass_widget (c : Cfg O) (hne : c.file ≠ []) (W : Nat) :
    ∃ r i j, Race.Reachable c true W r ∧ Race r.trace i j := by
  have hz : (Run.init c W ([] : Trace)).pipe.crashed = false := decide_eq_false hne
  have h0 : Race.Reachable c true W (Run.init c W []) := .init (by simp [Prepares])
  have h1 := h0.step hz (.attach rfl)
  have h2 := h1.step hz (.passSize rfl rfl)
  have h3 := h2.step hz (.setup rfl)
  dsimp only at h3
  generalize htr : (Run.init c W []).trace ++ [⟨.caller, .send .events⟩, ⟨.ui, .recv .events⟩] = tr at h3
  rw [List.append_assoc] at h3
  have e0 : (tr ++ ([⟨.ui, .read .size⟩] ++ [⟨.main, .atomicWrite .position⟩, ⟨.main, .write .size⟩]))[tr.length]? =
      some ⟨.ui, .read .size⟩ := by simp
  refine ⟨_, tr.length, tr.length + 2, h3, by omega, ⟨.ui, .read .size⟩, ⟨.main, .write .size⟩, e0, by simp, ?_, ?_, ?_⟩
  · simp [Conflict, Act.loc, Act.writes, Act.atomic]
  · dsimp only
    intro hb
    have key : ∀ {k}, ¬ (Program (tr ++ ([⟨.ui, .read .size⟩] ++ [⟨.main, .atomicWrite .position⟩, ⟨.main, .write .size⟩]))
        tr.length k ∨ Sync (tr ++ ([⟨.ui, .read .size⟩] ++ [⟨.main, .atomicWrite .position⟩, ⟨.main, .write .size⟩]))
        tr.length k) := by
      rintro k (⟨hlt, e, f, he, hf, ht⟩ | hs)
      · rw [e0] at he
        cases he
        rw [List.getElem?_append_right (by omega)] at hf
        obtain ⟨n, hn⟩ : ∃ n, k - tr.length = n + 1 := ⟨k - tr.length - 1, by omega⟩
        rw [hn] at hf
        match n with
        | 0 => simp at hf; subst hf; cases ht
        | 1 => simp at hf; subst hf; cases ht
        | n + 2 => simp at hf
      · cases hs with
        | go _ h _ | close _ h _ | wait _ h _ | pool _ h _ | mutex _ h _ | reader _ h _ | readers _ h _ => rw [e0] at h; cases h
        | message _ h _ _ | observe _ h _ _ => rw [e0] at h; cases h
    obtain ⟨k, hk⟩ := first_edge hb
    exact key hk
  · dsimp only
    intro hb
    have := before_lt hb
    omega

/-- C91: all runs of the pipeline are covered. -/
theorem C91_every_run (c : Cfg O) (pw : Bool) (W : Nat) (s : St O) (h : Pbf.Reachable c W s) (hc : c.file ≠ []) :
    ∃ r, Race.Reachable c pw W r ∧ r.pipe = s := by
  obtain ⟨n, h⟩ := h
  have : ∃ r, Race.Reachable c pw W r ∧ r.pipe = s ∧ r.ready = true := by
    generalize hs : St.init c W = s0 at h
    induction h with
    | refl =>
      subst hs
      exact ⟨_, .step (.init (before := []) (by simp [Prepares])) (decide_eq_false hc) (.setup rfl), rfl, rfl⟩
    | step _ h2 ih =>
      obtain ⟨r, h1, rfl, h3⟩ := ih hs
      obtain ⟨evs, hm⟩ := Moves.of_step h2.2
      exact ⟨_, .step h1 h2.1 (.pipe hm (.inl h3)), rfl, h3⟩
  obtain ⟨r, h1, h2, _⟩ := this
  exact ⟨r, h1, h2⟩

/-- A run in which the workers write every result that they send, and the writer reads every result that it receives. -/
theorem busy_run (c : Cfg O) (pw : Bool) (W : Nat) (s : St O) (h : Pbf.Reachable c W s)
    (hc : c.file ≠ []) : ∃ r, Race.Reachable c pw W r ∧ r.pipe = s ∧ r.ready = true ∧ r.waited = false ∧
      (∀ w ∈ s.workers, ∀ m o, w.pc = .sending m o → ∃ k, ⟨.worker k, .write (.result m)⟩ ∈ r.trace) ∧
      (∀ m ∈ s.seen.map (·.1), ∃ k, ⟨.worker k, .write (.result m)⟩ ∈ r.trace) ∧
      (∀ m, m < s.got.length → ⟨.writer, .read (.result m)⟩ ∈ r.trace) := by
  obtain ⟨n, h⟩ := h
  generalize hs : St.init c W = s0 at h
  induction h with
  | refl =>
    subst hs
    refine ⟨_, .step (.init (before := []) (by simp [Prepares])) (decide_eq_false hc) (.setup rfl), rfl, rfl, rfl, ?_, ?_, ?_⟩
    · intro w hw m o hp
      rw [(List.mem_replicate.1 hw).2] at hp
      cases hp
    · intro m hm; cases hm
    · intro m hm; cases hm
  | @step n _ s1 s2 h1 h2 ih =>
    obtain ⟨r, hr, rfl, hrd, hwt, i1, i2, i3⟩ := ih hs
    obtain ⟨evs, hm⟩ := Moves.of_step h2.2
    cases hm with
    | @work b t l1 l2 o hw hok =>
      have hk : r.pipe.workers[l1.length]? = some ⟨.busy b, t⟩ := by rw [hw]; exact get_middle
      have r1 := hr.step h2.1 (.touch (.buildWrite hk rfl))
      refine ⟨_, r1.step h2.1 (.pipe (.work hw hok) (.inl hrd)), rfl, hrd, hwt, ?_, ?_, ?_⟩
      · intro w hmem m o' hp
        rcases mem_replace (a := ⟨.busy b, t⟩) hmem with rfl | hmem
        · cases hcw : c.hasWriter
          · simp [hcw] at hp
          · simp [hcw] at hp
            exact ⟨l1.length, by simp [hp.1]⟩
        · obtain ⟨k, hk⟩ := i1 w (by rw [hw]; exact hmem) m o' hp
          exact ⟨k, by simp [hk]⟩
      · intro m hm
        obtain ⟨k, hk⟩ := i2 m hm
        exact ⟨k, by simp [hk]⟩
      · intro m hm
        simp [i3 m hm]
    | @toReorder i o t l1 l2 rob next hw hre =>
      refine ⟨_, hr.step h2.1 (.pipe (.toReorder hw hre) (.inl hrd)), rfl, hrd, hwt, ?_, ?_, ?_⟩
      · intro w hmem m o' hp
        rcases mem_replace (a := ⟨.sending i o, t⟩) hmem with rfl | hmem
        · cases hp
        · obtain ⟨k, hk⟩ := i1 w (by rw [hw]; exact hmem) m o' hp
          exact ⟨k, by simp [hk]⟩
      · intro m hm
        dsimp only at hm
        rw [List.map_append, List.mem_append] at hm
        rcases hm with hm | hm
        · obtain ⟨k, hk⟩ := i2 m hm
          exact ⟨k, by simp [hk]⟩
        · simp at hm
          subst hm
          obtain ⟨k, hk⟩ := i1 _ (by rw [hw]; exact mem_middle) m o rfl
          exact ⟨k, by simp [hk]⟩
      · intro m hm
        simp [i3 m hm]
    | @toWriter rob next o hre hwr =>
      have r1 := hr.step h2.1 (.pipe (.toWriter hre hwr) (.inl hrd))
      have r2 := r1.step h2.1 (.touch (.useRead (m := r.pipe.got.length) (by simp [Alive]) (by simp)))
      refine ⟨_, r2, rfl, hrd, hwt, ?_, ?_, ?_⟩
      · intro w hmem m o' hp
        obtain ⟨k, hk⟩ := i1 w hmem m o' hp
        exact ⟨k, by simp [hk]⟩
      · intro m hm
        obtain ⟨k, hk⟩ := i2 m hm
        exact ⟨k, by simp [hk]⟩
      · intro m hm
        dsimp only at hm
        rw [List.length_append, List.length_singleton] at hm
        rcases Nat.lt_or_eq_of_le (Nat.le_of_lt_succ hm) with hm | rfl
        · simp [i3 m hm]
        · simp
    | @handOver b size l1 t l2 hma hw =>
      refine ⟨_, hr.step h2.1 (.pipe (.handOver hma hw) (.inl hrd)), rfl, hrd, hwt, ?_, ?_, ?_⟩
      · intro w hmem m o' hp
        rcases mem_replace (a := ⟨.idle, t⟩) hmem with rfl | hmem
        · cases hp
        · obtain ⟨k, hk⟩ := i1 w (by rw [hw]; exact hmem) m o' hp
          exact ⟨k, by simp [hk]⟩
      · intro m hm
        obtain ⟨k, hk⟩ := i2 m hm
        exact ⟨k, by simp [hk]⟩
      · intro m hm
        simp [i3 m hm]
    | @workerExit t l1 l2 hw hcl =>
      refine ⟨_, hr.step h2.1 (.pipe (.workerExit hw hcl) (.inl hrd)), rfl, hrd, hwt, ?_, ?_, ?_⟩
      · intro w hmem m o' hp
        rcases mem_replace (a := ⟨.idle, t⟩) hmem with rfl | hmem
        · cases hp
        · obtain ⟨k, hk⟩ := i1 w (by rw [hw]; exact hmem) m o' hp
          exact ⟨k, by simp [hk]⟩
      · intro m hm
        obtain ⟨k, hk⟩ := i2 m hm
        exact ⟨k, by simp [hk]⟩
      · intro m hm
        simp [i3 m hm]
    | _ =>
      obtain ⟨evs, hm⟩ := Moves.of_step h2.2
      refine ⟨_, hr.step h2.1 (.pipe hm (.inl hrd)), rfl, hrd, hwt, ?_, ?_, ?_⟩
      · intro w hmem m o' hp
        obtain ⟨k, hk⟩ := i1 w hmem m o' hp
        exact ⟨k, by simp [hk]⟩
      · intro m hm
        obtain ⟨k, hk⟩ := i2 m hm
        exact ⟨k, by simp [hk]⟩
      · intro m hm
        simp [i3 m hm]

/-- The caller writes any number of results after `Wait`. -/
theorem later_run {c : Cfg O} {pw : Bool} {W : Nat} {r : Run O} (h : Race.Reachable c pw W r) (hw : r.waited = true)
    (hc : r.pipe.crashed = false) (n : Nat) : ∃ r', Race.Reachable c pw W r' ∧ r'.waited = true ∧
      r'.pipe.crashed = false ∧ (∀ e ∈ r.trace, e ∈ r'.trace) ∧
      ∀ m, m < n → ⟨.caller, .write (.result m)⟩ ∈ r'.trace := by
  induction n with
  | zero => exact ⟨r, h, hw, hc, fun _ h => h, fun m hm => by omega⟩
  | succ n ih =>
    obtain ⟨r', h1, h2, h3, h4, h5⟩ := ih
    refine ⟨_, h1.step h3 (.touch (.laterWrite (l := .result n) h2 nofun nofun nofun nofun nofun)), h2, h3, ?_, ?_⟩
    · intro e he
      simp [h4 e he]
    · intro m hm
      rcases Nat.lt_or_eq_of_le (Nat.le_of_lt_succ hm) with hm | rfl
      · simp [h5 m hm]
      · simp

/-- C91, a case that meets the hypotheses: on every file on which nothing panics there is a run in which every result is
written by a worker, read by the writer and, after `Wait`, written by the caller. -/
theorem C91_busy (c : Cfg O) (hl : c.file.length < 2 ^ 63) (hw : c.hasWriter = true) (ht : Total c) (bs : List Block)
    (hcl : Clean c bs) (W : Nat) (hW : 0 < W) : ∃ r, Race.Reachable c false W r ∧
      ∀ m, m < bs.length → (∃ k, ⟨.worker k, .write (.result m)⟩ ∈ r.trace) ∧ ⟨.writer, .read (.result m)⟩ ∈ r.trace ∧
        ⟨.caller, .write (.result m)⟩ ∈ r.trace := by
  have hne := ((split_iff _ hl _).1 hcl.split).1
  obtain ⟨n, s, h1, h2, h3⟩ := C56_completes c hl ht W hW _ ⟨0, .refl⟩
  have hr : Pbf.Reachable c W s := ⟨n, h1⟩
  have hcr := C55_no_panic c hl bs hcl W s hr
  have hd : s.main = .done := by
    rcases h3 with h3 | h3
    · rw [hcr] at h3; cases h3
    · exact h3
  obtain ⟨bs', e1, e2, _⟩ := C55_in_order c hl hw W s hr hd h2
  rw [hcl.split] at e1
  cases e1
  have hlen := Pbf.mapRes_length e2
  obtain ⟨r, r1, rfl, r3, r4, r5, r6, r7⟩ := busy_run c false W s hr hne
  have r8 := r1.step hcr (.wait hd r4)
  obtain ⟨r', q1, _, _, q2, q3⟩ := later_run r8 rfl hcr bs.length
  refine ⟨r', q1, fun m hm => ⟨?_, ?_, q3 m hm⟩⟩
  · obtain ⟨k, hk⟩ := r6 m (got_seen (hr.inv hl) (hands_of hl hr) (by omega))
    exact ⟨k, q2 _ (by simp [hk])⟩
  · exact q2 _ (by simp [r7 m (by omega)])

example : ∃ r, Race.Reachable copyCfg false 2 r ∧ (∃ k, ⟨.worker k, .write (.result 2)⟩ ∈ r.trace) ∧
    ⟨.writer, .read (.result 2)⟩ ∈ r.trace ∧ ⟨.caller, .write (.result 2)⟩ ∈ r.trace ∧ ∀ i j, ¬ Race r.trace i j := by
  have hl : copyCfg.file.length < 2 ^ 63 := by decide +kernel
  obtain ⟨bs, hcl, hseen⟩ := copyCfg_clean
  have hn : bs.length = 3 := by simpa [threeBlocks] using congrArg List.length hseen
  obtain ⟨r, h1, h2⟩ := C91_busy copyCfg hl rfl copyCfg_total bs hcl 2 (by omega)
  obtain ⟨h3, h4, h5⟩ := h2 2 (by omega)
  exact ⟨r, h1, h3, h4, h5, C91_no_race copyCfg hl 2 r h1⟩

end Osm.Props
