import Verif.Lemmas.Commute
import Verif.Lemmas.Repeat
import Verif.Lemmas.Find
import Verif.Lemmas.Count

/-! # What the commands do depends on the content of their input (C108) -/

namespace Osm.Content
open Osm Osm.Spec Osm.Spec.OsmFormat Osm.Pb Osm.T Osm.Pbf Osm.Interrupt

/-- What a run of the common part of the commands comes to. -/
theorem process_exec_eq {α O : Type} (cut : Option Nat) (work : Block → Res O) (inp : String) (output : List O → Prog α)
    {file : List UInt8} {bs : List Block} (hs : split file = .ok bs) (fs : FS) (hin : Holds fs inp file) :
    (process cut work inp output).exec fs = (mapRes work (handed cut bs) >>= fun xs => (output xs).exec fs) := by
  obtain ⟨pos, hin⟩ := hin
  have hne : file ≠ [] := by
    rintro rfl
    cases hs
  unfold process
  rw [Prog.exec_bind, exec_OsOpen_some hin, Res.ok_bind]
  dsimp only
  rw [Prog.exec_bind, exec_MMapMap, hin]
  dsimp only
  rw [if_neg hne, Res.ok_bind]
  dsimp only
  rw [Prog.exec_bind, Prog.exec_lift, hs, Res.ok_bind, Res.ok_bind]
  dsimp only
  rw [Prog.exec_bind, Prog.exec_lift]
  cases mapRes work (handed cut bs) <;> rfl

/-- Two runs whose workers make the same of the blocks. -/
theorem process_alike {α O : Type} {R : α × FS → α × FS → Prop} (cut : Option Nat) {w1 w2 : Block → Res O} {i1 i2 : String}
    {o1 o2 : List O → Prog α} {f1 f2 : List UInt8} {b1 b2 : List Block} (h1 : split f1 = .ok b1) (h2 : split f2 = .ok b2)
    (hm : mapRes w1 (handed cut b1) = mapRes w2 (handed cut b2)) {fs1 fs2 : FS} (hi1 : Holds fs1 i1 f1) (hi2 : Holds fs2 i2 f2)
    (ho : ∀ xs, Alike R ((o1 xs).exec fs1) ((o2 xs).exec fs2)) :
    Alike R ((process cut w1 i1 o1).exec fs1) ((process cut w2 i2 o2).exec fs2) := by
  rw [process_exec_eq cut w1 i1 o1 h1 fs1 hi1, process_exec_eq cut w2 i2 o2 h2 fs2 hi2, hm]
  cases mapRes w2 (handed cut b2) with
  | ok xs => exact ho xs
  | panic => exact .panic
  | hang => exact .hang

/-! ### tagfilter -/

/-- What tagfilter's worker sends, from the content of the block. -/
def sends : Content → Res Rewrite.Out
  | .other k bs => .ok (k, bs)
  | .data b => TagFilter.filterBlock [] b >>= fun s => .ok s.msg

theorem filterWork_sends (inflate : Inflate) (sched : Block → Sched) (hsched : ∀ b, (sched b).pooled.length < 2 ^ 63)
    {b : Block} (hf : b.Data.Fits) (hb : b.Data.bytes.length < 2 ^ 63) {c : Content} (hc : IsContent inflate (Seen b) c) :
    TagFilter.filterWork inflate sched b = sends c := by
  have hc' := Format.content_has hb hc
  unfold TagFilter.filterWork TagFilter.filterIter
  cases c with
  | other k bs =>
    obtain ⟨h1, h2, h3⟩ := hc'
    rw [if_pos h3, Res.ok_bind]
    subst h1 h2
    rfl
  | data d =>
    obtain ⟨h1, h2⟩ := hc'
    rw [if_neg (by rw [h1]; simp)]
    obtain ⟨raw, pb, r1, r2, r3⟩ := h2 b.Index b.Data.spare (sched b) hf (hsched b)
    obtain ⟨i, ⟨bs, sp⟩, kd⟩ := b
    dsimp only at h1 r1
    subst h1
    rw [r1, Res.ok_bind]
    have r2' : ReadPrimitiveBlock TagFilter.reader raw = .ok pb := r2
    have hpb : pb = d := by
      rw [← r3]
      exact (trim_readAll (readBlock_shape _ _ _ r2)).symm
    subst hpb
    rw [r2', Res.ok_bind]
    rfl

theorem works_sends (inflate : Inflate) (sched : Block → Sched) (hsched : ∀ b, (sched b).pooled.length < 2 ^ 63)
    {bs : List Block} {cs : List Content} (hm : Matches (fun b c => IsContent inflate (Seen b) c) bs cs)
    (hb : ∀ b ∈ bs, b.Data.Fits ∧ b.Data.bytes.length < 2 ^ 63) :
    mapRes (TagFilter.filterWork inflate sched) bs = mapRes sends cs := by
  induction hm with
  | nil => rfl
  | @cons b c bs cs h1 _ ih =>
    unfold mapRes
    rw [filterWork_sends inflate sched hsched (hb b (by simp)).1 (hb b (by simp)).2 h1, ih fun x hx => hb x (by simp [hx])]

/-! ### entityfind -/

/-- What entityfind prints for a block, from its content. -/
def finds (ids : List UInt64) : Content → Res (List Find.Entity)
  | .other _ _ => .ok []
  | .data b => b.ToNodes >>= fun ns => b.ToWays >>= fun ws => b.ToRelations >>= fun rs =>
    .ok (Find.printNodes ids ns ++ Find.printWays ids ws ++ Find.printRelations ids rs)

theorem findBlock_finds (inflate : Inflate) (sched : Block → Sched) (hsched : ∀ b, (sched b).pooled.length < 2 ^ 63)
    (ids : List UInt64) {b : Block} (hf : b.Data.Fits) (hb : b.Data.bytes.length < 2 ^ 63) {c : Content}
    (hc : IsContent inflate (Seen b) c) : Find.findBlock inflate sched ids b = finds ids c := by
  have hc' := Format.content_has hb hc
  unfold Find.findBlock
  cases c with
  | other k bs =>
    obtain ⟨h1, h2, h3⟩ := hc'
    rw [if_pos h3]
    rfl
  | data d =>
    obtain ⟨h1, h2⟩ := hc'
    rw [if_neg (by rw [h1]; simp)]
    obtain ⟨raw, pb, r1, r2, r3⟩ := h2 b.Index b.Data.spare (sched b) hf (hsched b)
    obtain ⟨i, ⟨bs, sp⟩, kd⟩ := b
    dsimp only at h1 r1
    subst h1
    rw [r1, Res.ok_bind]
    have r2' : ReadPrimitiveBlock Find.reader raw = .ok pb := r2
    have hpb : pb = d := by
      rw [← r3]
      exact (trim_readAll (readBlock_shape _ _ _ r2)).symm
    subst hpb
    rw [r2', Res.ok_bind]
    rfl

theorem works_finds (inflate : Inflate) (sched : Block → Sched) (hsched : ∀ b, (sched b).pooled.length < 2 ^ 63)
    (ids : List UInt64) {bs : List Block} {cs : List Content} (hm : Matches (fun b c => IsContent inflate (Seen b) c) bs cs)
    (hb : ∀ b ∈ bs, b.Data.Fits ∧ b.Data.bytes.length < 2 ^ 63) :
    mapRes (Find.findBlock inflate sched ids) bs = mapRes (finds ids) cs := by
  induction hm with
  | nil => rfl
  | @cons b c bs cs h1 _ ih =>
    unfold mapRes
    rw [findBlock_finds inflate sched hsched ids (hb b (by simp)).1 (hb b (by simp)).2 h1, ih fun x hx => hb x (by simp [hx])]

theorem mapRes_join {α β : Type} {f : α → Res β} : ∀ {as bs : List α} {xs ys : List β}, mapRes f as = .ok xs → mapRes f bs = .ok ys →
    mapRes f (as ++ bs) = .ok (xs ++ ys)
  | [], _, _, _, h, h' => by cases h; exact h'
  | a :: as, bs, xs, ys, h, h' => by
    unfold mapRes at h
    obtain ⟨x, h1, h⟩ := Res.bind_eq_ok.1 h
    obtain ⟨xs', h2, h⟩ := Res.bind_eq_ok.1 h
    cases h
    rw [List.cons_append]
    unfold mapRes
    rw [h1, Res.ok_bind, mapRes_join h2 h', Res.ok_bind]
    rfl

/-- What the workers print is what is printed for the blocks they got. -/
theorem workers_found (inflate : Inflate) (sched : Block → Sched) (ids : List UInt64) :
    ∀ (ws : List (Worker (List Find.Entity))) {outs : List (List Find.Entity)},
      mapRes (fun w => Find.findWorker inflate sched ids w.took) ws = .ok outs →
      ∃ os, mapRes (Find.findBlock inflate sched ids) (ws.flatMap (·.took)) = .ok os ∧ outs.flatten = os.flatten
  | [], _, h => by cases h; exact ⟨[], rfl, rfl⟩
  | w :: ws, outs, h => by
    unfold mapRes at h
    obtain ⟨x, h1, h⟩ := Res.bind_eq_ok.1 h
    obtain ⟨xs, h2, h⟩ := Res.bind_eq_ok.1 h
    cases h
    unfold Find.findWorker at h1
    obtain ⟨o, h3, h1⟩ := Res.bind_eq_ok.1 h1
    cases h1
    obtain ⟨os, h4, h5⟩ := workers_found inflate sched ids ws h2
    refine ⟨o ++ os, ?_, ?_⟩
    · rw [List.flatMap_cons]
      exact mapRes_join h3 h4
    · rw [List.flatten_cons, h5, List.flatten_append]

end Osm.Content
