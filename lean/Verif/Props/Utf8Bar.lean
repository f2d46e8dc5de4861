import Verif.Lemmas.Utf8Bar

/-!
# C99: progress bars over any text

C67 and C98 are about texts of one byte per character. A file name can have any characters.
-/

namespace Osm.Props
open Osm Osm.Spec Osm.Ui Osm.Utf8Bar

/-- The markup, if the bar ends inside the line. -/
theorem markup_text (t : List Char) (w : Nat) (hw : 0 < w) (pre : Nat) (hp : pre < (utf8 (widened t w)).length) :
    MarkupAsProgress (utf8 t) w pre = [percent, standout] ++ EscapePercent ((utf8 (widened t w)).take pre) ++ [percent, normal] ++
      EscapePercent ((utf8 (widened t w)).drop pre) := by
  unfold MarkupAsProgress
  rw [if_neg (by omega)]
  dsimp only
  rw [padRight_text, if_neg (by omega), if_neg (by omega), Int.toNat_natCast]

/-- C99: if the bar ends between two characters (counting bytes), the line is shown as it is, what is before the end of the bar
standing out. -/
theorem C99_between (t : List Char) (w : Nat) (hw : 0 < w) (a b : List Char) (h : widened t w = a ++ b) (hb : b ≠ []) :
    onScreen (MarkupAsProgress (utf8 t) w (utf8 a).length) = a.map (fun c => ('S', c)) ++ b.map (fun c => ('N', c)) := by
  have hlt : (utf8 a).length < (utf8 (widened t w)).length := by
    rw [h, utf8_append, List.length_append]
    cases b with
    | nil => exact absurd rfl hb
    | cons c b =>
      obtain ⟨x, y, e, _⟩ := encode_shape c
      have : utf8 (c :: b) = String.utf8EncodeChar c ++ utf8 b := rfl
      rw [this, e]
      simp
  rw [markup_text t w hw _ hlt, h, utf8_append, List.take_left, List.drop_left, escape_text, escape_text]
  have e : [percent, standout] ++ utf8 (esc a) ++ [percent, normal] ++ utf8 (esc b) =
      utf8 ('%' :: 'S' :: (esc a ++ '%' :: 'N' :: (esc b ++ []))) ++ [] := by
    have p1 : [percent, standout] = utf8 ['%', 'S'] := rfl
    have p2 : [percent, normal] = utf8 ['%', 'N'] := rfl
    rw [p1, p2, ← utf8_append, ← utf8_append, ← utf8_append]
    simp
  have e0 : runes 0 [] = [] := rfl
  unfold onScreen
  rw [e, runes_text, e0, List.append_nil]
  rw [shownRunes_style (by decide), shownRunes_esc, shownRunes_style (by decide), shownRunes_esc]
  simp [shownRunes]

/-- C99: if it ends within a character, that character is not shown; for each of its bytes there is garbage instead. -/
theorem C99_within (t : List Char) (w : Nat) (hw : 0 < w) (a b : List Char) (c : Char) (k : Nat) (h : widened t w = a ++ c :: b)
    (h0 : 0 < k) (hk : k < c.utf8Size) :
    onScreen (MarkupAsProgress (utf8 t) w ((utf8 a).length + k : Nat)) = a.map (fun c => ('S', c)) ++ List.replicate k ('S', '\uFFFD') ++
      List.replicate (c.utf8Size - k) ('N', '\uFFFD') ++ b.map (fun c => ('N', c)) := by
  have hl := String.length_utf8EncodeChar c
  have hu : utf8 (a ++ c :: b) = utf8 a ++ (String.utf8EncodeChar c ++ utf8 b) := utf8_append _ _
  rw [markup_text t w hw _ (by rw [h, hu, List.length_append, List.length_append]; omega), h, hu]
  have ht : (utf8 a ++ (String.utf8EncodeChar c ++ utf8 b)).take ((utf8 a).length + k) = utf8 a ++ (String.utf8EncodeChar c).take k := by
    rw [List.take_append, List.take_of_length_le (by omega), Nat.add_sub_cancel_left, List.take_append_of_le_length (by omega)]
  have hd : (utf8 a ++ (String.utf8EncodeChar c ++ utf8 b)).drop ((utf8 a).length + k) = (String.utf8EncodeChar c).drop k ++ utf8 b := by
    rw [List.drop_append, List.drop_of_length_le (by omega), Nat.add_sub_cancel_left, List.drop_append_of_le_length (by omega)]
    rfl
  rw [ht, hd, escape_append, escape_append, escape_text, escape_text, escape_none (p := (String.utf8EncodeChar c).take k),
    escape_none (p := (String.utf8EncodeChar c).drop k) fun x hx => (tail_inside c h0 x hx).1]
  · have p1 : [percent, standout] ++ utf8 (esc a) = utf8 ('%' :: 'S' :: esc a) := rfl
    have p2 : [percent, normal] = utf8 ['%', 'N'] := rfl
    have e : [percent, standout] ++ (utf8 (esc a) ++ (String.utf8EncodeChar c).take k) ++ [percent, normal] ++
        ((String.utf8EncodeChar c).drop k ++ utf8 (esc b)) =
        utf8 ('%' :: 'S' :: esc a) ++ ((String.utf8EncodeChar c).take k ++ percent :: normal :: ((String.utf8EncodeChar c).drop k ++
          (utf8 (esc b) ++ []))) := by
      rw [← p1]
      simp
    have e1 : ∀ r, runes 0 (percent :: normal :: r) = '%' :: 'N' :: runes 0 r := fun r => runes_text ['%', 'N'] r
    have e0 : runes 0 [] = [] := rfl
    unfold onScreen
    rw [e, runes_text, runes_cut c h0 hk (by decide), e1, runes_inside _ _ (tail_inside c h0), runes_text, e0, List.length_drop, hl]
    show shownRunes 'N' ('%' :: 'S' :: (esc a ++ _)) = _
    rw [shownRunes_style (by decide), shownRunes_esc, shownRunes_garbage, shownRunes_style (by decide), shownRunes_garbage, shownRunes_esc]
    simp [shownRunes, garbage]
  · obtain ⟨x, u, e, hu, hx⟩ := encode_shape c
    rw [e, List.length_cons] at hl
    intro y hy
    replace hy := List.mem_of_mem_take hy
    rw [e, List.mem_cons] at hy
    rcases hy with rfl | hy
    · omega
    · exact (hu y hy).1

theorem place_of (l : List Char) (p : Nat) (h : p < (utf8 l).length) : (∃ a b, l = a ++ b ∧ b ≠ [] ∧ p = (utf8 a).length) ∨
    ∃ a c b k, l = a ++ c :: b ∧ 0 < k ∧ k < c.utf8Size ∧ p = (utf8 a).length + k := by
  induction l generalizing p with
  | nil => exact absurd h (Nat.not_lt_zero _)
  | cons c l ih =>
    have hl := String.length_utf8EncodeChar c
    have e : utf8 (c :: l) = String.utf8EncodeChar c ++ utf8 l := rfl
    rw [e, List.length_append, hl] at h
    by_cases h0 : p = 0
    · exact .inl ⟨[], c :: l, rfl, by simp, h0⟩
    · by_cases hk : p < c.utf8Size
      · exact .inr ⟨[], c, l, p, rfl, by omega, hk, by simp [utf8]⟩
      · have e' : ∀ a, (utf8 (c :: a)).length = c.utf8Size + (utf8 a).length := fun a => by
          have e : utf8 (c :: a) = String.utf8EncodeChar c ++ utf8 a := rfl
          rw [e, List.length_append, hl]
        rcases ih (p - c.utf8Size) (by omega) with ⟨a, b, h1, h2, h3⟩ | ⟨a, d, b, k, h1, h2, h3, h4⟩
        · exact .inl ⟨c :: a, b, by rw [h1]; rfl, h2, by rw [e']; omega⟩
        · exact .inr ⟨c :: a, d, b, k, by rw [h1]; rfl, h2, h3, by rw [e']; omega⟩

theorem shownRunes_short (st : Char) (l : List Char) :
    (shownRunes st l).length ≤ l.length ∧ ('%' ∈ l → (shownRunes st l).length < l.length) := by
  fun_induction shownRunes st l with
  | case1 => simp
  | case2 st => simp
  | case3 st c h => simp [Ne.symm h]
  | case4 st rest ih => simp only [List.length_cons]; exact ⟨by omega, fun _ => by omega⟩
  | case5 st d rest h ih => simp only [List.length_cons]; exact ⟨by omega, fun _ => by omega⟩
  | case6 st c d rest h ih =>
    simp only [List.length_cons] at ih ⊢
    refine ⟨by omega, fun hm => ?_⟩
    rw [List.mem_cons] at hm
    rcases hm with hm | hm
    · exact absurd hm.symm h
    · have := ih.2 hm; omega

theorem shownRunes_plain (st : Char) (l : List Char) (h : '%' ∉ l) : shownRunes st l = l.map fun c => (st, c) := by
  induction l with
  | nil => rfl
  | cons c l ih =>
    rw [List.mem_cons, not_or] at h
    rw [shownRunes_cons (Ne.symm h.1), ih h.2]
    rfl

/-- C99: the text of the line is on the screen exactly if the bar ends between two of its characters, or there is no bar (it
would end outside of the line) and no percent sign in the line. -/
theorem C99_exact (t : List Char) (w : Nat) (hw : 0 < w) (pre : Int) :
    (onScreen (MarkupAsProgress (utf8 t) w pre)).map (·.2) = widened t w ↔
      (∃ a b, widened t w = a ++ b ∧ b ≠ [] ∧ pre = (utf8 a).length) ∨
      ((pre < 0 ∨ (utf8 (widened t w)).length ≤ pre) ∧ '%' ∉ t) := by
  by_cases hp : 0 ≤ pre ∧ pre < (utf8 (widened t w)).length
  · obtain ⟨p, rfl⟩ : ∃ p : Nat, pre = p := ⟨pre.toNat, by omega⟩
    have hlt : p < (utf8 (widened t w)).length := by omega
    have back : (∃ a b, widened t w = a ++ b ∧ b ≠ [] ∧ (p : Int) = (utf8 a).length) →
        (onScreen (MarkupAsProgress (utf8 t) w p)).map (·.2) = widened t w := by
      rintro ⟨a, b, h1, h2, h3⟩
      rw [h3, C99_between t w hw a b h1 h2, h1]
      simp [Function.comp_def]
    refine ⟨fun he => .inl ?_, fun h => ?_⟩
    · rcases place_of _ p hlt with ⟨a, b, h1, h2, h3⟩ | ⟨a, c, b, k, h1, h2, h3, h4⟩
      · exact ⟨a, b, h1, h2, by omega⟩
      · rw [h4, C99_within t w hw a b c k h1 h2 h3, h1] at he
        have := congrArg List.length he
        simp only [List.length_map, List.length_append, List.length_replicate, List.length_cons] at this
        omega
    · rcases h with h | h
      · exact back h
      · exact absurd h.1 (by omega)
  · have he : MarkupAsProgress (utf8 t) w pre = utf8 (widened t w) ++ [] := by
      unfold MarkupAsProgress
      rw [if_neg (by omega)]
      dsimp only
      rw [padRight_text, List.append_nil]
      split
      · rfl
      · rw [if_pos (by omega)]
    have hr : onScreen (MarkupAsProgress (utf8 t) w pre) = shownRunes 'N' (widened t w) := by
      unfold onScreen
      rw [he, runes_text]
      have : runes 0 [] = [] := rfl
      rw [this, List.append_nil]
    have hm : '%' ∈ widened t w ↔ '%' ∈ t := by
      unfold widened
      simp [List.mem_replicate]
    rw [hr]
    constructor
    · intro h
      refine .inr ⟨by omega, fun hc => ?_⟩
      have := (shownRunes_short 'N' (widened t w)).2 (hm.2 hc)
      have h2 := congrArg List.length h
      rw [List.length_map] at h2
      omega
    · rintro (⟨a, b, h1, h2, h3⟩ | ⟨_, h⟩)
      · refine absurd (?_ : 0 ≤ pre ∧ pre < (utf8 (widened t w)).length) hp
        rw [h1, utf8_append, List.length_append]
        cases b with
        | nil => exact absurd rfl h2
        | cons c b =>
          obtain ⟨x, y, e, _⟩ := encode_shape c
          have : utf8 (c :: b) = String.utf8EncodeChar c ++ utf8 b := rfl
          rw [this, e, List.length_append, List.length_cons]
          omega
      · rw [shownRunes_plain _ _ (fun hc => h (hm.1 hc)), List.map_map]
        exact List.map_id _

theorem utf8_length (t : List Char) : t.length ≤ (utf8 t).length ∧ ((utf8 t).length = t.length ↔ ∀ c ∈ t, c.toNat < 128) := by
  induction t with
  | nil => simp [utf8]
  | cons c t ih =>
    have hl := String.length_utf8EncodeChar c
    have e : utf8 (c :: t) = String.utf8EncodeChar c ++ utf8 t := rfl
    have h1 : 1 ≤ c.utf8Size ∧ (c.utf8Size = 1 ↔ c.toNat < 128) := by
      obtain ⟨x, u, e, hu, hx⟩ := encode_shape c
      rw [e, List.length_cons] at hl
      refine ⟨by omega, fun h => by omega, fun h => ?_⟩
      have := TextFind.encode_ascii c h
      rw [e, List.cons.injEq] at this
      rw [this.2] at hl
      simpa using hl.symm
    rw [e, List.length_append, hl, List.length_cons]
    refine ⟨by omega, ?_⟩
    rw [List.forall_mem_cons, ← ih.2, ← h1.2]
    omega

/-- C99: a text of ASCII characters is shown whenever the bar ends inside the line. -/
theorem C99_ascii (t : List Char) (ht : ∀ c ∈ t, c.toNat < 128) (w : Nat) (hw : 0 < w) (pre : Nat) (hp : pre < (utf8 (widened t w)).length) :
    onScreen (MarkupAsProgress (utf8 t) w pre) =
      ((widened t w).take pre).map (fun c => ('S', c)) ++ ((widened t w).drop pre).map (fun c => ('N', c)) := by
  have hall : ∀ c ∈ widened t w, c.toNat < 128 := by
    intro c hc
    unfold widened at hc
    rcases List.mem_append.1 hc with h | h
    · exact ht c h
    · rw [(List.mem_replicate.1 h).2]; decide
  have hlen := (utf8_length (widened t w)).2.2 hall
  have h := C99_between t w hw ((widened t w).take pre) ((widened t w).drop pre) (List.take_append_drop _ _).symm (by
    intro he
    have := congrArg List.length he
    rw [List.length_drop, List.length_nil] at this
    omega)
  rwa [(utf8_length _).2.2 fun c hc => hall c (List.mem_of_mem_take hc), List.length_take, Nat.min_eq_left (by omega)] at h

/-- C99: the line has as many characters as the screen is wide only if all of them are ASCII characters; otherwise it is shorter
by one for each further byte of a character. -/
theorem C99_width (t : List Char) (w : Nat) (h : (utf8 t).length ≤ w) :
    (widened t w).length + ((utf8 t).length - t.length) = w ∧ ((widened t w).length = w ↔ ∀ c ∈ t, c.toNat < 128) := by
  have h1 := utf8_length t
  have h2 : (widened t w).length = t.length + (w - (utf8 t).length) := by unfold widened; simp
  rw [← h1.2, h2]
  omega

/-- C99: and the bar is shorter than it should be, by as much. -/
theorem C99_bar_short (t : List Char) (w : Nat) (hw : 0 < w) (a b : List Char) (h : widened t w = a ++ b) (hb : b ≠ []) :
    (onScreen (MarkupAsProgress (utf8 t) w (utf8 a).length)).countP (fun c => c.1 == 'S') + ((utf8 a).length - a.length) = (utf8 a).length := by
  rw [C99_between t w hw a b h hb, List.countP_append, List.countP_map, List.countP_map]
  have h1 : List.countP ((fun c : Char × Char => c.1 == 'S') ∘ fun c => ('S', c)) a = a.length := by
    rw [List.countP_eq_length]
    exact fun _ _ => rfl
  have h2 : List.countP ((fun c : Char × Char => c.1 == 'S') ∘ fun c => ('N', c)) b = 0 := by
    rw [List.countP_eq_zero]
    exact fun _ _ => by simp
  have := (utf8_length a).1
  omega

/-- The umlaut of a file name is lost while the bar ends within it. -/
example : String.ofList ((onScreen (MarkupAsProgress (utf8 "Köln.pbf: 20.0%".toList) 20 2)).map (·.2)) = "K\uFFFD\uFFFDln.pbf: 20.0%    " ∧
    String.ofList ((onScreen (MarkupAsProgress (utf8 "Köln.pbf: 20.0%".toList) 20 3)).map (·.2)) = "Köln.pbf: 20.0%    " := by
  decide +kernel

end Osm.Props
