import Mathlib.Tactic.FieldSimp
import Mathlib.Tactic.Linarith
import Mathlib.Tactic.NormNum
import Verif.Helpers.Widgets
import Verif.Prop.Formulas

/-!
# C150: check boxes, sliders and drop-down lists
-/

set_option linter.unusedSectionVars false

namespace Carbon

namespace Widgets

open Formulas (foldl_dictSet_new)

/-! ### Check boxes -/

section Boxes
variable {O : Type}

theorem descr_length (c : Choices) : c.descr.length = c.ids.length := by cases c <;> simp [Choices.descr, Choices.ids]

/-- Flags for `n` items that are complete. -/
def Flags.Fits (n : ℕ) (v : Flags) : Prop := ∀ l, v = .each l → l.length = n

theorem Flags.get_ok {n : ℕ} {v : Flags} (h : v.Fits n) : ∃ l, v.get n = .ok l ∧ l.length = n ∧ (v = .none → l = List.replicate n false) ∧
    (∀ b, v = .all b → l = List.replicate n b) ∧ ∀ e, v = .each e → l = e := by
  cases v with
  | none => exact ⟨_, rfl, by simp, by simp, by simp, by simp⟩
  | all b => exact ⟨_, rfl, by simp, by simp, by simp, by simp⟩
  | each l =>
    have := h l rfl
    exact ⟨l, if_pos this, this, by simp, by simp, by simp⟩

theorem Flags.get_error {n : ℕ} {v : Flags} (h : ¬ v.Fits n) : v.get n = .error .value := by
  cases v with
  | none => exact absurd (fun l e => by cases e) h
  | all b => exact absurd (fun l e => by cases e) h
  | each l => exact if_neg fun e => h fun l' e' => by cases e'; exact e

theorem disabledOf_ok {n : ℕ} {d : Option (List Bool)} (h : ∀ l, d = some l → l.length = n) :
    ∃ l, disabledOf n d = .ok l ∧ l.length = n ∧ l = d.getD (List.replicate n false) := by
  cases d with
  | none => exact ⟨_, rfl, by simp, rfl⟩
  | some l =>
    have := h l rfl
    exact ⟨l, if_neg (by simp [this]), this, rfl⟩

theorem objectsOf_ok {c : Choices} {o : Option (List O)} (h : ∀ l, o = some l → l.length = c.ids.length) :
    ∃ l, objectsOf c o = .ok l ∧ l.length = c.ids.length ∧ (o = none → l = c.descr.map .inl) ∧ ∀ e, o = some e → l = e.map .inr := by
  cases o with
  | none => exact ⟨_, rfl, by simp [descr_length], by simp, by simp⟩
  | some l =>
    have := h l rfl
    exact ⟨_, if_neg (by simp [this]), by simp [this], by simp, by simp⟩

theorem boxesOf_maps {v : List Bool} {d : List Str} {x : List Bool} (h1 : d.length = v.length) (h2 : x.length = v.length) :
    (boxesOf v d x).map Box.value = v ∧ (boxesOf v d x).map Box.descr = d ∧ (boxesOf v d x).map Box.disabled = x := by
  unfold boxesOf
  refine ⟨?_, ?_, ?_⟩
  · rw [List.map_map]
    have : (Box.value ∘ fun y : (Bool × Str) × Bool => (⟨y.1.1, y.1.2, y.2⟩ : Box)) = Prod.fst ∘ Prod.fst := rfl
    rw [this, ← List.map_map, List.map_fst_zip (by simp [h1, h2]), List.map_fst_zip (by omega)]
  · rw [List.map_map]
    have : (Box.descr ∘ fun y : (Bool × Str) × Bool => (⟨y.1.1, y.1.2, y.2⟩ : Box)) = Prod.snd ∘ Prod.fst := rfl
    rw [this, ← List.map_map, List.map_fst_zip (by simp [h1, h2]), List.map_snd_zip (by omega)]
  · rw [List.map_map]
    have : (Box.disabled ∘ fun y : (Bool × Str) × Bool => (⟨y.1.1, y.1.2, y.2⟩ : Box)) = Prod.snd := rfl
    rw [this, List.map_snd_zip (by simp [h1, h2])]

/-- One box, one object and one id for every choice. -/
structure Good (m : Checkboxes O) : Prop where
  boxes : m.boxes.length = m.ids.length
  objs : m.objs.length = m.ids.length

/-- With complete lists there is one box for every choice, in order, with its text, its initial value and whether it is disabled. -/
theorem C150_checkboxes (c : Choices) (v : Flags) (o : Option (List O)) (d : Option (List Bool)) (hv : v.Fits c.ids.length)
    (ho : ∀ l, o = some l → l.length = c.ids.length) (hd : ∀ l, d = some l → l.length = c.ids.length) :
    ∃ m, Checkboxes.make c v o d = .ok m ∧ Good m ∧ m.ids = c.ids ∧ m.boxes.map Box.descr = c.descr ∧
      m.boxes.map Box.disabled = d.getD (List.replicate c.ids.length false) ∧
      (v = .none → m.values = List.replicate c.ids.length false) ∧ (∀ b, v = .all b → m.values = List.replicate c.ids.length b) ∧
      (∀ l, v = .each l → m.values = l) ∧ (o = none → m.objs = c.descr.map .inl) ∧ ∀ l, o = some l → m.objs = l.map .inr := by
  obtain ⟨vl, e1, n1, p1, p2, p3⟩ := Flags.get_ok hv
  obtain ⟨dl, e2, n2, p4⟩ := disabledOf_ok hd
  obtain ⟨ol, e3, n3, p5, p6⟩ := objectsOf_ok ho
  obtain ⟨b1, b2, b3⟩ := boxesOf_maps (v := vl) (d := c.descr) (x := dl) (by rw [descr_length, n1]) (by rw [n2, n1])
  refine ⟨⟨c.ids, c.descr, ol, vl, boxesOf vl c.descr dl⟩, ?_, ⟨?_, n3⟩, rfl, b2, by rw [b3, p4], ?_, ?_, ?_, p5, p6⟩
  · unfold Checkboxes.make
    rw [e3, Py.ok_bind, e1, Py.ok_bind, e2, Py.ok_bind]
  · have := congrArg List.length b1
    rw [List.length_map] at this
    exact this.trans n1
  · intro h; exact b1.trans (p1 h)
  · intro b h; exact b1.trans (p2 b h)
  · intro l h; exact b1.trans (p3 l h)

/-- A list of the wrong length raises `ValueError`. -/
theorem C150_checkboxes_refused (c : Choices) (v : Flags) (o : Option (List O)) (d : Option (List Bool))
    (h : ¬ v.Fits c.ids.length ∨ (∃ l, o = some l ∧ l.length ≠ c.ids.length) ∨ ∃ l, d = some l ∧ l.length ≠ c.ids.length) :
    Checkboxes.make c v o d = .error .value := by
  unfold Checkboxes.make
  by_cases ho : ∀ l, o = some l → l.length = c.ids.length
  · obtain ⟨ol, e3, _⟩ := objectsOf_ok ho
    rw [e3, Py.ok_bind]
    by_cases hv : v.Fits c.ids.length
    · obtain ⟨vl, e1, _⟩ := Flags.get_ok hv
      rw [e1, Py.ok_bind]
      rcases h with h | ⟨l, h1, h2⟩ | ⟨l, h1, h2⟩
      · exact absurd hv h
      · exact absurd (ho l h1) h2
      · subst h1
        have : disabledOf c.ids.length (some l) = .error .value := if_pos h2
        rw [this]; rfl
    · rw [Flags.get_error hv]; rfl
  · push Not at ho
    obtain ⟨l, rfl, h2⟩ := ho
    have : objectsOf c (some l) = .error .value := if_pos h2
    rw [this]; rfl

/-- A dictionary of truth values becomes the boxes with these values. -/
theorem C150_from_dict (d : List (Str × Bool)) (h : (d.map Prod.fst).Nodup) :
    ∃ m : Checkboxes O, Checkboxes.fromIdvdct d = .ok m ∧ m.valuesDct = d := by
  obtain ⟨m, e, g, hi, _, _, _, _, hv, _⟩ := C150_checkboxes (O := O) (.seq (d.map Prod.fst)) (.each (d.map Prod.snd)) none none
    (fun l e => by cases e; simp [Choices.ids]) (by simp) (by simp)
  refine ⟨m, e, ?_⟩
  have hv := hv _ rfl
  unfold Checkboxes.valuesDct
  have : m.boxes.map Box.value = d.map Prod.snd := hv
  rw [hi, this]
  have hz : (Choices.seq (d.map Prod.fst)).ids.zip (d.map Prod.snd) = d := by
    simp only [Choices.ids]
    rw [List.zip_map', List.map_id'' (fun _ => rfl)]
  rw [hz]
  have := foldl_dictSet_new d [] (by simpa using h)
  simpa using this

/-- Clicks. -/
def Checkboxes.clicks (m : Checkboxes O) (l : List (ℕ × Bool)) : Checkboxes O := l.foldl (fun m x => m.set x.1 x.2) m

theorem set_good {m : Checkboxes O} (h : Good m) (i : ℕ) (v : Bool) : Good (m.set i v) := ⟨by simp [Checkboxes.set, h.boxes], h.objs⟩

theorem set_values (m : Checkboxes O) (i j : ℕ) (v : Bool) :
    (m.set i v).values[j]? = if i = j then (m.values[j]?).map fun _ => v else m.values[j]? := by
  unfold Checkboxes.values Checkboxes.set
  simp only [List.getElem?_map, List.getElem?_modify]
  by_cases h : i = j
  · simp only [if_pos h]
    cases m.boxes[j]? <;> rfl
  · simp only [if_neg h]
    cases m.boxes[j]? <;> rfl

/-- After any clicks the value of a box is that of the last click on it. -/
theorem C150_clicks (m : Checkboxes O) (h : Good m) (l : List (ℕ × Bool)) :
    Good (m.clicks l) ∧ (m.clicks l).ids = m.ids ∧ (m.clicks l).objs = m.objs ∧
      ∀ j, (m.clicks l).values[j]? = (m.values[j]?).map fun v => (((l.filter fun x => x.1 = j).map Prod.snd).getLast?).getD v := by
  induction l generalizing m with
  | nil => exact ⟨h, rfl, rfl, fun j => by simp [Checkboxes.clicks]⟩
  | cons x l ih =>
    obtain ⟨g, e1, e2, e3⟩ := ih (m.set x.1 x.2) (set_good h _ _)
    refine ⟨g, e1, e2, fun j => ?_⟩
    have : (m.clicks (x :: l)).values[j]? = ((m.set x.1 x.2).clicks l).values[j]? := rfl
    rw [this, e3 j, set_values]
    by_cases hx : x.1 = j
    · rw [if_pos hx, List.filter_cons_of_pos (by simpa using hx), List.map_cons, List.getLast?_cons]
      cases m.values[j]? <;> simp
    · rw [if_neg hx, List.filter_cons_of_neg (by simpa using hx)]

theorem valuesDct_eq {m : Checkboxes O} (h : Good m) (hn : m.ids.Nodup) : m.valuesDct = m.ids.zip m.values := by
  unfold Checkboxes.valuesDct
  have hk : ((m.ids.zip (m.boxes.map Box.value)).map Prod.fst).Nodup := by
    rw [List.map_fst_zip (by simp [h.boxes])]
    exact hn
  have := foldl_dictSet_new (m.ids.zip (m.boxes.map Box.value)) [] (by simpa using hk)
  rw [List.nil_append] at this
  exact this

/-- If no two choices have the same id, the checked and unchecked ids are those of the boxes that are checked and unchecked. -/
theorem C150_checked_partial (m : Checkboxes O) (h : Good m) (hn : m.ids.Nodup) (i : ℕ) (k : Str) (hk : m.ids[i]? = some k) :
    dictGet m.valuesDct k = m.values[i]? ∧ (k ∈ m.checked ↔ m.values[i]? = some true) ∧ (k ∈ m.unchecked ↔ m.values[i]? = some false) := by
  have hlen : m.values.length = m.ids.length := by simp [Checkboxes.values, h.boxes]
  have key : ∀ b, (k, b) ∈ m.ids.zip m.values ↔ m.values[i]? = some b := by
    intro b
    rw [List.mem_iff_getElem?]
    constructor
    · rintro ⟨j, hj⟩
      rw [List.getElem?_zip_eq_some] at hj
      have : i = j := by
        have hi : i < m.ids.length := by rw [List.getElem?_eq_some_iff] at hk; exact hk.1
        exact (List.getElem?_inj hi hn).mp (hk.trans hj.1.symm)
      rw [this]; exact hj.2
    · intro hb
      exact ⟨i, by rw [List.getElem?_zip_eq_some]; exact ⟨hk, hb⟩⟩
  have hnd : ((m.ids.zip m.values).map Prod.fst).Nodup := by rw [List.map_fst_zip (by omega)]; exact hn
  refine ⟨?_, ?_, ?_⟩
  · rw [valuesDct_eq h hn]
    have hi : i < m.values.length := by rw [hlen]; rw [List.getElem?_eq_some_iff] at hk; exact hk.1
    have hb := (key m.values[i]).mpr (List.getElem?_eq_getElem hi)
    rw [List.getElem?_eq_getElem hi]
    generalize m.values[i] = b at hb
    generalize m.ids.zip m.values = z at hb hnd
    induction z with
    | nil => cases hb
    | cons x z ih =>
      obtain ⟨a, c⟩ := x
      simp only [List.map_cons, List.nodup_cons] at hnd
      unfold dictGet
      rcases List.mem_cons.mp hb with e | e
      · cases e; rw [if_pos rfl]
      · rw [if_neg (fun e' => hnd.1 (by rw [e']; exact List.mem_map_of_mem (f := Prod.fst) e)), ih e hnd.2]
  · unfold Checkboxes.checked
    rw [valuesDct_eq h hn, ← key true]
    simp
  · unfold Checkboxes.unchecked
    rw [valuesDct_eq h hn, ← key false]
    simp

/-- The objects returned are those of the boxes with the value asked for, and every object is returned for exactly one of the two values. -/
theorem C150_objects (m : Checkboxes O) (h : Good m) :
    (∀ b x, x ∈ m.objects b ↔ ∃ i : ℕ, m.objs[i]? = some x ∧ m.values[i]? = some b) ∧
    (m.objects true).length + (m.objects false).length = m.objs.length := by
  constructor
  · intro b x
    unfold Checkboxes.objects Checkboxes.values
    simp only [List.mem_map, List.mem_filter, Prod.exists, exists_and_right, exists_eq_right, decide_eq_true_eq]
    constructor
    · rintro ⟨y, hy, hb⟩
      obtain ⟨i, hi⟩ := List.mem_iff_getElem?.mp hy
      rw [List.getElem?_zip_eq_some] at hi
      exact ⟨i, hi.1, by rw [List.getElem?_map, hi.2]; simp [hb]⟩
    · rintro ⟨i, h1, h2⟩
      rw [List.getElem?_map] at h2
      obtain ⟨y, hy, hb⟩ := Option.map_eq_some_iff.mp h2
      exact ⟨y, List.mem_iff_getElem?.mpr ⟨i, by rw [List.getElem?_zip_eq_some]; exact ⟨h1, hy⟩⟩, hb⟩
  · unfold Checkboxes.objects
    rw [List.length_map, List.length_map]
    have hl : (m.objs.zip m.boxes).length = m.objs.length := by simp [h.boxes, h.objs]
    rw [← hl]
    generalize m.objs.zip m.boxes = z
    induction z with
    | nil => rfl
    | cons x z ih =>
      cases hx : x.2.value
      · rw [List.filter_cons_of_neg (by simp [hx]), List.filter_cons_of_pos (by simp [hx])]; simp only [List.length_cons]; omega
      · rw [List.filter_cons_of_pos (by simp [hx]), List.filter_cons_of_neg (by simp [hx])]; simp only [List.length_cons]; omega

/-- Two choices with the same text share one entry: the first box is checked but does not appear. -/
theorem C150_checked_violated : ∃ m : Checkboxes ℕ, Checkboxes.make (.seq ["1".toList, "1".toList]) (.each [true, false]) none none = .ok m ∧
    m.checked = [] ∧ m.values = [true, false] ∧ (m.objects true).length = 1 := by
  refine ⟨⟨["1".toList, "1".toList], ["1".toList, "1".toList], [.inl "1".toList, .inl "1".toList], [true, false],
    [⟨true, "1".toList, false⟩, ⟨false, "1".toList, false⟩]⟩, by decide +kernel, by decide +kernel, by decide +kernel, by decide +kernel⟩

/-- Instances. -/
example := C150_checkboxes (O := ℕ) (.dict [("a".toList, "Alpha".toList), ("b".toList, "Beta".toList)]) (.each [true, false]) (some [7, 8]) none
  (fun l e => by cases e; rfl) (fun l e => by cases e; rfl) (by simp)
example := C150_checkboxes_refused (O := ℕ) (.seq ["a".toList, "b".toList]) (.each [true]) none none
  (Or.inl fun h => absurd (h _ rfl) (by decide))
example := C150_from_dict (O := ℕ) [("a".toList, true), ("b".toList, false)] (by decide +kernel)

/-- Two boxes, the second checked. -/
def exBoxes : Checkboxes ℕ := ⟨["a".toList, "b".toList], ["a".toList, "b".toList], [.inr 7, .inr 8], [false, true],
  [⟨false, "a".toList, false⟩, ⟨true, "b".toList, false⟩]⟩

theorem exBoxes_good : Good exBoxes := ⟨rfl, rfl⟩
example := C150_clicks exBoxes exBoxes_good [(0, true), (1, false), (0, false)]
example := C150_checked_partial exBoxes exBoxes_good (by decide +kernel) 1 "b".toList rfl
example := C150_objects exBoxes exBoxes_good

end Boxes

/-! ### Sliders -/

section Slide
variable {K : Type} [Field K] [LinearOrder K] [IsStrictOrderedRing K]

theorem clamp_mem {lo hi : K} (h : lo ≤ hi) (x : K) : lo ≤ clamp lo hi x ∧ clamp lo hi x ≤ hi := by
  unfold clamp
  split
  · exact ⟨le_rfl, h⟩
  · rename_i h1
    split
    · exact ⟨h, le_rfl⟩
    · rename_i h2
      exact ⟨not_lt.mp h1, not_lt.mp h2⟩

theorem clamp_id {lo hi x : K} (h1 : lo ≤ x) (h2 : x ≤ hi) : clamp lo hi x = x := by
  unfold clamp
  rw [if_neg (not_lt.mpr h1), if_neg (not_lt.mpr h2)]

theorem clamp_low {lo hi x : K} (h1 : x < lo) : clamp lo hi x = lo := if_pos h1

theorem clamp_high {lo hi x : K} (h : lo ≤ hi) (h2 : hi < x) : clamp lo hi x = hi := by
  unfold clamp
  rw [if_neg (not_lt.mpr (h.trans h2.le)), if_pos h2]

theorem clamp_mul {lo hi x c : K} (hc : 0 < c) : clamp (lo * c) (hi * c) (x * c) = clamp lo hi x * c := by
  unfold clamp
  simp only [mul_lt_mul_iff_left₀ hc]
  split
  · rfl
  · split <;> rfl

theorem sliders_ok : ∀ l : List (((K × Str) × Bool) × K × K), (∀ x ∈ l, x.2.1 ≤ x.2.2) →
    l.mapM (fun x => Slider.make (x.1.1.1 * 100) (x.2.1 * 100) (x.2.2 * 100) x.1.1.2 x.1.2) =
      (.ok (l.map fun x => ⟨clamp x.2.1 x.2.2 x.1.1.1 * 100, x.2.1 * 100, x.2.2 * 100, x.1.1.2, x.1.2⟩) : Py (List (Slider K)))
  | [], _ => rfl
  | x :: l, h => by
    rw [List.mapM_cons, sliders_ok l fun y hy => h y (List.mem_cons_of_mem _ hy)]
    have hx := h x (List.mem_cons_self ..)
    have : Slider.make (x.1.1.1 * 100) (x.2.1 * 100) (x.2.2 * 100) x.1.1.2 x.1.2 =
        (.ok ⟨clamp x.2.1 x.2.2 x.1.1.1 * 100, x.2.1 * 100, x.2.2 * 100, x.1.1.2, x.1.2⟩ : Py (Slider K)) := by
      unfold Slider.make
      rw [if_neg (not_lt.mpr (mul_le_mul_of_nonneg_right hx (by norm_num))), clamp_mul (by norm_num)]
    rw [this]
    rfl

/-- The initial values that are asked for. -/
def Vals.Asks (n : ℕ) (v : Vals K) (l : List K) : Prop :=
  (v = .none ∧ l = List.replicate n 0) ∨ (∃ x, v = .one x ∧ 0 ≤ x ∧ x ≤ 1 ∧ l = List.replicate n x) ∨ (v = .each l ∧ l.length = n)

theorem Vals.Asks.length {n : ℕ} {v : Vals K} {l : List K} (h : v.Asks n l) : l.length = n := by
  rcases h with ⟨_, rfl⟩ | ⟨_, _, _, _, rfl⟩ | ⟨_, h⟩
  · simp
  · simp
  · exact h

theorem Vals.Asks.get {n : ℕ} {v : Vals K} {l : List K} (h : v.Asks n l) : v.get n = .ok l := by
  rcases h with ⟨rfl, rfl⟩ | ⟨x, rfl, h0, h1, rfl⟩ | ⟨rfl, h⟩
  · rfl
  · exact if_pos ⟨h0, h1⟩
  · exact if_pos h

/-- The bounds that are asked for, by the flags or by the range. -/
def Bounds (n : ℕ) (pm : Flags) (r : Option (RangeArg K)) (l : List (K × K)) : Prop :=
  (r = none ∧ ((pm = .none ∧ l = List.replicate n (0, 1)) ∨ (∃ b, pm = .all b ∧ l = List.replicate n (if b then (-1, 1) else (0, 1))) ∨
    ∃ p, pm = .each p ∧ p.length = n ∧ l = p.map fun b => if b then (-1, 1) else (0, 1))) ∨
  (pm = .none ∧ ((∃ lo hi, r = some (.one lo hi) ∧ l = List.replicate n (lo, hi)) ∨ (r = some (.each l) ∧ l.length = n)))

theorem Bounds.length {n : ℕ} {pm : Flags} {r : Option (RangeArg K)} {l : List (K × K)} (h : Bounds n pm r l) : l.length = n := by
  rcases h with ⟨_, ⟨_, rfl⟩ | ⟨_, _, rfl⟩ | ⟨p, _, hp, rfl⟩⟩ | ⟨_, ⟨_, _, _, rfl⟩ | ⟨_, h⟩⟩
  · simp
  · simp
  · simp [hp]
  · simp
  · exact h

theorem Bounds.get {n : ℕ} {pm : Flags} {r : Option (RangeArg K)} {l : List (K × K)} (h : Bounds n pm r l) :
    ¬ (r ≠ none ∧ pm ≠ .none) ∧ ∃ p, pm.get n = .ok p ∧ p.length = n ∧ rangesOf n p r = .ok l := by
  rcases h with ⟨rfl, ⟨rfl, rfl⟩ | ⟨b, rfl, rfl⟩ | ⟨p, rfl, hp, rfl⟩⟩ | ⟨rfl, ⟨lo, hi, rfl, rfl⟩ | ⟨rfl, h⟩⟩
  · exact ⟨by simp, _, rfl, by simp, by simp [rangesOf]⟩
  · exact ⟨by simp, _, rfl, by simp, by simp [rangesOf]⟩
  · exact ⟨by simp, p, if_pos hp, hp, rfl⟩
  · exact ⟨by simp, _, rfl, by simp, rfl⟩
  · refine ⟨by simp, _, rfl, by simp, ?_⟩
    by_cases hl : l = []
    · subst hl
      simp only [List.length_nil] at h
      subst h
      rfl
    · exact if_pos ⟨h, hl⟩

/-- With complete arguments and bounds in order, every slider shows its value as a fraction: the one asked for if it is within the bounds, and the
nearer bound otherwise. -/
theorem C150_sliders (c : Choices) (v : Vals K) (pm : Flags) (r : Option (RangeArg K)) (d : Option (List Bool)) (vl : List K) (rl : List (K × K))
    (hv : v.Asks c.ids.length vl) (hr : Bounds c.ids.length pm r rl) (hd : ∀ l, d = some l → l.length = c.ids.length)
    (ho : ∀ x ∈ rl, x.1 ≤ x.2) :
    ∃ m, Sliders.make c v pm r d = .ok m ∧ m.ids = c.ids ∧ m.initial = vl ∧ m.values.length = c.ids.length ∧
      (∀ s ∈ m.sliders, s.min ≤ s.value ∧ s.value ≤ s.max) ∧ m.sliders.map Slider.descr = c.descr ∧
      m.sliders.map Slider.disabled = d.getD (List.replicate c.ids.length false) ∧
      ∀ (i : ℕ) x lo hi, vl[i]? = some x → rl[i]? = some (lo, hi) →
        (lo ≤ x → x ≤ hi → m.values[i]? = some x) ∧ (x < lo → m.values[i]? = some lo) ∧ (hi < x → m.values[i]? = some hi) := by
  obtain ⟨hne, pl, e4, hp, e5⟩ := hr.get
  obtain ⟨dl, e2, n2, p2⟩ := disabledOf_ok hd
  have nd := descr_length c
  have nv := hv.length
  have nr := hr.length
  have hlen : (((vl.zip c.descr).zip dl).zip rl).length = c.ids.length := by simp [nd, nv, nr, n2]
  have hb : ∀ x ∈ ((vl.zip c.descr).zip dl).zip rl, x.2.1 ≤ x.2.2 := fun x hx => ho x.2 (List.of_mem_zip (a := x.1) (b := x.2) hx).2
  refine ⟨⟨c.ids, vl, pl, rangeAfter c.ids.length r,
    (((vl.zip c.descr).zip dl).zip rl).map fun x => ⟨clamp x.2.1 x.2.2 x.1.1.1 * 100, x.2.1 * 100, x.2.2 * 100, x.1.1.2, x.1.2⟩⟩,
    ?_, rfl, rfl, ?_, ?_, ?_, ?_, ?_⟩
  · unfold Sliders.make
    rw [if_neg hne]
    simp only [hv.get, e2, e4, e5, Py.ok_bind, sliders_ok _ hb]
  · simp only [Sliders.values, List.length_map, hlen]
  · intro s hs
    obtain ⟨x, hx, rfl⟩ := List.mem_map.mp hs
    have := clamp_mem (hb x hx) x.1.1.1
    exact ⟨mul_le_mul_of_nonneg_right this.1 (by norm_num), mul_le_mul_of_nonneg_right this.2 (by norm_num)⟩
  · simp only [List.map_map]
    have : (Slider.descr ∘ fun x : ((K × Str) × Bool) × K × K =>
        (⟨clamp x.2.1 x.2.2 x.1.1.1 * 100, x.2.1 * 100, x.2.2 * 100, x.1.1.2, x.1.2⟩ : Slider K)) = Prod.snd ∘ Prod.fst ∘ Prod.fst := rfl
    rw [this, ← List.map_map, ← List.map_map, List.map_fst_zip (by simp [nd, nv, nr, n2]), List.map_fst_zip (by simp [nd, nv, n2]),
      List.map_snd_zip (by simp [nd, nv])]
  · simp only [List.map_map]
    have : (Slider.disabled ∘ fun x : ((K × Str) × Bool) × K × K =>
        (⟨clamp x.2.1 x.2.2 x.1.1.1 * 100, x.2.1 * 100, x.2.2 * 100, x.1.1.2, x.1.2⟩ : Slider K)) = Prod.snd ∘ Prod.fst := rfl
    rw [this, ← List.map_map, List.map_fst_zip (by simp [nd, nv, nr, n2]), List.map_snd_zip (by simp [nd, nv, n2]), p2]
  · intro i x lo hi h1 h2
    have hi1 : i < vl.length := (List.getElem?_eq_some_iff.mp h1).1
    have hdd : c.descr[i]? = some (c.descr[i]'(by omega)) := List.getElem?_eq_getElem _
    have hdl : dl[i]? = some (dl[i]'(by omega)) := List.getElem?_eq_getElem _
    have hz : (((vl.zip c.descr).zip dl).zip rl)[i]? = some (((x, c.descr[i]'(by omega)), dl[i]'(by omega)), (lo, hi)) := by
      rw [List.getElem?_zip_eq_some]
      exact ⟨by rw [List.getElem?_zip_eq_some]; exact ⟨by rw [List.getElem?_zip_eq_some]; exact ⟨h1, hdd⟩, hdl⟩, h2⟩
    have hval : ∀ y, clamp lo hi x = y →
        (((((vl.zip c.descr).zip dl).zip rl).map fun x => (⟨clamp x.2.1 x.2.2 x.1.1.1 * 100, x.2.1 * 100, x.2.2 * 100, x.1.1.2, x.1.2⟩ : Slider K)).map
          fun s => s.value / 100)[i]? = some y := by
      intro y hy
      rw [List.map_map, List.getElem?_map, hz]
      simp only [Option.map_some, Function.comp_apply, hy]
      congr 1
      field_simp
    have hlh : lo ≤ hi := ho (lo, hi) (List.mem_of_getElem? h2)
    exact ⟨fun a b => hval _ (clamp_id a b), fun a => hval _ (clamp_low a), fun a => hval _ (clamp_high hlh a)⟩

/-- Moves of the sliders. -/
def Sliders.moves (m : Sliders K) (l : List (ℕ × K)) : Sliders K := l.foldl (fun m x => m.set x.1 x.2) m

theorem set_sliders (m : Sliders K) (i j : ℕ) (x : K) :
    (m.set i x).sliders[j]? = if i = j then (m.sliders[j]?).map fun s => s.set x else m.sliders[j]? := by
  unfold Sliders.set
  simp only [List.getElem?_modify]
  by_cases h : i = j
  · simp only [if_pos h]
    rfl
  · simp only [if_neg h]
    cases m.sliders[j]? <;> rfl

/-- After any moves the bounds are the same and the values within them; a slider that was moved shows its last position, within the bounds. -/
theorem C150_moves (m : Sliders K) (hm : ∀ s ∈ m.sliders, s.min ≤ s.value ∧ s.value ≤ s.max) (l : List (ℕ × K)) (j : ℕ) (s : Slider K)
    (hs : m.sliders[j]? = some s) :
    ∃ t, (m.moves l).sliders[j]? = some t ∧ t.min = s.min ∧ t.max = s.max ∧ s.min ≤ t.value ∧ t.value ≤ s.max ∧
      (m.moves l).values[j]? = some (t.value / 100) ∧ (m.moves l).ids = m.ids ∧
      (∀ x, ((l.filter fun y => y.1 = j).map Prod.snd).getLast? = some x → s.min ≤ x → x ≤ s.max → t.value = x) ∧
      ((∀ y ∈ l, y.1 ≠ j) → t = s) := by
  induction l generalizing m s with
  | nil =>
    refine ⟨s, hs, rfl, rfl, (hm s (List.mem_of_getElem? hs)).1, (hm s (List.mem_of_getElem? hs)).2, ?_, rfl, by simp, fun _ => rfl⟩
    change (m.sliders.map _)[j]? = _
    rw [List.getElem?_map, hs]; rfl
  | cons y l ih =>
    have hm' : ∀ u ∈ (m.set y.1 y.2).sliders, u.min ≤ u.value ∧ u.value ≤ u.max := by
      intro u hu
      obtain ⟨k, hk⟩ := List.mem_iff_getElem?.mp hu
      rw [set_sliders] at hk
      split at hk
      · obtain ⟨w, hw, rfl⟩ := Option.map_eq_some_iff.mp hk
        have hwm := hm w (List.mem_of_getElem? hw)
        exact clamp_mem (hwm.1.trans hwm.2) _
      · exact hm u (List.mem_of_getElem? hk)
    have hsm := hm s (List.mem_of_getElem? hs)
    by_cases hy : y.1 = j
    · have hs' : (m.set y.1 y.2).sliders[j]? = some (s.set y.2) := by rw [set_sliders, if_pos hy, hs]; rfl
      obtain ⟨t, h1, h2, h3, h4, h5, h6, h7, h8, h9⟩ := ih _ hm' (s.set y.2) hs'
      refine ⟨t, h1, h2, h3, h4, h5, h6, h7, ?_, fun h => absurd hy (h y (List.mem_cons_self ..))⟩
      intro x hx hlo hhi
      rw [List.filter_cons_of_pos (by simpa using hy), List.map_cons, List.getLast?_cons] at hx
      cases hl : ((l.filter fun y => y.1 = j).map Prod.snd).getLast? with
      | some z =>
        rw [hl] at hx
        obtain rfl : z = x := by simpa using hx
        exact h8 z hl hlo hhi
      | none =>
        rw [hl] at hx
        obtain rfl : y.2 = x := by simpa using hx
        have hnone : ∀ u ∈ l, u.1 ≠ j := by
          intro u hu e
          rw [List.getLast?_eq_none_iff, List.map_eq_nil_iff, List.filter_eq_nil_iff] at hl
          exact hl u hu (by simpa using e)
        rw [h9 hnone]
        exact clamp_id hlo hhi
    · have hs' : (m.set y.1 y.2).sliders[j]? = some s := by rw [set_sliders, if_neg hy, hs]
      obtain ⟨t, h1, h2, h3, h4, h5, h6, h7, h8, h9⟩ := ih _ hm' s hs'
      refine ⟨t, h1, h2, h3, h4, h5, h6, h7, ?_, fun h => h9 fun u hu => h u (List.mem_cons_of_mem _ hu)⟩
      intro x hx
      rw [List.filter_cons_of_neg (by simpa using hy)] at hx
      exact h8 x hx

/-- Both a range and signs, a value outside of 0..1 for all sliders, or a list of values or signs of the wrong length raise `ValueError`. -/
theorem C150_sliders_refused (c : Choices) (v : Vals K) (pm : Flags) (r : Option (RangeArg K)) (d : Option (List Bool))
    (h : (r ≠ none ∧ pm ≠ .none) ∨ (∃ x, v = .one x ∧ (x < 0 ∨ 1 < x)) ∨ (∃ l, v = .each l ∧ l.length ≠ c.ids.length) ∨
      (∃ l, d = some l ∧ l.length ≠ c.ids.length) ∨ ∃ l, pm = .each l ∧ l.length ≠ c.ids.length) :
    Sliders.make c v pm r d = .error .value := by
  unfold Sliders.make
  by_cases h1 : r ≠ none ∧ pm ≠ .none
  · rw [if_pos h1]
  rw [if_neg h1]
  dsimp only
  have hget : (∃ l, v.get c.ids.length = .ok l) ∨ v.get c.ids.length = .error .value := by
    cases v with
    | none => exact Or.inl ⟨_, rfl⟩
    | one x =>
      by_cases hx : x ≥ 0 ∧ x ≤ 1
      · exact Or.inl ⟨_, if_pos hx⟩
      · exact Or.inr (if_neg hx)
    | each l =>
      by_cases hx : l.length = c.ids.length
      · exact Or.inl ⟨_, if_pos hx⟩
      · exact Or.inr (if_neg hx)
  rcases hget with ⟨vl, hvl⟩ | hve
  swap
  · rw [hve]; rfl
  rw [hvl, Py.ok_bind]
  by_cases hd : ∀ l, d = some l → l.length = c.ids.length
  swap
  · push Not at hd
    obtain ⟨l, rfl, hl⟩ := hd
    have : disabledOf c.ids.length (some l) = .error .value := if_pos hl
    rw [this]; rfl
  obtain ⟨dl, e2, _⟩ := disabledOf_ok hd
  rw [e2, Py.ok_bind]
  rcases h with h | ⟨x, rfl, hx⟩ | ⟨l, rfl, hl⟩ | ⟨l, hl, hn⟩ | ⟨l, rfl, hl⟩
  · exact absurd h h1
  · have : (Vals.one x).get c.ids.length = .error .value :=
      if_neg fun ⟨a, b⟩ => hx.elim (fun q => absurd a (not_le.mpr q)) fun q => absurd b (not_le.mpr q)
    rw [this] at hvl; cases hvl
  · have : (Vals.each l).get c.ids.length = .error .value := if_neg hl
    rw [this] at hvl; cases hvl
  · exact absurd (hd l hl) hn
  · have : (Flags.each l).get c.ids.length = .error .value := if_neg hl
    rw [this]; rfl

/-- Without a range the attribute `range` has no entries left, whatever the sliders. -/
theorem C150_exhausted_violated (c : Choices) (v : Vals K) (pm : Flags) (d : Option (List Bool)) (m : Sliders K)
    (h : Sliders.make c v pm none d = .ok m) : m.range = [] := by
  unfold Sliders.make at h
  rw [if_neg (by simp)] at h
  dsimp only at h
  obtain ⟨_, _, h⟩ := Py.bind_eq_ok.mp h
  obtain ⟨_, _, h⟩ := Py.bind_eq_ok.mp h
  obtain ⟨_, _, h⟩ := Py.bind_eq_ok.mp h
  obtain ⟨_, _, h⟩ := Py.bind_eq_ok.mp h
  obtain ⟨_, _, h⟩ := Py.bind_eq_ok.mp h
  cases h
  rfl

/-- A wrong number of ranges is never reported as such. -/
theorem C150_ranges_violated (c : Choices) (v : Vals K) (d : Option (List Bool)) (vl : List K) (l : List (K × K)) (hv : v.Asks c.ids.length vl)
    (hd : ∀ l, d = some l → l.length = c.ids.length) (hl : l.length ≠ c.ids.length) (hn : c.ids ≠ []) :
    Sliders.make c v .none (some (.each l)) d = .error (if l.length ≤ 1 then .index else .custom "TraitError") := by
  obtain ⟨dl, e2, _⟩ := disabledOf_ok hd
  unfold Sliders.make
  rw [if_neg (by simp)]
  dsimp only
  rw [hv.get, Py.ok_bind, e2, Py.ok_bind]
  have h3 : Flags.none.get c.ids.length = .ok (List.replicate c.ids.length false) := rfl
  rw [h3, Py.ok_bind]
  have h4 : rangesOf c.ids.length (List.replicate c.ids.length false) (some (.each l)) =
      (.error (if l.length ≤ 1 then .index else .custom "TraitError") : Py (List (K × K))) := by
    simp only [rangesOf]
    rw [if_neg (fun h => hl h.1), if_neg (by simpa using hn)]
    split <;> rfl
  rw [h4]
  rfl

/-- One slider of signed percentages cannot be given a negative value by one number, but by a list; the value of a list is moved silently. -/
theorem C150_signed_violated : Sliders.make (K := ℚ) (.seq ["a".toList]) (.one (-1/2)) (.all true) = .error .value ∧
    (∃ m, Sliders.make (K := ℚ) (.seq ["a".toList]) (.each [-1/2]) (.all true) = .ok m ∧ m.values = [-1/2]) ∧
    (∃ m, Sliders.make (K := ℚ) (.seq ["a".toList]) (.each [5]) = .ok m ∧ m.values = [1] ∧ m.initial = [5]) := by
  refine ⟨by decide +kernel, ⟨⟨["a".toList], [-1/2], [true], [], [⟨-50, -100, 100, "a".toList, false⟩]⟩, by decide +kernel, by decide +kernel⟩,
    ⟨⟨["a".toList], [5], [false], [], [⟨100, 0, 100, "a".toList, false⟩]⟩, by decide +kernel, by decide +kernel, by decide +kernel⟩⟩

/-- Instances. -/
example := C150_sliders (K := ℚ) (.seq ["a".toList, "b".toList]) (.each [1/2, 3]) .none (some (.each [(0, 1), (1, 2)])) none [1/2, 3] [(0, 1), (1, 2)]
  (Or.inr (Or.inr ⟨rfl, rfl⟩)) (Or.inr ⟨rfl, Or.inr ⟨rfl, rfl⟩⟩) (by simp) (by decide +kernel)
/-- One slider at 50%. -/
def exSliders : Sliders ℚ := ⟨["a".toList], [1/2], [false], [], [⟨50, 0, 100, "a".toList, false⟩]⟩
example := C150_moves exSliders (by decide +kernel) [(0, 20), (0, 30)] 0 ⟨50, 0, 100, "a".toList, false⟩ rfl
example := C150_sliders_refused (K := ℚ) (.seq ["a".toList]) (.one 2) .none none none (Or.inr (Or.inl ⟨2, rfl, by decide +kernel⟩))
example := C150_ranges_violated (K := ℚ) (.seq ["a".toList]) .none none [0] [(0, 1), (0, 2)] (Or.inl ⟨rfl, rfl⟩) (by simp) (by decide) (by decide)
example := C150_exhausted_violated (K := ℚ) (.seq ["a".toList]) (.one (1/2)) .none none exSliders (by decide +kernel)

end Slide

/-! ### Drop-down lists -/

/-- The labels that are shown. -/
def Shows (o : Options) (labels : Option (List Str)) (ls : List Str) : Prop :=
  (∃ l, o = .dict l ∧ labels = none ∧ ls = l.map Prod.snd) ∨ (∃ l, o = .seq l ∧ ((labels = none ∧ ls = l.map Opt.text) ∨ labels = some ls))

theorem Shows.get {o : Options} {labels : Option (List Str)} {ls : List Str} (h : Shows o labels ls) : labelsOf o labels = .ok ls := by
  rcases h with ⟨l, rfl, rfl, rfl⟩ | ⟨l, rfl, ⟨rfl, rfl⟩ | rfl⟩ <;> simp [labelsOf, Options.texts]

/-- With a position, and one label for every option, the list shows the option at this position with its label. -/
theorem C150_dropdown_index (o : Options) (labels : Option (List Str)) (ls : List Str) (h : Shows o labels ls) (hl : ls.length = o.texts.length)
    (i : ℕ) (x y : Str) (hx : o.texts[i]? = some x) (hy : ls[i]? = some y) :
    (∃ m, Dropdown.make o labels none (some (i : ℤ)) = .ok m ∧ m.result = (some x, some y)) ∧
    (i = 0 → ∃ m, Dropdown.make o labels none none = .ok m ∧ m.result = (some x, some y)) := by
  have hi : i < o.texts.length := (List.getElem?_eq_some_iff.mp hx).1
  have hz : (ls.zip o.texts)[i]? = some (y, x) := by rw [List.getElem?_zip_eq_some]; exact ⟨hy, hx⟩
  have key : ∀ d : Option ℤ, d.getD 0 = (i : ℤ) → ∃ m, Dropdown.make o labels none d = .ok m ∧ m.result = (some x, some y) := by
    intro d hd
    refine ⟨⟨o.texts, ls, ls.zip o.texts, i⟩, ?_, ?_⟩
    · unfold Dropdown.make
      rw [if_neg (by simp), h.get, Py.ok_bind]
      simp only [hd]
      rw [if_neg (by omega)]
      have : checkIndex (ls.zip o.texts) (i : ℤ) = .ok i := by
        unfold checkIndex
        rw [if_pos ⟨by omega, by rw [List.length_zip, hl, min_self]; exact_mod_cast hi⟩]
        rfl
      rw [this, Py.ok_bind]
    · simp only [Dropdown.result, Dropdown.value, Dropdown.label, hz, Option.map_some]
  exact ⟨key _ rfl, fun e => key none (by rw [e]; rfl)⟩

/-- With a text among the options as value, the list shows this value. -/
theorem C150_dropdown_value_partial (o : Options) (labels : Option (List Str)) (ls : List Str) (h : Shows o labels ls)
    (hl : ls.length = o.texts.length) (x : Str) (hx : x ∈ o.texts) :
    ∃ m, Dropdown.make o labels (some ⟨x, true⟩) none = .ok m ∧ m.value = some x ∧
      ∃ i : ℕ, o.texts[i]? = some x ∧ m.label = ls[i]? := by
  have hs : (ls.zip o.texts).map Prod.snd = o.texts := List.map_snd_zip (by omega)
  have hi : o.texts.idxOf x < o.texts.length := List.idxOf_lt_length_of_mem hx
  have hxi : o.texts[o.texts.idxOf x]? = some x := by rw [List.getElem?_eq_getElem hi, List.getElem_idxOf]
  have hyi : ls[o.texts.idxOf x]? = some (ls[o.texts.idxOf x]'(by omega)) := List.getElem?_eq_getElem _
  have hz : (ls.zip o.texts)[o.texts.idxOf x]? = some (ls[o.texts.idxOf x]'(by omega), x) := by rw [List.getElem?_zip_eq_some]; exact ⟨hyi, hxi⟩
  refine ⟨⟨o.texts, ls, ls.zip o.texts, o.texts.idxOf x⟩, ?_, ?_, _, hxi, ?_⟩
  · unfold Dropdown.make
    rw [if_neg (by simp), h.get, Py.ok_bind]
    have : findValue (ls.zip o.texts) ⟨x, true⟩ = .ok (o.texts.idxOf x) := by
      unfold findValue
      rw [hs, if_pos ⟨rfl, hx⟩]
    simp only [this, Py.ok_bind]
  · simp only [Dropdown.value, hz, Option.map_some]
  · simp only [Dropdown.label, hz, Option.map_some, hyi]

/-- Choosing an entry shows it, and nothing else is ever shown. -/
theorem C150_choose (m : Dropdown) (i : ℕ) (l v : Str) (h : m.entries[i]? = some (l, v)) :
    ∃ n, m.choose i = .ok n ∧ n.result = (some v, some l) ∧ n.entries = m.entries := by
  have hi : i < m.entries.length := (List.getElem?_eq_some_iff.mp h).1
  refine ⟨{ m with index := i }, ?_, ?_, rfl⟩
  · unfold Dropdown.choose checkIndex
    rw [if_pos ⟨by omega, by exact_mod_cast hi⟩, Py.ok_bind]
    rfl
  · simp only [Dropdown.result, Dropdown.value, Dropdown.label, h, Option.map_some]

/-- A default that is not a text is never found among the options, even if it is one of them. -/
theorem C150_dropdown_value_violated (o : Options) (labels : Option (List Str)) (ls : List Str) (h : Shows o labels ls) (x : Str) :
    Dropdown.make o labels (some ⟨x, false⟩) none = .error (.custom "TraitError") := by
  unfold Dropdown.make
  rw [if_neg (by simp), h.get, Py.ok_bind]
  have : findValue (ls.zip o.texts) ⟨x, false⟩ = .error (.custom "TraitError") := by
    unfold findValue
    rw [if_neg (by simp)]
  simp only [this]
  rfl

/-- A position past the end is not reported as `ValueError`; one below zero is. -/
theorem C150_dropdown_index_violated (o : Options) (labels : Option (List Str)) (ls : List Str) (h : Shows o labels ls) (i : ℤ) :
    (o.texts.length ≤ i → Dropdown.make o labels none (some i) = .error (.custom "TraitError")) ∧
    (i < 0 → Dropdown.make o labels none (some i) = .error .value) := by
  constructor
  · intro hi
    unfold Dropdown.make
    rw [if_neg (by simp), h.get, Py.ok_bind]
    simp only [Option.getD_some]
    rw [if_neg (by omega)]
    have : checkIndex (ls.zip o.texts) i = .error (.custom "TraitError") := by
      unfold checkIndex
      rw [if_neg]
      rintro ⟨_, h2⟩
      rw [List.length_zip] at h2
      omega
    rw [this]
    rfl
  · intro hi
    unfold Dropdown.make
    rw [if_neg (by simp), h.get, Py.ok_bind]
    simp only [Option.getD_some]
    rw [if_pos (by omega)]

/-- With fewer labels than options the last options cannot be chosen, and nothing is raised. -/
theorem C150_labels_violated : ∃ m, Dropdown.make (.seq [⟨"a".toList, true⟩, ⟨"b".toList, true⟩]) (some ["A".toList]) = .ok m ∧
    m.options = ["a".toList, "b".toList] ∧ m.entries = [("A".toList, "a".toList)] ∧ m.choose 1 = .error (.custom "TraitError") := by
  exact ⟨⟨["a".toList, "b".toList], ["A".toList], [("A".toList, "a".toList)], 0⟩, by decide +kernel, rfl, rfl, by decide +kernel⟩

/-- Made from a dictionary, the widgets go by its keys and show its values. -/
theorem C150_names {O K : Type} [Field K] [LinearOrder K] [IsStrictOrderedRing K] (l : List (Str × Str)) :
    (∃ m : Checkboxes O, Checkboxes.make (.dict l) = .ok m ∧ m.ids = l.map Prod.fst ∧ m.boxes.map Box.descr = l.map Prod.snd) ∧
    (∃ m : Sliders K, Sliders.make (.dict l) = .ok m ∧ m.ids = l.map Prod.fst ∧ m.sliders.map Slider.descr = l.map Prod.snd) := by
  constructor
  · obtain ⟨m, e, _, h1, h2, _⟩ := C150_checkboxes (O := O) (.dict l) .none none none (by simp [Flags.Fits]) (by simp) (by simp)
    exact ⟨m, e, h1, h2⟩
  · obtain ⟨m, e, h1, _, _, _, h2, _⟩ := C150_sliders (K := K) (.dict l) .none .none none none (List.replicate (Choices.dict l).ids.length 0)
      (List.replicate (Choices.dict l).ids.length (0, 1)) (Or.inl ⟨rfl, rfl⟩) (by simp [Bounds]) (by simp) (by simp)
    exact ⟨m, e, h1, h2⟩

/-- Labels beside a dictionary of options are refused. -/
theorem C150_dropdown_refused (l : List (Opt × Str)) (labels : List Str) (dv : Option Opt) (di : Option ℤ) :
    Dropdown.make (.dict l) (some labels) dv di = .error .value := by
  unfold Dropdown.make labelsOf
  split_ifs <;> simp_all

/-- Instances. -/
example := C150_dropdown_index (.dict [(⟨"a".toList, true⟩, "Alpha".toList), (⟨"b".toList, true⟩, "Beta".toList)]) none ["Alpha".toList, "Beta".toList]
  (Or.inl ⟨_, rfl, rfl, rfl⟩) rfl 1 "b".toList "Beta".toList rfl rfl
example := C150_dropdown_value_partial (.seq [⟨"a".toList, true⟩, ⟨"b".toList, true⟩]) none ["a".toList, "b".toList]
  (Or.inr ⟨_, rfl, Or.inl ⟨rfl, rfl⟩⟩) rfl "b".toList (by decide)
example := C150_choose ⟨["a".toList, "b".toList], ["A".toList, "B".toList], [("A".toList, "a".toList), ("B".toList, "b".toList)], 0⟩ 1 "B".toList "b".toList rfl
example := C150_dropdown_value_violated (.seq [⟨"1".toList, false⟩]) none ["1".toList] (Or.inr ⟨_, rfl, Or.inl ⟨rfl, rfl⟩⟩) "1".toList
example := C150_dropdown_index_violated (.seq [⟨"1".toList, false⟩]) none ["1".toList] (Or.inr ⟨_, rfl, Or.inl ⟨rfl, rfl⟩⟩) 1

end Widgets

end Carbon
