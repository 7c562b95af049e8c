import Verif.Helpers.Version
import Mathlib.Data.List.Lex
import Mathlib.Order.Basic
import Mathlib.Data.Nat.Basic

/-!
# C118: comparing version numbers
-/

namespace Carbon.Prop.Version

open Carbon.Version
open TokenC (splitChar)

/-- The text of a version number. -/
def render : List Nat → Str
  | [] => []
  | [n] => Nat.toDigits 10 n
  | n :: l => Nat.toDigits 10 n ++ '.' :: render l

theorem digit_not_dot {c : Char} (h : c.isDigit = true) : c ≠ '.' := by
  rintro rfl
  exact absurd h (by decide)

theorem splitChar_append {d : Char} {p : Str} (h : ∀ c ∈ p, c ≠ d) (s : Str) : splitChar d (p ++ d :: s) = p :: splitChar d s := by
  induction p with
  | nil => simp [splitChar]
  | cons c p ih =>
    have hc : c ≠ d := h c (by simp)
    have := ih fun x hx => h x (by simp [hx])
    simp only [List.cons_append, splitChar, if_neg hc]
    rw [this]

theorem splitChar_self {d : Char} {p : Str} (h : ∀ c ∈ p, c ≠ d) : splitChar d p = [p] := by
  induction p with
  | nil => rfl
  | cons c p ih =>
    have hc : c ≠ d := h c (by simp)
    simp only [splitChar, if_neg hc]
    rw [ih fun x hx => h x (by simp [hx])]

theorem digits_isDigit {n : Nat} : ∀ c ∈ Nat.toDigits 10 n, c.isDigit = true :=
  fun _ hc => Nat.isDigit_of_mem_toDigits (by decide) (by decide) hc

theorem split_render : ∀ {l : List Nat}, l ≠ [] → splitChar '.' (render l) = l.map (Nat.toDigits 10)
  | [], h => absurd rfl h
  | [n], _ => by
    rw [render, splitChar_self fun c hc => digit_not_dot (digits_isDigit c hc)]
    rfl
  | n :: m :: l, _ => by
    rw [render, splitChar_append fun c hc => digit_not_dot (digits_isDigit c hc), split_render (by simp)]
    · rfl
    · simp

theorem intOf_digits (n : Nat) : intOf (Nat.toDigits 10 n) = .ok n := by
  unfold intOf
  rw [if_pos ⟨Nat.toDigits_ne_nil, by simpa using digits_isDigit⟩, Nat.ofDigitChars_ten_toDigits]

theorem mapM_digits : ∀ l : List Nat, (l.map (Nat.toDigits 10)).mapM intOf = .ok l
  | [] => rfl
  | n :: l => by
    rw [List.map_cons, List.mapM_cons, intOf_digits, mapM_digits l]
    rfl

theorem render_ver : ∀ (l : List Nat), ∀ c ∈ render l, verChar c = true
  | [], c, h => by simp [render] at h
  | [n], c, h => by
    unfold verChar
    rw [digits_isDigit c h]
    rfl
  | n :: m :: l, c, h => by
    rw [render, List.mem_append, List.mem_cons] at h
    · rcases h with h | rfl | h
      · unfold verChar
        rw [digits_isDigit c h]
        rfl
      · rfl
      · exact render_ver (m :: l) c h
    · simp

theorem render_ne {l : List Nat} (h : l ≠ []) : render l ≠ [] := by
  match l, h with
  | [n], _ => rw [render]; exact Nat.toDigits_ne_nil
  | n :: m :: l, _ =>
    rw [render]
    · simp
    · simp

/-- Blanks, as removed by `strip`. -/
def Blank (c : Char) : Prop := c = ' ' ∨ c = '\t' ∨ c = '\n' ∨ c = '\r'

theorem ver_not_blank {c : Char} (h : verChar c = true) : ¬Blank c := by
  rintro (rfl | rfl | rfl | rfl) <;> exact absurd h (by decide)

theorem dropWhile_append_of {p : Char → Bool} {a b : Str} (h : ∀ c ∈ a, p c = true) : (a ++ b).dropWhile p = b.dropWhile p := by
  induction a with
  | nil => rfl
  | cons c a ih =>
    rw [List.cons_append, List.dropWhile_cons_of_pos (h c (by simp))]
    exact ih fun x hx => h x (by simp [hx])

/-- Removing blanks at the end and taking the leading version characters. -/
theorem take_strip {w a t : Str} (hw : ∀ c ∈ w, Blank c) (ha : ∀ c ∈ a, verChar c = true) (hne : a ≠ [])
    (ht : ∀ c, t.head? = some c → verChar c = false) : (CarbonPair.strip (w ++ a ++ t)).takeWhile verChar = a := by
  unfold CarbonPair.strip
  dsimp only
  obtain ⟨ws, hws⟩ : ∃ ws : Char → Bool, ws = fun c => decide (c = ' ') || decide (c = '\t') || decide (c = '\n') || decide (c = '\r') := ⟨_, rfl⟩
  rw [← hws]
  have hb : ∀ c, ws c = true ↔ Blank c := by
    intro c
    rw [hws]
    unfold Blank
    simp [or_assoc]
  have hnv : ∀ c, verChar c = true → ws c = false := by
    intro c hc
    have := ver_not_blank hc
    rw [← hb] at this
    simpa using this
  rw [List.append_assoc, dropWhile_append_of fun c hc => (hb c).2 (hw c hc)]
  have h1 : (a ++ t).dropWhile ws = a ++ t := by
    match a, hne, ha with
    | c :: a, _, ha => rw [List.cons_append, List.dropWhile_cons_of_neg (by rw [hnv c (ha c (by simp))]; decide)]
  rw [h1, List.reverse_append]
  obtain ⟨u, hu⟩ : ∃ u, (t.reverse ++ a.reverse).dropWhile ws = u ++ a.reverse ∧ u <:+ t.reverse := by
    generalize t.reverse = r
    induction r with
    | nil =>
      refine ⟨[], ?_, List.nil_suffix⟩
      rw [List.nil_append]
      have : a.reverse ≠ [] := by simpa using hne
      match h : a.reverse, this with
      | c :: b, _ =>
        have : c ∈ a := by rw [← List.mem_reverse, h]; simp
        rw [List.dropWhile_cons_of_neg (by rw [hnv c (ha c this)]; decide)]
    | cons c r ih =>
      by_cases hc : ws c = true
      · obtain ⟨u, h1, h2⟩ := ih
        refine ⟨u, ?_, h2.trans (List.suffix_cons _ _)⟩
        rw [List.cons_append, List.dropWhile_cons_of_pos hc, h1]
      · exact ⟨c :: r, by rw [List.cons_append, List.dropWhile_cons_of_neg hc], List.suffix_rfl⟩
  rw [hu.1, List.reverse_append, List.reverse_reverse]
  have h2 : u.reverse <+: t := by
    have := List.reverse_prefix.2 hu.2
    rwa [List.reverse_reverse] at this
  rw [List.takeWhile_append_of_pos fun c hc => ha c hc]
  have h3 : u.reverse.takeWhile verChar = [] := by
    match h : u.reverse with
    | [] => rfl
    | c :: v =>
      rw [h] at h2
      obtain ⟨z, hz⟩ := h2
      rw [List.takeWhile_cons_of_neg]
      rw [ht c (by rw [← hz]; rfl)]
      decide
  rw [h3, List.append_nil]

/-- C118: a version number is read as its components; blanks around it and anything that follows it are ignored. -/
theorem C118_split {l : List Nat} (hl : l ≠ []) {w t : Str} (hw : ∀ c ∈ w, Blank c) (ht : ∀ c, t.head? = some c → verChar c = false) :
    splitVersion (w ++ render l ++ t) = .ok l := by
  unfold splitVersion
  rw [take_strip hw (render_ver l) (render_ne hl) ht, split_render hl, mapM_digits]

theorem le_iff_lex (r a : List Nat) : r ≤ a ↔ r = a ∨ List.Lex (· < ·) r a := le_iff_eq_or_lt

theorem loop_iff (rl al : List Nat) : ∀ r a : List Nat, r.length ≤ rl.length → rl.length - r.length = al.length - a.length → a.length ≤ al.length →
    (requireLists.loop rl al (r.zip a) = true ↔ r ≤ a)
  | [], a, _, h, h' => by
    simp only [List.zip_nil_left, requireLists.loop, decide_eq_true_eq, List.length_nil] at *
    refine ⟨fun _ => ?_, fun _ => by omega⟩
    rw [le_iff_lex]
    cases a with
    | nil => exact .inl rfl
    | cons x a => exact .inr .nil
  | r :: rs, [], h1, h, _ => by
    simp only [List.zip_nil_right, requireLists.loop, decide_eq_true_eq, List.length_nil, List.length_cons] at *
    refine ⟨fun _ => by omega, fun h2 => ?_⟩
    rw [le_iff_lex] at h2
    rcases h2 with h2 | h2
    · cases h2
    · cases h2
  | r :: rs, a :: as, h1, h, h' => by
    have ih := loop_iff rl al rs as (by simp at h1; omega) (by simp at h h1 h'; omega) (by simp at h'; omega)
    simp only [List.zip_cons_cons, requireLists.loop]
    have hcc : r :: rs ≤ a :: as ↔ r < a ∨ (r = a ∧ rs ≤ as) := by
      rw [le_iff_lex, le_iff_lex]
      constructor
      · rintro (h | h)
        · cases h
          exact .inr ⟨rfl, .inl rfl⟩
        · cases h with
          | cons h => exact .inr ⟨rfl, .inr h⟩
          | rel h => exact .inl h
      · rintro (h | ⟨rfl, rfl | h⟩)
        · exact .inr (.rel h)
        · exact .inl rfl
        · exact .inr (.cons h)
    rw [hcc]
    by_cases h3 : a < r
    · rw [if_pos h3]
      simp only [Bool.false_eq_true, false_iff]
      rintro (h | ⟨h, -⟩) <;> omega
    · rw [if_neg h3]
      by_cases h4 : r < a
      · rw [if_pos h4]
        simp [h4]
      · rw [if_neg h4, ih]
        have : r = a := by omega
        simp [this]

theorem requireLists_iff (rl al : List Nat) : requireLists rl al = true ↔ rl ≤ al :=
  loop_iff rl al rl al le_rfl (by simp) le_rfl

/-- C118: a requirement is met exactly if the required version is not after the actual one in the order that compares the components from
left to right, where a missing component comes before any other. -/
theorem C118_order {own r a : Str} {rl al : List Nat} (hr : splitVersion r = .ok rl) (ha : splitVersion a = .ok al) :
    requireVersion own r (some a) false = .ok (some (decide (rl ≤ al))) := by
  unfold requireVersion
  rw [hr, Option.getD_some, ha]
  simp only [Py.ok_bind, Bool.not_false, if_true]
  congr 2
  rw [Bool.eq_iff_iff, requireLists_iff, decide_eq_true_eq]

/-- C118: every version meets itself; of two versions one meets the other, and if each meets the other their components agree; a
requirement that implies another is transitive. -/
theorem C118_total {own a b c : Str} {al bl cl : List Nat} (ha : splitVersion a = .ok al) (hb : splitVersion b = .ok bl)
    (hc : splitVersion c = .ok cl) :
    requireVersion own a (some a) false = .ok (some true) ∧
      (requireVersion own a (some b) false = .ok (some true) ∨ requireVersion own b (some a) false = .ok (some true)) ∧
      (requireVersion own a (some b) false = .ok (some true) → requireVersion own b (some a) false = .ok (some true) → al = bl) ∧
      (requireVersion own a (some b) false = .ok (some true) → requireVersion own b (some c) false = .ok (some true) →
        requireVersion own a (some c) false = .ok (some true)) := by
  rw [C118_order ha ha, C118_order ha hb, C118_order hb ha, C118_order hb hc, C118_order ha hc]
  simp only [Except.ok.injEq, Option.some.injEq, decide_eq_true_eq]
  exact ⟨le_rfl, le_total _ _, le_antisymm, le_trans⟩

/-- C118: with `raiseonfail` the call returns nothing if the requirement is met and raises if not; without an actual version the one of
the package is used. -/
theorem C118_raise {own r : Str} {actual : Option Str} {rl al : List Nat} (hr : splitVersion r = .ok rl)
    (ha : splitVersion (actual.getD own) = .ok al) :
    (requireVersion own r actual true = .ok none ↔ rl ≤ al) ∧
      (requireVersion own r actual true = .error (.custom "VersionRequirementNotMetError") ↔ ¬rl ≤ al) ∧
      requireVersion own r none true = requireVersion own r (some own) true := by
  refine ⟨?_, ?_, rfl⟩
  · unfold requireVersion
    rw [hr, ha, ← requireLists_iff]
    cases h : requireLists rl al <;> simp [h]
  · unfold requireVersion
    rw [hr, ha, ← requireLists_iff]
    cases h : requireLists rl al <;> simp [h]

/-- C118: text that does not start with a version number raises, in either position and for either value of the flag. -/
theorem C118_invalid {own r a : Str} {f : Bool} {e : Err} :
    (splitVersion r = .error e → requireVersion own r (some a) f = .error e) ∧
      (∀ rl, splitVersion r = .ok rl → splitVersion a = .error e → requireVersion own r (some a) f = .error e) := by
  constructor
  · intro h
    unfold requireVersion
    rw [h]
    rfl
  · intro rl h1 h2
    unfold requireVersion
    rw [h1, Option.getD_some, h2]
    rfl

/-- C118: text without a number at the start raises, and so does a number followed by a dot and something else than a digit. -/
theorem C118_malformed {l : List Nat} {t : Str} (ht : ∀ c, t.head? = some c → verChar c = false ∧ ¬Blank c) :
    splitVersion t = .error .value ∧ (l ≠ [] → splitVersion (render l ++ '.' :: t) = .error .value) := by
  have hm : ∀ l : List Nat, (l.map (Nat.toDigits 10) ++ [[]]).mapM intOf = .error .value := by
    intro l
    induction l with
    | nil => rfl
    | cons n l ih =>
      rw [List.map_cons, List.cons_append, List.mapM_cons, intOf_digits, ih]
      rfl
  constructor
  · have h : (CarbonPair.strip t).takeWhile verChar = [] := by
      unfold CarbonPair.strip
      dsimp only
      obtain ⟨ws, hws⟩ : ∃ ws : Char → Bool, ws = fun c => decide (c = ' ') || decide (c = '\t') || decide (c = '\n') || decide (c = '\r') :=
        ⟨_, rfl⟩
      rw [← hws]
      have h1 : t.dropWhile ws = t := by
        match t, ht with
        | [], _ => rfl
        | c :: t, ht =>
          refine List.dropWhile_cons_of_neg ?_
          have := (ht c rfl).2
          rw [hws]
          unfold Blank at this
          simpa [or_assoc] using this
      rw [h1]
      have h2 : (t.reverse.dropWhile ws).reverse <+: t := by
        have := List.reverse_prefix.2 (List.dropWhile_suffix ws (l := t.reverse))
        rwa [List.reverse_reverse] at this
      match h : (t.reverse.dropWhile ws).reverse with
      | [] => rfl
      | c :: v =>
        rw [h] at h2
        obtain ⟨z, hz⟩ := h2
        refine List.takeWhile_cons_of_neg ?_
        rw [(ht c (by rw [← hz]; rfl)).1]
        decide
    unfold splitVersion
    rw [h]
    rfl
  · intro hl
    unfold splitVersion
    have h1 := take_strip (w := []) (a := render l ++ ['.']) (t := t) (by simp) (by
      intro c hc
      rw [List.mem_append] at hc
      rcases hc with hc | hc
      · exact render_ver l c hc
      · rw [List.mem_singleton] at hc
        rw [hc]
        rfl) (by simp) fun c hc => (ht c hc).1
    rw [List.nil_append, List.append_assoc, List.singleton_append] at h1
    rw [h1]
    have h2 : ∀ l : List Nat, l ≠ [] → splitChar '.' (render l ++ ['.']) = l.map (Nat.toDigits 10) ++ [[]] := by
      intro l
      induction l with
      | nil => intro h; exact absurd rfl h
      | cons n l ih =>
        intro _
        match l with
        | [] =>
          rw [render, splitChar_append fun c hc => digit_not_dot (digits_isDigit c hc)]
          rfl
        | m :: l =>
          rw [render, List.append_assoc, List.cons_append, splitChar_append fun c hc => digit_not_dot (digits_isDigit c hc), ih (by simp)]
          · rfl
          · simp
    rw [h2 l hl, hm]

/-- "1.10-beta" meets "1.9", "1.3" does not meet "1.3.0", and "v1.3" cannot be read. -/
example : requireVersion "2.5".toList "1.9".toList (some "1.10-beta".toList) false = .ok (some true) ∧
    requireVersion "2.5".toList "1.3.0".toList (some "1.3".toList) false = .ok (some false) ∧
    requireVersion "2.5".toList "2.6".toList none true = .error (.custom "VersionRequirementNotMetError") ∧
    splitVersion "v1.3".toList = .error .value ∧ splitVersion " 1.2.1\n".toList = .ok [1, 2, 1] := by decide +kernel

end Carbon.Prop.Version
