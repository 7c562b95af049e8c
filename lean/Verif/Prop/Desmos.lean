import Verif.Helpers.Desmos
import Verif.Prop.Formulas

/-!
# C173: the text for Desmos
-/

namespace Carbon.Prop.Desmos

open Carbon

/-- Two asterisks become a circumflex. -/
def powers : Str → Str
  | [] => []
  | [c] => [c]
  | c :: d :: t => if c = '*' ∧ d = '*' then '^' :: powers t else c :: powers (d :: t)

/-- The other replacements, for a single character. -/
def sign (c : Char) : Str :=
  if c = '*' then [' '] else if c = '/' then [' ', '/', ' '] else if c = '(' then [' ', '('] else if c = ')' then [')', ' '] else [c]

theorem replace_char (a : Char) (new : Str) : ∀ s : Str, replaceAll [a] new s = s.flatMap fun c => if c = a then new else [c]
  | [] => by rw [replaceAll]; rfl
  | c :: t => by
    have ih := replace_char a new t
    rw [replaceAll, List.flatMap_cons]
    by_cases h : c = a
    · subst h; simp [List.isPrefixOf, ih]
    · have h' : ¬ a = c := fun e => h e.symm
      simp [List.isPrefixOf, h, h', ih]

theorem replace_powers : ∀ s : Str, replaceAll "**".toList "^".toList s = powers s
  | [] => by rw [replaceAll]; rfl
  | [c] => by
    rw [replaceAll, replaceAll]
    simp [List.isPrefixOf, powers]
  | c :: d :: t => by
    have i1 := replace_powers t
    have i2 := replace_powers (d :: t)
    rw [replaceAll, powers]
    by_cases h : c = '*' ∧ d = '*'
    · obtain ⟨rfl, rfl⟩ := h
      simpa [List.isPrefixOf] using i1
    · rw [if_neg h, if_neg, i2]
      rintro ⟨-, hp⟩
      have e : "**".toList = ['*', '*'] := rfl
      rw [e] at hp
      simp only [List.isPrefixOf, Bool.and_true, Bool.and_eq_true, beq_iff_eq] at hp
      exact h ⟨hp.1.symm, hp.2.symm⟩

theorem text_eq (s : Str) : desmosText s = (powers s).flatMap sign := by
  unfold desmosText
  dsimp only
  rw [replace_powers]
  have e1 : "*".toList = ['*'] := rfl
  have e2 : "/".toList = ['/'] := rfl
  have e3 : "(".toList = ['('] := rfl
  have e4 : ")".toList = [')'] := rfl
  rw [e1, e2, e3, e4, replace_char, replace_char, replace_char, replace_char, List.flatMap_assoc, List.flatMap_assoc, List.flatMap_assoc]
  refine congrArg (fun f => List.flatMap f (powers s)) (funext fun c => ?_)
  unfold sign
  by_cases h1 : c = '*'
  · subst h1; decide
  by_cases h2 : c = '/'
  · subst h2; decide
  by_cases h3 : c = '('
  · subst h3; decide
  by_cases h4 : c = ')'
  · subst h4; decide
  simp [h1, h2, h3, h4]

/-- C173: the text has no asterisk. -/
theorem C173_clean (s : Str) : '*' ∉ desmosText s := by
  rw [text_eq]
  intro h
  obtain ⟨c, -, hc⟩ := List.mem_flatMap.1 h
  unfold sign at hc
  split at hc
  · simp at hc
  · split at hc
    · simp at hc
    · split at hc
      · simp at hc
      · split at hc
        · simp at hc
        · rename_i h1 _ _ _
          exact h1 (List.mem_singleton.1 hc).symm

theorem powers_append : ∀ (s t : Str), (s.getLast? ≠ some '*' ∨ t.head? ≠ some '*') → powers (s ++ t) = powers s ++ powers t
  | [], _, _ => rfl
  | [c], [], _ => rfl
  | [c], d :: u, h => by
    simp only [List.cons_append, List.nil_append, powers]
    rw [if_neg]
    rintro ⟨rfl, rfl⟩
    simp at h
  | c :: d :: s, t, h => by
    have i1 := powers_append s t
    have i2 := powers_append (d :: s) t (by simpa using h)
    simp only [List.cons_append, powers] at i2 ⊢
    by_cases hc : c = '*' ∧ d = '*'
    · rw [if_pos hc, if_pos hc, List.cons_append, i1]
      rcases List.eq_nil_or_concat s with rfl | ⟨q, x, rfl⟩
      · exact .inl (by simp)
      · rw [List.concat_eq_append, show c :: d :: (q ++ [x]) = (c :: d :: q) ++ [x] from rfl, List.getLast?_append] at h
        rw [List.concat_eq_append, List.getLast?_append]
        exact h
    · rw [if_neg hc, if_neg hc, List.cons_append, ← i2]

/-- C173: the parts of a formula are converted on their own, if they are not separated within two asterisks. -/
theorem C173_parts (s t : Str) (h : s.getLast? ≠ some '*' ∨ t.head? ≠ some '*') : desmosText (s ++ t) = desmosText s ++ desmosText t := by
  rw [text_eq, text_eq, text_eq, powers_append s t h, List.flatMap_append]

/-- C173: a text without any of the signs is kept. -/
theorem C173_plain (s : Str) (h : ∀ c ∈ s, c ≠ '*' ∧ c ≠ '/' ∧ c ≠ '(' ∧ c ≠ ')') : desmosText s = s := by
  have hp : ∀ s : Str, '*' ∉ s → powers s = s := by
    intro s
    induction s with
    | nil => intro _; rfl
    | cons c t ih =>
      intro hc
      cases t with
      | nil => rfl
      | cons d u =>
        rw [powers, if_neg, ih]
        · exact fun hm => hc (List.mem_cons_of_mem _ hm)
        · rintro ⟨rfl, -⟩; simp at hc
  rw [text_eq, hp s fun hm => (h _ hm).1 rfl]
  induction s with
  | nil => rfl
  | cons c t ih =>
    obtain ⟨h1, h2, h3, h4⟩ := h c List.mem_cons_self
    rw [List.flatMap_cons, ih fun x hx => h x (List.mem_cons_of_mem _ hx)]
    simp [sign, h1, h2, h3, h4]

/-- Text as `str` writes a formula: blanks are around a plus or minus between terms only, one asterisk is followed by a factor, and there is no
circumflex. -/
inductive Written : Str → Prop
  | nil : Written []
  | sum (c : Char) (t : Str) (hc : c = '+' ∨ c = '-') : Written t → Written (' ' :: c :: ' ' :: t)
  | power (t : Str) : Written t → Written ('*' :: '*' :: t)
  | times (t : Str) (h : t.head? ≠ some '*' ∧ t.head? ≠ some '+' ∧ t.head? ≠ some '-') : Written t → Written ('*' :: t)
  | char (c : Char) (t : Str) (h : c ≠ ' ' ∧ c ≠ '^' ∧ c ≠ '*') : Written t → Written (c :: t)

/-- The way back. -/
def back : Str → Str
  | '^' :: t => '*' :: '*' :: back t
  | ' ' :: '+' :: ' ' :: t => ' ' :: '+' :: ' ' :: back t
  | ' ' :: '-' :: ' ' :: t => ' ' :: '-' :: ' ' :: back t
  | ' ' :: '/' :: ' ' :: t => '/' :: back t
  | ' ' :: '(' :: t => '(' :: back t
  | ')' :: ' ' :: t => ')' :: back t
  | ' ' :: t => '*' :: back t
  | c :: t => c :: back t
  | [] => []

theorem text_cons (c : Char) (t : Str) (h : c ≠ '*' ∨ t.head? ≠ some '*') : desmosText (c :: t) = sign c ++ desmosText t := by
  have := C173_parts [c] t (h.imp (fun h => by simpa using h) id)
  rw [List.singleton_append] at this
  rw [this, text_eq [c]]
  simp [powers]

theorem sign_head (c : Char) (t : Str) : (sign c ++ t).head? ≠ some '/' ∧ (sign c ++ t).head? ≠ some '(' ∧
    (c ≠ '+' → (sign c ++ t).head? ≠ some '+') ∧ (c ≠ '-' → (sign c ++ t).head? ≠ some '-') := by
  unfold sign
  by_cases h1 : c = '*'
  · simp [h1]
  by_cases h2 : c = '/'
  · simp [h2]
  by_cases h3 : c = '('
  · simp [h3]
  by_cases h4 : c = ')'
  · simp [h4]
  simp [h1, h2, h3, h4]

theorem text_head (s : Str) : (desmosText s).head? ≠ some '/' ∧ (desmosText s).head? ≠ some '(' ∧
    (s.head? ≠ some '+' → (desmosText s).head? ≠ some '+') ∧ (s.head? ≠ some '-' → (desmosText s).head? ≠ some '-') := by
  rw [text_eq]
  match s with
  | [] => simp [powers]
  | [c] =>
    rw [powers, List.flatMap_cons]
    have := sign_head c (List.flatMap sign [])
    simpa using this
  | c :: d :: t =>
    rw [powers]
    split
    · rename_i h
      rw [List.flatMap_cons, h.1]
      simp [sign]
    · rw [List.flatMap_cons]
      have := sign_head c ((powers (d :: t)).flatMap sign)
      simpa using this

theorem text_power (t : Str) : desmosText ('*' :: '*' :: t) = '^' :: desmosText t := by
  rw [text_eq, text_eq, powers, if_pos ⟨rfl, rfl⟩, List.flatMap_cons]; rfl

theorem back_text {s : Str} (h : Written s) : back (desmosText s) = s := by
  induction h with
  | nil => rw [text_eq]; rfl
  | sum c t hc _ ih =>
    rcases hc with rfl | rfl
    · rw [text_cons _ _ (by simp), text_cons _ _ (by simp), text_cons _ _ (by simp)]
      change back (' ' :: '+' :: ' ' :: desmosText t) = _
      rw [back, ih]
    · rw [text_cons _ _ (by simp), text_cons _ _ (by simp), text_cons _ _ (by simp)]
      change back (' ' :: '-' :: ' ' :: desmosText t) = _
      rw [back, ih]
  | power t _ ih => rw [text_power, back, ih]
  | times t h _ ih =>
    rw [text_cons _ _ (.inr h.1)]
    obtain ⟨g1, g2, g3, g4⟩ := text_head t
    have g3 := g3 h.2.1
    have g4 := g4 h.2.2
    change back (' ' :: desmosText t) = _
    generalize desmosText t = w at *
    rw [back.eq_def]
    split <;> simp_all
    rename_i hb he
    exact absurd he.1.symm hb
  | char c t h _ ih =>
    obtain ⟨hs, hp, hc⟩ := h
    rw [text_cons _ _ (.inl hc)]
    unfold sign
    rw [if_neg hc]
    by_cases k1 : c = '/'
    · subst k1
      rw [if_pos rfl]
      simp only [List.cons_append, List.nil_append]
      rw [back, ih]
    rw [if_neg k1]
    by_cases k2 : c = '('
    · subst k2
      rw [if_pos rfl]
      simp only [List.cons_append, List.nil_append]
      rw [back, ih]
    rw [if_neg k2]
    by_cases k3 : c = ')'
    · subst k3
      rw [if_pos rfl]
      simp only [List.cons_append, List.nil_append]
      rw [back, ih]
    rw [if_neg k3]
    simp only [List.cons_append, List.nil_append]
    rw [back.eq_def]
    split <;> simp_all

/-- C173: different formulas have different texts. -/
theorem C173_injective (s t : Str) (hs : Written s) (ht : Written t) (h : desmosText s = desmosText t) : s = t := by
  rw [← back_text hs, h, back_text ht]

/-- C173: with blanks elsewhere a product cannot be told from them. -/
theorem C173_blank : desmosText "x*y".toList = desmosText "x y".toList := by
  rw [text_eq, text_eq]; decide

/-- C173: an equation is converted side by side, and a key that is not there raises a `KeyError` whatever the container does on errors. -/
theorem C173_key (f : Formulas Formula) (key : Str) :
    (∀ i, dictGet f.fdict key = some i → ∀ l r, i.item = .eq (.text l) (.text r) →
      f.toDesmos key = .ok (.pair (.text (desmosText l)) (.text (desmosText r)))) ∧
    (dictGet f.fdict key = none → f.toDesmos key = .error .key) := by
  constructor
  · intro i hi l r hl
    simp [Formulas.toDesmos, Formulas.getitem, Formulas.field, Formulas.getfullitem, hi, hl, toDesmos]
  · intro hi
    simp [Formulas.toDesmos, Formulas.getitem, Formulas.field, Formulas.getfullitem, hi]

example : desmosText "x0*y0**2/(n*(x-1))".toList = "x0 y0^2 /  (n  (x-1) ) ".toList := by
  rw [text_eq]; decide

example : Written "x**2 + 2*y".toList :=
  .char _ _ (by decide) (.power _ (.char _ _ (by decide) (.sum _ _ (by decide) (.char _ _ (by decide) (.times _ (by decide) (.char _ _ (by decide) .nil))))))

end Carbon.Prop.Desmos
