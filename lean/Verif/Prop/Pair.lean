import Verif.Carbon.PairLemmas
import Mathlib.Tactic.FieldSimp
import Mathlib.Tactic.Linarith
import Mathlib.Data.Rat.Defs

/-!
# Properties of `CarbonPair` (C12-C15, C60, C61)
-/

namespace Carbon.CarbonPair

variable {K : Type} [Field K] [LinearOrder K]

/-- The ETH/USDC pair used in the examples. -/
def ethUsdc : CarbonPair :=
  { tknb := "ETH".toList, tknq := "USDC".toList, tknbOrig := "eth".toList, tknqOrig := "USDC".toList }

example : make (.str "eth/USDC".toList) none none = .ok ethUsdc := by decide +kernel

/-! ## C12 conversion of amounts -/

/-- Converting base into quote multiplies by the price, converting quote into base divides by it. -/
theorem C12_value (p : CarbonPair) (hd : p.tknb ≠ p.tknq) (amt price : K) (hp : price ≠ 0) :
    p.convert amt p.tknb p.tknq price = .ok (some (amt * price)) ∧
    p.convert amt p.tknq p.tknb price = .ok (some (amt / price)) := by
  simp [convert, hasToken, hasBase, hasQuote, hd, hd.symm, pyDiv, hp]

/-- Into the other token and back is the identity, from either side, also for a degenerate pair "A/A". -/
theorem C12_roundtrip (p : CarbonPair) (t t' : Str)
    (ht : (t = p.tknb ∧ t' = p.tknq) ∨ (t = p.tknq ∧ t' = p.tknb)) (amt price : K) (hp : price ≠ 0) :
    ∃ r, p.convert amt t t' price = .ok (some r) ∧ p.convert r t' t price = .ok (some amt) := by
  by_cases hd : p.tknb = p.tknq
  · refine ⟨amt, ?_⟩
    rcases ht with ⟨rfl, rfl⟩ | ⟨rfl, rfl⟩ <;> simp [convert, hasToken, hasQuote, hd]
  · rcases ht with ⟨rfl, rfl⟩ | ⟨rfl, rfl⟩
    · refine ⟨amt * price, (C12_value p hd amt price hp).1, ?_⟩
      rw [(C12_value p hd _ price hp).2, mul_div_assoc, div_self hp, mul_one]
    · refine ⟨amt / price, (C12_value p hd amt price hp).2, ?_⟩
      rw [(C12_value p hd _ price hp).1, div_mul_cancel₀ _ hp]

/-- The other token of the pair is the one `other` reports, and converting through it is the identity. -/
theorem C12_other (p : CarbonPair) (t t' : Str) (ho : p.other t = some t') (amt price : K) (hp : price ≠ 0) :
    ∃ r, p.convert amt t t' price = .ok (some r) ∧ p.convert r t' t price = .ok (some amt) := by
  refine C12_roundtrip p t t' ?_ amt price hp
  unfold other hasBase hasQuote at ho
  split at ho
  · rename_i h; simp at h ho; exact .inl ⟨h, ho.symm⟩
  · split at ho
    · rename_i h; simp at h ho; exact .inr ⟨h, ho.symm⟩
    · cases ho

/-- A token outside the pair, on either side, gives `None` and never raises; tokens inside give a number as long as
the price is not zero. -/
theorem C12_none_iff (p : CarbonPair) (t t' : Str) (amt price : K) (hp : price ≠ 0) :
    p.convert amt t t' price = .ok none ↔ (t ≠ p.tknb ∧ t ≠ p.tknq) ∨ (t' ≠ p.tknb ∧ t' ≠ p.tknq) := by
  unfold convert hasToken hasBase hasQuote pyDiv
  by_cases h1 : t = p.tknb <;> by_cases h2 : t = p.tknq <;> by_cases h3 : t' = p.tknb <;>
    by_cases h4 : t' = p.tknq <;> by_cases h5 : t = t' <;> simp [h1, h2, h3, h4, h5, hp] <;> simp_all

example : ethUsdc.convert (3 : ℚ) "ETH".toList "USDC".toList 2000 = .ok (some 6000) ∧
    ethUsdc.convert (6000 : ℚ) "USDC".toList "ETH".toList 2000 = .ok (some 3) ∧
    ethUsdc.convert (6000 : ℚ) "USDC".toList "DAI".toList 2000 = .ok none := by decide +kernel

/-! ## C13 conversion of prices -/

/-- A price in the quote numeraire is unchanged, a price in the base numeraire is inverted. -/
theorem C13_value (p : CarbonPair) (hd : p.tknb ≠ p.tknq) (x : K) (hx : x ≠ 0) :
    p.convertPrice (some x) p.tknq = .ok (some x) ∧ p.convertPrice (some x) p.tknb = .ok (some (1 / x)) := by
  simp [convertPrice, hasToken, hasBase, hasQuote, hd, pyDiv, hx]

/-- Converting twice with the same numeraire is the identity. -/
theorem C13_involution (p : CarbonPair) (t : Str) (ht : t = p.tknb ∨ t = p.tknq) (x : K) (hx : x ≠ 0) :
    ∃ r, p.convertPrice (some x) t = .ok (some r) ∧ p.convertPrice (some r) t = .ok (some x) := by
  by_cases hq : t = p.tknq
  · refine ⟨x, ?_⟩; simp [convertPrice, hasToken, hasQuote, hq]
  · have hb : t = p.tknb := ht.resolve_right hq
    have hd : p.tknb ≠ p.tknq := hb ▸ hq
    subst hb
    refine ⟨1 / x, (C13_value p hd x hx).2, ?_⟩
    rw [(C13_value p hd (1 / x) (one_div_ne_zero hx)).2, one_div_one_div]

/-- A missing price or a foreign numeraire gives `None`. -/
theorem C13_none_iff (p : CarbonPair) (x : Option K) (t : Str) (hx : x ≠ some 0) :
    p.convertPrice x t = .ok none ↔ x = none ∨ (t ≠ p.tknb ∧ t ≠ p.tknq) := by
  cases x with
  | none => simp [convertPrice]
  | some x =>
    have hx : x ≠ 0 := fun h => hx (by rw [h])
    by_cases h1 : t = p.tknb <;> by_cases h2 : t = p.tknq <;>
      simp [convertPrice, hasToken, hasBase, hasQuote, pyDiv, hx, h1, h2] <;> simp_all

/-- Reversing a constructed pair always succeeds, swaps the names, and reversing twice gives back the names. -/
theorem C13_reverse_reverse (s : Arg) (b q : Option Str) (d : Bool) (p : CarbonPair) (h : make s b q d = .ok p) :
    ∃ r r', p.reverse = .ok r ∧ r.reverse = .ok r' ∧
      r.tknb = p.tknq ∧ r.tknq = p.tknb ∧ r'.tknb = p.tknb ∧ r'.tknq = p.tknq ∧ r'.slashpair = p.slashpair := by
  obtain ⟨h1, h2⟩ := make_upper h
  refine ⟨_, _, rfl, rfl, ?_⟩
  simp [finish, slashpair, h1, h2]

/-- On the reversed pair every price converts to the reciprocal of what it converts to on the pair. -/
theorem C13_reverse_reciprocal (s : Arg) (b q : Option Str) (d : Bool) (p r : CarbonPair)
    (h : make s b q d = .ok p) (hr : p.reverse = .ok r) (hd : p.tknb ≠ p.tknq) (t : Str) (x u v : K) (hx : x ≠ 0)
    (hu : p.convertPrice (some x) t = .ok (some u)) (hv : r.convertPrice (some x) t = .ok (some v)) :
    u * v = 1 := by
  obtain ⟨r1, _, e1, _, e2, e3, _⟩ := C13_reverse_reverse s b q d p h
  obtain rfl : r1 = r := by rw [e1] at hr; exact Except.ok.inj hr
  have hdr : r1.tknb ≠ r1.tknq := by rw [e2, e3]; exact hd.symm
  by_cases hb : t = p.tknb
  · have a := (C13_value p hd x hx).2
    have b := (C13_value r1 hdr x hx).1
    rw [e3, ← hb] at b
    rw [← hb] at a
    rw [hu] at a; rw [hv] at b
    simp only [Except.ok.injEq, Option.some.injEq] at a b
    rw [a, b, one_div_mul_cancel hx]
  · by_cases hq : t = p.tknq
    · have a := (C13_value p hd x hx).1
      have b := (C13_value r1 hdr x hx).2
      rw [e2, ← hq] at b
      rw [← hq] at a
      rw [hu] at a; rw [hv] at b
      simp only [Except.ok.injEq, Option.some.injEq] at a b
      rw [a, b, mul_one_div_cancel hx]
    · have := (C13_none_iff p (some x) t (by simpa using hx)).mpr (.inr ⟨hb, hq⟩)
      rw [hu] at this
      simp at this

/-- `price`: a quote given the pair's own way round is kept, one given the other way round is inverted. -/
theorem C13_price (p : CarbonPair) (hd : p.tknb ≠ p.tknq) (x : K) (hx : x ≠ 0) :
    p.price x p.tknb p.tknq = .ok (some x) ∧ p.price x p.tknq p.tknb = .ok (some (1 / x)) := by
  simp [price, hasToken, hasBase, hasQuote, hd, hd.symm, pyDiv, hx]

example : ethUsdc.convertPrice (some (2000 : ℚ)) "USDC".toList = .ok (some 2000) ∧
    ethUsdc.convertPrice (some (2000 : ℚ)) "ETH".toList = .ok (some (1 / 2000)) ∧
    ethUsdc.convertPrice (some (2000 : ℚ)) "DAI".toList = .ok none := by decide +kernel

/-! ## C14 limit orders -/

/-- Specification: what one unit of `t` is worth in the other token of the pair when the pair trades at `price`. -/
def worth (p : CarbonPair) (t : Str) (price : K) : K := if t = p.tknb then price else 1 / price

/-- Buying `t` under a limit is answered with True exactly when `t` costs at most as much as at the limit. -/
theorem C14_buy [IsStrictOrderedRing K] (p : CarbonPair) (hd : p.tknb ≠ p.tknq) (t : Str)
    (ht : t = p.tknb ∨ t = p.tknq) (limit cur : K) (hl : 0 < limit) (hc : 0 < cur) (r : Bool) :
    p.limitIsMet t limit .buy cur r = some (decide (worth p t cur ≤ worth p t limit)) := by
  unfold limitIsMet hasToken hasQuote hasBase worth
  rcases ht with rfl | rfl
  · by_cases he : cur = limit
    · simp [he]
    · simp [he, hd, lt_iff_le_and_ne]
  · by_cases he : cur = limit
    · simp [he]
    · simp only [decide_true, if_true, Bool.not_true, Bool.false_eq_true, if_false, he, hd.symm,
        one_div_le_one_div hc hl]
      simp [lt_iff_le_and_ne, Ne.symm he]

/-- Selling `t` under a limit is answered with True exactly when `t` fetches at least as much as at the limit. -/
theorem C14_sell [IsStrictOrderedRing K] (p : CarbonPair) (hd : p.tknb ≠ p.tknq) (t : Str)
    (ht : t = p.tknb ∨ t = p.tknq) (limit cur : K) (hl : 0 < limit) (hc : 0 < cur) (r : Bool) :
    p.limitIsMet t limit .sell cur r = some (decide (worth p t limit ≤ worth p t cur)) := by
  unfold limitIsMet hasToken hasQuote hasBase worth
  rcases ht with rfl | rfl
  · by_cases he : cur = limit
    · simp [he]
    · simp [he, hd, lt_iff_le_and_ne, Ne.symm he]
  · by_cases he : cur = limit
    · simp [he]
    · simp only [decide_true, if_true, Bool.not_true, Bool.false_eq_true, if_false, he, hd.symm,
        one_div_le_one_div hl hc]
      simp [lt_iff_le_and_ne, he]

omit [Field K] in
/-- A foreign token is never answered with True or False. -/
theorem C14_foreign (p : CarbonPair) (t : Str) (h1 : t ≠ p.tknb) (h2 : t ≠ p.tknq) (limit cur : K) (sd : Side)
    (r : Bool) : p.limitIsMet t limit sd cur r = none := by
  simp [limitIsMet, hasToken, hasQuote, hasBase, h1, h2]

omit [Field K] in
/-- Finding: the documented argument `reverse` (the view of the accepting party) has no effect whatsoever. -/
theorem C14_reverse_has_no_effect (p : CarbonPair) (t : Str) (limit cur : K) (sd : Side) :
    p.limitIsMet t limit sd cur true = p.limitIsMet t limit sd cur false := rfl

example : ethUsdc.limitIsMet "ETH".toList (2000 : ℚ) .buy 1900 = some true ∧
    ethUsdc.limitIsMet "ETH".toList (2000 : ℚ) .sell 1900 = some false ∧
    ethUsdc.limitIsMet "USDC".toList (2000 : ℚ) .buy 1900 = some false ∧
    ethUsdc.limitIsMet "USDC".toList (2000 : ℚ) .sell 1900 = some true ∧
    worth ethUsdc "USDC".toList (1900 : ℚ) = 1 / 1900 := by decide +kernel

/-! ## C15 construction -/

/-- A string is accepted as a pair exactly if it contains exactly one slash. -/
theorem C15_accept_iff (s : Str) (d : Bool) :
    (∃ p, make (.str s) none none d = .ok p) ↔ s.count '/' = 1 := by
  rw [count_slash_one]
  simp only [make_str_eq_ok]
  constructor
  · rintro ⟨p, b, q, h1, h2, h3, _⟩; exact ⟨b, q, h1, h2, h3⟩
  · rintro ⟨b, q, h1, h2, h3⟩; exact ⟨_, b, q, h1, h2, h3, rfl⟩

/-- Everything that is not accepted raises `ValueError`. -/
theorem C15_reject (s : Str) (d : Bool) (h : s.count '/' ≠ 1) :
    make (.str s) none none d = .error .value := by
  cases hm : make (.str s) none none d with
  | ok p => exact absurd ((C15_accept_iff s d).mp ⟨p, hm⟩) h
  | error e =>
    cases s with
    | nil => simp [make, fromTokens] at hm; rw [← hm]
    | cons c s =>
      simp only [make, truthy, Bool.or_self, Bool.false_eq_true, if_false, Py.bind_eq_error] at hm
      rcases hm with hm | ⟨_, _, hm⟩
      · unfold unpack at hm
        split at hm
        · cases hm
        · cases hm; rfl
      · cases hm

/-- The slash form of the result is the upper-cased input, and its two tokens are what stands before and after the
slash. -/
theorem C15_names (s : Str) (d : Bool) (p : CarbonPair) (h : make (.str s) none none d = .ok p) :
    p.slashpair = upper s ∧ p.slashpair = p.tknb ++ '/' :: p.tknq ∧ '/' ∉ p.tknb ∧ '/' ∉ p.tknq ∧
      s = p.tknbOrig ++ '/' :: p.tknqOrig := by
  obtain ⟨b, q, rfl, hb, hq, rfl⟩ := make_str_eq_ok.mp h
  simp [finish, slashpair, hb, hq]

/-- Building from two names upper-cases them and loses nothing. -/
theorem C15_tokens (b q : Str) (d : Bool) :
    ∃ p, make .none (some b) (some q) d = .ok p ∧ p.tknb = upper b ∧ p.tknq = upper q ∧
      p.tknbOrig = b ∧ p.tknqOrig = q := ⟨_, rfl, rfl, rfl, rfl, rfl⟩

/-- Rebuilding a pair from its slash form, or from the pair object, gives the same tokens; the pair object also
hands over its decimals. -/
theorem C15_rebuild (s : Str) (d : Bool) (p : CarbonPair) (h : make (.str s) none none d = .ok p)
    (decB decQ : Option DecV) (dct : Str → Option DecV) :
    ∃ p1 p2, make (.str p.slashpair) none none = .ok p1 ∧ p1.tknb = p.tknb ∧ p1.tknq = p.tknq ∧
      make (.pair (p.setDecimals decB decQ dct)) none none = .ok p2 ∧ p2.tknb = p.tknb ∧ p2.tknq = p.tknq ∧
      p2.decB = (p.setDecimals decB decQ dct).decB ∧ p2.decQ = (p.setDecimals decB decQ dct).decQ := by
  obtain ⟨b, q, rfl, hb, hq, rfl⟩ := make_str_eq_ok.mp h
  refine ⟨_, finish (upper b) (upper q) false _ _,
    make_str_eq_ok.mpr ⟨upper b, upper q, rfl, by simpa, by simpa, rfl⟩, by simp [finish], by simp [finish], ?_,
    by simp [finish], by simp [finish], rfl, rfl⟩
  simp only [make, truthy, Bool.or_self, Bool.false_eq_true, if_false, Py.bind_eq_ok, unpack_eq_ok,
    Except.ok.injEq]
  exact ⟨(upper b, upper q), ⟨rfl, by simpa, by simpa⟩, rfl⟩

/-- Giving both a slash pair and a token name raises. -/
theorem C15_ambiguous (s : Str) (hs : s ≠ []) (b q : Option Str) (d : Bool)
    (h : (∃ t, b = some t ∧ t ≠ []) ∨ (∃ t, q = some t ∧ t ≠ [])) :
    make (.str s) b q d = .error .value := by
  cases s with
  | nil => exact absurd rfl hs
  | cons c s =>
    have : (truthy b || truthy q) = true := by
      rcases h with ⟨t, rfl, ht⟩ | ⟨t, rfl, ht⟩ <;> simp [truthy, ht]
    simp [make, this]

/-- Finding: names containing a slash are accepted by the two-name form, and the result cannot be rebuilt. -/
theorem C15_slash_in_name :
    ∃ p, make .none (some "A/B".toList) (some "C".toList) = .ok p ∧
      make (.pair p) none none = .error .value := by
  refine ⟨_, rfl, ?_⟩
  decide +kernel

example : make (.str "eth/usdc".toList) none none = .ok { ethUsdc with tknqOrig := "usdc".toList } ∧
    make (.str "eth/usdc/dai".toList) none none = .error .value ∧
    make (.str "ethusdc".toList) none none = .error .value := by decide +kernel

/-! ## C60 ISO names -/

/-- A six (eight) letter ISO name splits into two names of three (four) letters which give back the name; any other
length raises. -/
theorem C60_by_length (s : Str) :
    (∀ p, fromIso s = .ok p → p.pairIso = upper s ∧ p.tknb.length = p.tknq.length ∧
      (p.tknb.length = 3 ∨ p.tknb.length = 4)) ∧
    ((∃ p, fromIso s = .ok p) ↔ s.length = 6 ∨ s.length = 8) := by
  constructor
  · intro p h
    unfold fromIso at h
    simp only [length_upper] at h
    split at h
    · cases h
      rename_i h6
      simp only [finish, pairIso, length_upper, List.length_take, List.length_drop, h6]
      refine ⟨?_, by simp, by simp⟩
      rw [← upper_append, List.take_append_drop, upper_upper]
    · split at h
      · cases h
        rename_i h8
        simp only [finish, pairIso, length_upper, List.length_take, List.length_drop, h8]
        refine ⟨?_, by simp, by simp⟩
        rw [← upper_append, List.take_append_drop, upper_upper]
      · cases h
  · unfold fromIso
    simp only [length_upper]
    by_cases h6 : s.length = 6
    · simp [h6, make, fromTokens]
    · by_cases h8 : s.length = 8
      · simp [h8, make, fromTokens]
      · simp [h6, h8]

/-- Given the base token, the ISO name of a constructed pair gives the pair back, provided the base token's name does
not occur inside the quote token's name. -/
theorem C60_base_partial (a : Arg) (b q : Option Str) (d : Bool) (p : CarbonPair) (h : make a b q d = .ok p)
    (hb : p.tknb ≠ []) (hi : ¬ p.tknb <:+: p.tknq) (hdot : '.' ∉ p.tknb) :
    ∃ r, fromIsoTkn p.pairIso p.tknb = .ok r ∧ r.tknb = p.tknb ∧ r.tknq = p.tknq := by
  obtain ⟨h1, h2⟩ := make_upper h
  have hu : upper p.pairIso = p.tknb ++ p.tknq := by simp [pairIso, h1, h2]
  have hr : pyReplaceDot p.tknb (p.tknb ++ p.tknq) = '.' :: p.tknq := by
    rw [pyReplaceDot, if_neg hb, replaceDot_prefix hb, replaceDot_of_not_infix hi]
  have hne : '.' :: p.tknq ≠ p.tknb ++ p.tknq := by
    intro he
    cases hbb : p.tknb with
    | nil => exact hb hbb
    | cons c t =>
      rw [hbb] at he hdot
      simp only [List.cons_append, List.cons.injEq] at he
      rw [← he.1] at hdot; simp at hdot
  refine ⟨finish p.tknb p.tknq false none none, ?_, h1, h2⟩
  unfold fromIsoTkn
  dsimp only
  rw [hu, hr, if_neg hne]
  rfl

/-- Given the quote token, the same, provided the quote token's name occurs in the ISO name only at the end. -/
theorem C60_quote_partial (a : Arg) (b q : Option Str) (d : Bool) (p : CarbonPair) (h : make a b q d = .ok p)
    (hq : p.tknq ≠ []) (hbd : p.tknb.head? ≠ some '.') (hb : p.tknb ≠ [])
    (hi : ∀ i < p.tknb.length, ¬ p.tknq <+: (p.tknb ++ p.tknq).drop i) (hdot : '.' ∉ p.tknq) :
    ∃ r, fromIsoTkn p.pairIso p.tknq = .ok r ∧ r.tknb = p.tknb ∧ r.tknq = p.tknq := by
  obtain ⟨h1, h2⟩ := make_upper h
  have hu : upper p.pairIso = p.tknb ++ p.tknq := by simp [pairIso, h1, h2]
  have hr : pyReplaceDot p.tknq (p.tknb ++ p.tknq) = p.tknb ++ ['.'] := by
    rw [pyReplaceDot, if_neg hq, replaceDot_suffix hq hi]
  have hne : p.tknb ++ ['.'] ≠ p.tknb ++ p.tknq := by
    intro he
    have := List.append_cancel_left he
    rw [← this] at hdot; simp at hdot
  refine ⟨finish p.tknb p.tknq false none none, ?_, h1, h2⟩
  unfold fromIsoTkn
  dsimp only
  rw [hu, hr, if_neg hne]
  cases hbb : p.tknb with
  | nil => exact absurd hbb hb
  | cons c t =>
    have hc : c ≠ '.' := by rw [hbb] at hbd; simpa using hbd
    simp only [List.cons_append, List.head?_cons, hc, if_false]
    have : (c :: (t ++ ['.'])).getLast? = some '.' := by
      rw [← List.cons_append]; exact List.getLast?_concat
    have h2' : (c :: (t ++ ['.'])).dropLast = c :: t := by
      rw [← List.cons_append, List.dropLast_concat]
    simp [this, h2', make, fromTokens]

/-- The full claim (the ISO name together with one of its tokens determines the pair) is false for the code: for
ETH/BETH the base token occurs again inside the quote token and a wrong token name "B." comes back. -/
theorem C60_violated :
    ∃ p, make (.str "ETH/BETH".toList) none none = .ok p ∧ p.hasToken "ETH".toList = true ∧
      ∃ r, fromIsoTkn p.pairIso "ETH".toList = .ok r ∧ r.tknq ≠ p.tknq ∧ r.tknq = "B.".toList := by
  refine ⟨{ tknb := "ETH".toList, tknq := "BETH".toList, tknbOrig := "ETH".toList, tknqOrig := "BETH".toList },
    by decide +kernel, by decide +kernel,
    { tknb := "ETH".toList, tknq := "B.".toList, tknbOrig := "ETH".toList, tknqOrig := "B.".toList }, ?_, ?_⟩
  · simp [fromIsoTkn, pyReplaceDot, pairIso, upper, replaceDot, make, fromTokens, finish]
  · decide +kernel

/-- ISO names do not identify a pair: different token pairs share one. -/
theorem C60_not_injective :
    ∃ p p', make (.str "AB/C".toList) none none = .ok p ∧ make (.str "A/BC".toList) none none = .ok p' ∧
      p.pairIso = p'.pairIso ∧ p.tknb ≠ p'.tknb :=
  ⟨⟨"AB".toList, "C".toList, "AB".toList, "C".toList, false, none, none⟩,
   ⟨"A".toList, "BC".toList, "A".toList, "BC".toList, false, none, none⟩,
   by decide +kernel, by decide +kernel, by decide +kernel, by decide +kernel⟩

example : ethUsdc.tknb ≠ [] ∧ ¬ ethUsdc.tknb <:+: ethUsdc.tknq ∧ '.' ∉ ethUsdc.tknb ∧
    (∀ i < ethUsdc.tknb.length, ¬ ethUsdc.tknq <+: (ethUsdc.tknb ++ ethUsdc.tknq).drop i) := by decide +kernel

/-! ## C61 decimals -/

/-- After setting decimals: an explicit value wins, else the dictionary's value for that token; the pair has decimals
exactly if both tokens got one; token names do not change. -/
theorem C61_set (p : CarbonPair) (b q : Option DecV) (dct : Str → Option DecV) :
    (p.setDecimals b q dct).decB = (b <|> dct p.tknb) ∧ (p.setDecimals b q dct).decQ = (q <|> dct p.tknq) ∧
    (p.setDecimals b q dct).slashpair = p.slashpair ∧
    ((p.setDecimals b q dct).hasDecimals = true ↔ (b <|> dct p.tknb) ≠ none ∧ (q <|> dct p.tknq) ≠ none) := by
  cases b <;> cases q <;> simp [setDecimals, slashpair, hasDecimals, Option.isSome_iff_ne_none]

/-- The difference is reported exactly when both decimals are integers, as quote minus base. -/
theorem C61_diff (p : CarbonPair) (x : Int) :
    p.decdiffqb = some x ↔ ∃ b q, p.decB = some (.int b) ∧ p.decQ = some (.int q) ∧ x = q - b := by
  unfold decdiffqb
  split
  · rename_i b q h1 h2
    simp only [Option.some.injEq, h1, h2, DecV.int.injEq]
    constructor
    · rintro rfl; exact ⟨b, q, rfl, rfl, rfl⟩
    · rintro ⟨_, _, rfl, rfl, rfl⟩; rfl
  · rename_i h
    simp only [reduceCtorEq, false_iff, not_exists, not_and]
    intro b q h1 h2
    exact absurd h2 (h b q h1)

/-- Finding: decimals passed to `from_slashpair` are lost; whatever is passed, the resulting pair has no decimals and
no decimals difference. -/
theorem C61_from_slashpair_violated (s : Str) (d : Option (Int × Int)) (p : CarbonPair)
    (h : fromSlashpair s d = .ok p) : p.hasDecimals = false ∧ p.decdiffqb = none := by
  unfold fromSlashpair at h
  split at h
  · rw [Py.bind_eq_ok] at h
    obtain ⟨p0, _, h⟩ := h
    cases h
    simp only [setDecimals, hasDecimals, Option.isSome_none, Bool.and_false, true_and, decdiffqb]
    split
    · rename_i h2; cases h2
    · rfl
  · cases h

example : (fromSlashpair "eth / usdc".toList (some (18, 6))).toOption.map (fun p => (p.tknb, p.tknq, p.decB)) =
    some ("ETH".toList, "USDC".toList, some (.tuple 18 6)) ∧
    (ethUsdc.setDecimals (some (.int 18)) none (fun t => if t = "USDC".toList then some (.int 6) else none)).decdiffqb
      = some (-12) := by decide +kernel

end Carbon.CarbonPair
