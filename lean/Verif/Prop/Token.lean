import Mathlib.Data.List.Dedup
import Mathlib.Tactic.Linarith
import Mathlib.Tactic.FieldSimp
import Mathlib.Tactic.Positivity
import Mathlib.Data.Rat.Floor
import Mathlib.Tactic.NormNum
import Verif.Sdk.Token
import Verif.Carbon.PairLemmas
import Verif.Prop.CpcContainer

/-!
# Tokens: lookup in a container (C52), wei amounts (C85)
-/

set_option linter.unusedSectionVars false

namespace Carbon

theorem toLower_of_not {c : Char} (h : ¬ ('A'.val ≤ c.val ∧ c.val ≤ 'Z'.val)) : c.toLower = c := by
  unfold Char.toLower; rw [dif_neg h]

theorem toLower_idem (c : Char) : c.toLower.toLower = c.toLower := by
  by_cases h : 'A'.val ≤ c.val ∧ c.val ≤ 'Z'.val
  · apply toLower_of_not
    unfold Char.toLower
    rw [dif_pos h]
    have h1 := h.1; have h2 := h.2
    simp only [UInt32.le_iff_toNat_le] at h1 h2 ⊢
    simp [UInt32.toNat_add] at h1 h2 ⊢
    omega
  · rw [toLower_of_not h, toLower_of_not h]

theorem toUpper_toLower (c : Char) : c.toLower.toUpper = c.toUpper := by
  by_cases h : 'A'.val ≤ c.val ∧ c.val ≤ 'Z'.val
  · have h1 := h.1; have h2 := h.2
    have e : c.toUpper = c := by
      apply toUpper_of_not
      simp only [UInt32.le_iff_toNat_le] at h1 h2 ⊢
      simp at h1 h2 ⊢
      omega
    rw [e]
    unfold Char.toLower
    rw [dif_pos h]
    simp only [UInt32.le_iff_toNat_le] at h1 h2
    simp at h1 h2
    unfold Char.toUpper
    rw [dif_pos (by
      constructor
      · simp only [UInt32.le_iff_toNat_le]
        simp [UInt32.toNat_add]
        omega
      · simp only [UInt32.le_iff_toNat_le]
        simp [UInt32.toNat_add]
        omega)]
    apply Char.ext
    apply UInt32.toNat_inj.1
    simp [UInt32.toNat_add]
    omega
  · rw [toLower_of_not h]

theorem toLower_toUpper (c : Char) : c.toUpper.toLower = c.toLower := by
  by_cases h : 'a'.val ≤ c.val ∧ c.val ≤ 'z'.val
  · have h1 := h.1; have h2 := h.2
    have e : c.toLower = c := by
      apply toLower_of_not
      simp only [UInt32.le_iff_toNat_le] at h1 h2 ⊢
      simp at h1 h2 ⊢
      omega
    rw [e]
    unfold Char.toUpper
    rw [dif_pos h]
    simp only [UInt32.le_iff_toNat_le] at h1 h2
    simp at h1 h2
    unfold Char.toLower
    rw [dif_pos (by
      constructor
      · simp only [UInt32.le_iff_toNat_le, ge_iff_le]
        simp [UInt32.toNat_add]
        omega
      · simp only [UInt32.le_iff_toNat_le]
        simp [UInt32.toNat_add]
        omega)]
    apply Char.ext
    apply UInt32.toNat_inj.1
    simp [UInt32.toNat_add]
    omega
  · rw [toUpper_of_not h]

@[simp] theorem lower_lower (s : Str) : lower (lower s) = lower s := by simp [lower, Function.comp_def, toLower_idem]

@[simp] theorem upper_lower (s : Str) : upper (lower s) = upper s := by simp [lower, upper, Function.comp_def, toUpper_toLower]

@[simp] theorem lower_upper (s : Str) : lower (upper s) = lower s := by simp [lower, upper, Function.comp_def, toLower_toUpper]

namespace TokenC

/-- The last token with a given key. -/
def last (key : SdkTkn → Str) (ts : List SdkTkn) (k : Str) : Option SdkTkn := ts.reverse.find? fun t => key t = k

/-- What a lookup gives, depending on the token found and on the two settings. -/
def answer (found : Option SdkTkn) (raises nul : Bool) : Py (Option SdkTkn) :=
  match found, raises, nul with
  | some t, _, _ => .ok (some t)
  | none, true, _ => .error .key
  | none, false, true => .ok (some SdkTkn.nul)
  | none, false, false => .ok none

theorem index_get (key : SdkTkn → Str) (ts : List SdkTkn) (k : Str) : dictGet (index key ts) k = last key ts k := by
  unfold last index
  induction ts using List.reverseRecOn with
  | nil => rfl
  | append_singleton ts t ih =>
    rw [List.foldl_append, List.foldl_cons, List.foldl_nil, dictGet_set, ih, List.reverse_append, List.reverse_singleton,
      List.singleton_append, List.find?_cons]
    by_cases h : key t = k <;> simp [h]

theorem make_ok {ts : List SdkTkn} {r : Option Bool} {c : TokenC} (h : make ts r = .ok c) :
    c = ⟨r.getD true, index SdkTkn.token ts, index SdkTkn.address ts⟩ ∧ (index SdkTkn.token ts).length = (index SdkTkn.address ts).length := by
  unfold make at h
  dsimp only at h
  by_cases hl : (index SdkTkn.token ts).length = (index SdkTkn.address ts).length
  · rw [if_neg (by simpa using hl)] at h
    exact ⟨(Except.ok.inj h).symm, hl⟩
  · rw [if_pos hl] at h
    cases h

/-- C52: a lookup by ticker gives the last token with this ticker, in any letter case; if there is none it raises `KeyError` or gives the
null token or `None`, as configured for the call or else for the container. -/
theorem C52_ticker {ts : List SdkTkn} {r : Option Bool} {c : TokenC} (h : make ts r = .ok c) (k : Str) (ro : Option Bool) (rn : Bool) :
    c.ticker k ro rn = answer (last SdkTkn.token ts (upper k)) (ro.getD (r.getD true)) rn := by
  rw [(make_ok h).1]
  unfold ticker missing
  dsimp only
  rw [index_get]
  cases last SdkTkn.token ts (upper k) with
  | some t => rfl
  | none => dsimp only; cases ro.getD (r.getD true) <;> cases rn <;> rfl

/-- C52: a lookup by address likewise. -/
theorem C52_address {ts : List SdkTkn} {r : Option Bool} {c : TokenC} (h : make ts r = .ok c) (k : Str) (ro : Option Bool) (rn : Bool) :
    c.addr k ro rn = answer (last SdkTkn.address ts (lower k)) (ro.getD (r.getD true)) rn := by
  rw [(make_ok h).1]
  unfold addr missing
  dsimp only
  rw [index_get]
  cases last SdkTkn.address ts (lower k) with
  | some t => rfl
  | none => dsimp only; cases ro.getD (r.getD true) <;> cases rn <;> rfl

/-- C52: the letter case of a key does not matter. -/
theorem C52_case (c : TokenC) (k : Str) (ro : Option Bool) (rn : Bool) :
    c.ticker (upper k) ro rn = c.ticker k ro rn ∧ c.ticker (lower k) ro rn = c.ticker k ro rn ∧
      c.addr (upper k) ro rn = c.addr k ro rn ∧ c.addr (lower k) ro rn = c.addr k ro rn := by
  unfold ticker addr
  simp only [upper_upper, upper_lower, lower_upper, lower_lower, and_self]

theorem dictSet_keys (d : List (Str × SdkTkn)) (k : Str) (t : SdkTkn) :
    (dictSet d k t).map Prod.fst = if k ∈ d.map Prod.fst then d.map Prod.fst else d.map Prod.fst ++ [k] := by
  induction d with
  | nil => simp [dictSet]
  | cons a d ih =>
    obtain ⟨a, b⟩ := a
    unfold dictSet
    by_cases h : a = k
    · simp [h]
    · rw [if_neg h, List.map_cons, ih]
      by_cases h2 : k ∈ d.map Prod.fst
      · rw [if_pos h2, if_pos (by rw [List.map_cons]; exact List.mem_cons_of_mem _ h2), List.map_cons]
      · rw [if_neg h2, if_neg, List.map_cons, List.cons_append]
        rw [List.map_cons, List.mem_cons]
        rintro (e | e)
        · exact h e.symm
        · exact h2 e

theorem index_keys (key : SdkTkn → Str) (ts : List SdkTkn) :
    ((index key ts).map Prod.fst).Nodup ∧ ∀ k, k ∈ (index key ts).map Prod.fst ↔ k ∈ ts.map key := by
  unfold index
  induction ts using List.reverseRecOn with
  | nil => simp
  | append_singleton ts t ih =>
    rw [List.foldl_append, List.foldl_cons, List.foldl_nil, dictSet_keys]
    obtain ⟨h1, h2⟩ := ih
    constructor
    · split
      · exact h1
      · rename_i hn
        rw [List.nodup_append]
        refine ⟨h1, by simp, ?_⟩
        intro a ha b hb
        rw [List.mem_singleton] at hb
        subst hb
        rintro rfl
        exact hn ha
    · intro k
      rw [List.map_append, List.mem_append, ← h2 k]
      split
      · rename_i hm
        constructor
        · exact Or.inl
        · rintro (h | h)
          · exact h
          · rw [List.map_singleton, List.mem_singleton] at h
            rw [h]; exact hm
      · rw [List.mem_append]; simp

theorem index_length (key : SdkTkn → Str) (ts : List SdkTkn) : (index key ts).length = (ts.map key).dedup.length := by
  obtain ⟨h1, h2⟩ := index_keys key ts
  rw [← List.length_map (f := Prod.fst)]
  apply List.Perm.length_eq
  rw [List.perm_ext_iff_of_nodup h1 (List.nodup_dedup _)]
  intro k
  rw [h2, List.mem_dedup]

/-- C52: if the tokens have different tickers the container accepts them exactly if their addresses differ as well; and the other way
around. -/
theorem C52_accepts (ts : List SdkTkn) (r : Option Bool) :
    ((ts.map SdkTkn.token).Nodup → ((∃ c, make ts r = .ok c) ↔ (ts.map SdkTkn.address).Nodup)) ∧
      ((ts.map SdkTkn.address).Nodup → ((∃ c, make ts r = .ok c) ↔ (ts.map SdkTkn.token).Nodup)) := by
  have key : (∃ c, make ts r = .ok c) ↔ (ts.map SdkTkn.token).dedup.length = (ts.map SdkTkn.address).dedup.length := by
    rw [← index_length, ← index_length]
    constructor
    · rintro ⟨c, h⟩
      exact (make_ok h).2
    · intro h
      unfold make
      dsimp only
      rw [if_neg (by simpa using h)]
      exact ⟨_, rfl⟩
  have full : ∀ l : List Str, l.Nodup ↔ l.dedup.length = l.length := by
    intro l
    constructor
    · intro h; rw [List.dedup_eq_self.2 h]
    · intro h
      rw [← List.dedup_eq_self]
      exact (List.dedup_sublist l).eq_of_length h
  constructor
  · intro h
    rw [key, full, (full _).1 h, List.length_map, List.length_map]
    exact eq_comm
  · intro h
    rw [key, full, (full _).1 h, List.length_map, List.length_map]

theorem last_of_nodup {key : SdkTkn → Str} {ts : List SdkTkn} (hn : (ts.map key).Nodup) {t : SdkTkn} (ht : t ∈ ts) :
    last key ts (key t) = some t := by
  unfold last
  cases h : ts.reverse.find? fun s => key s = key t with
  | none =>
    rw [List.find?_eq_none] at h
    exact absurd (by simp) (h t (List.mem_reverse.2 ht))
  | some s =>
    have hs := List.mem_reverse.1 (List.mem_of_find?_eq_some h)
    have he : key s = key t := by simpa using List.find?_some h
    rw [List.inj_on_of_nodup_map hn hs ht he]

theorem made {a b : Str} {d : SdkTkn.Dec} {n : Option Str} {t : SdkTkn} (h : SdkTkn.make a b d n = .ok t) :
    upper t.token = t.token ∧ lower t.address = t.address := by
  unfold SdkTkn.make at h
  obtain ⟨x, _, h⟩ := Py.bind_eq_ok.1 h
  dsimp only at h
  split at h
  · cases h
  · rw [← Except.ok.inj h]
    exact ⟨upper_upper _, lower_lower _⟩

/-- C52: in an accepted container of tokens with different tickers every token is found under its ticker and under its address, in any
letter case, and nothing else is found. -/
theorem C52_consistent_partial {ts : List SdkTkn} {r : Option Bool} {c : TokenC} (h : make ts r = .ok c)
    (hm : ∀ t ∈ ts, ∃ a b d n, SdkTkn.make a b d n = .ok t) (hn : (ts.map SdkTkn.token).Nodup) :
    (∀ t ∈ ts, ∀ k ro rn, upper k = t.token → c.ticker k ro rn = .ok (some t)) ∧
    (∀ t ∈ ts, ∀ k ro rn, lower k = t.address → c.addr k ro rn = .ok (some t)) ∧
    (∀ k t, c.ticker k (some true) = .ok (some t) → t ∈ ts ∧ upper k = t.token ∧ c.addr t.address = .ok (some t)) ∧
    (∀ k t, c.addr k (some true) = .ok (some t) → t ∈ ts ∧ lower k = t.address ∧ c.ticker t.token = .ok (some t)) := by
  have ha : (ts.map SdkTkn.address).Nodup := ((C52_accepts ts r).1 hn).1 ⟨c, h⟩
  have p1 : ∀ t ∈ ts, ∀ k ro rn, upper k = t.token → c.ticker k ro rn = .ok (some t) := by
    intro t ht k ro rn e
    rw [C52_ticker h, e, last_of_nodup hn ht]
    rfl
  have p2 : ∀ t ∈ ts, ∀ k ro rn, lower k = t.address → c.addr k ro rn = .ok (some t) := by
    intro t ht k ro rn e
    rw [C52_address h, e, last_of_nodup ha ht]
    rfl
  have found : ∀ (key : SdkTkn → Str) (k : Str) (t : SdkTkn), answer (last key ts k) true true = .ok (some t) → t ∈ ts ∧ k = key t := by
    intro key k t e
    cases hl : last key ts k with
    | none => rw [hl] at e; cases e
    | some s =>
      rw [hl] at e
      have : s = t := Option.some.inj (Except.ok.inj e)
      subst this
      unfold last at hl
      have he : key s = k := by simpa using List.find?_some hl
      exact ⟨List.mem_reverse.1 (List.mem_of_find?_eq_some hl), he.symm⟩
  refine ⟨p1, p2, ?_, ?_⟩
  · intro k t e
    rw [C52_ticker h] at e
    obtain ⟨ht, hk⟩ := found _ _ _ e
    obtain ⟨a, b, d, n, hmk⟩ := hm t ht
    exact ⟨ht, hk, p2 t ht _ _ _ (made hmk).2⟩
  · intro k t e
    rw [C52_address h] at e
    obtain ⟨ht, hk⟩ := found _ _ _ e
    obtain ⟨a, b, d, n, hmk⟩ := hm t ht
    exact ⟨ht, hk, p1 t ht _ _ _ (made hmk).1⟩

/-- C52: `byaddr1` gives the token of an address, else the address in lower case. -/
theorem C52_or_address {ts : List SdkTkn} {r : Option Bool} {c : TokenC} (h : make ts r = .ok c) (a : Str) :
    (∀ t, c.addr a (some true) = .ok (some t) → c.addr1 a = .inl t ∧ c.addr1Name a = t.token) ∧
      (c.addr a (some true) = .error .key → c.addr1 a = .inr (lower a) ∧ c.addr1Name a = lower a) := by
  rw [(make_ok h).1]
  unfold addr addr1 addr1Name missing
  dsimp only
  cases dictGet (index SdkTkn.address ts) (lower a) with
  | some s =>
    refine ⟨fun t e => ?_, fun e => by cases e⟩
    have : s = t := Option.some.inj (Except.ok.inj e)
    subst this
    exact ⟨rfl, rfl⟩
  | none => exact ⟨fun t e => (by cases e), fun _ => ⟨rfl, rfl⟩⟩

/-- The token with a ticker and an address. -/
def tkn (t a : String) (d : ℤ) : SdkTkn := ⟨t.toList, a.toList, some d, t.toList⟩

/-- C52 fails: with as many double tickers as double addresses the constructor accepts the tokens. The address of the token found under
a ticker then leads to a different token, and one token is not found at all. -/
theorem C52_duplicates_violated : ∃ (ts : List SdkTkn) (c : TokenC) (a b : SdkTkn), (∀ t ∈ ts, ∃ a b d n, SdkTkn.make a b d n = .ok t) ∧
    make ts = .ok c ∧ c.ticker "A".toList = .ok (some a) ∧ c.addr a.address = .ok (some b) ∧ b.token ≠ a.token ∧ c.all.length < ts.length := by
  refine ⟨[tkn "A" "0x1" 18, tkn "A" "0x2" 6, tkn "B" "0x2" 8], ⟨true, _, _⟩, tkn "A" "0x2" 6, tkn "B" "0x2" 8, ?_, rfl, by decide, by decide,
    by decide, by decide⟩
  intro t ht
  simp only [List.mem_cons, List.not_mem_nil, or_false] at ht
  rcases ht with rfl | rfl | rfl
  · exact ⟨"a".toList, " 0x1".toList, .num 18, none, by decide⟩
  · exact ⟨"a".toList, "0X2".toList, .num 6, none, by decide⟩
  · exact ⟨"b".toList, "0x2".toList, .str " 8".toList, none, by decide⟩

/-- C52 fails: `restore` never finds a token by ticker or address, whatever containers there are. -/
theorem C52_restore_violated (k : Str) : restore (.inr k) (some true) = .error .value ∧ restore (.inr k) = .ok none := ⟨rfl, rfl⟩

/-- C52 fails: `containsall` is sensitive to the letter case. -/
theorem C52_containsall_violated : ∃ (ts : List SdkTkn) (c : TokenC) (t : SdkTkn), make ts = .ok c ∧ c.ticker "weth".toList = .ok (some t) ∧
    c.containsAll ["weth".toList] = false ∧ c.containsAll ["WETH".toList] = true :=
  ⟨[tkn "WETH" "0x1" 18], ⟨true, _, _⟩, tkn "WETH" "0x1" 18, rfl, by decide, by decide, by decide⟩

/-- C52: blank text is the empty list of tokens. -/
theorem C52_blank (r : Option Bool) (s : Str) (h : CarbonPair.strip s = []) : fromCsv s r = make [] r := by
  unfold fromCsv
  rw [h]
  rfl

/-- Two lines of a token list. -/
def csv : Str := "\nCEL, 0xAAAEbe, 4\nusdc, 0xa0b869, 6\n".toList

example : fromCsv csv = .ok ⟨true, [("CEL".toList, tkn "CEL" "0xaaaebe" 4), ("USDC".toList, tkn "USDC" "0xa0b869" 6)],
    [("0xaaaebe".toList, tkn "CEL" "0xaaaebe" 4), ("0xa0b869".toList, tkn "USDC" "0xa0b869" 6)]⟩ := by decide

example : (fromCsv csv).bind (fun c => c.addr "0xA0b869".toList) = .ok (some (tkn "USDC" "0xa0b869" 6)) := by decide

example : (fromCsv csv).bind (fun c => c.ticker "dai".toList) = .error .key := by decide

end TokenC

namespace SdkTkn

section
variable {K : Type} [Field K] [LinearOrder K] [IsStrictOrderedRing K] [FloorRing K]

theorem toInt_bound (x : K) : |((toInt x : ℤ) : K)| ≤ |x| ∧ |x - toInt x| < 1 ∧ 0 ≤ x * toInt x := by
  unfold toInt
  by_cases h : 0 ≤ x
  · rw [if_pos h]
    have h1 := Int.floor_le x
    have h2 := Int.lt_floor_add_one x
    have h3 : (0 : K) ≤ (⌊x⌋ : ℤ) := by exact_mod_cast Int.floor_nonneg.2 h
    refine ⟨?_, ?_, mul_nonneg h h3⟩
    · rw [abs_of_nonneg h3, abs_of_nonneg h]; exact h1
    · rw [abs_lt]; constructor <;> linarith
  · rw [if_neg h]
    push Not at h
    have h1 := Int.le_ceil x
    have h2 := Int.ceil_lt_add_one x
    have h3 : ((⌈x⌉ : ℤ) : K) ≤ 0 := by exact_mod_cast Int.ceil_le.2 (by simpa using h.le)
    refine ⟨?_, ?_, mul_nonneg_of_nonpos_of_nonpos h.le h3⟩
    · rw [abs_of_nonpos h3, abs_of_neg h]; linarith
    · rw [abs_lt]; constructor <;> linarith

/-- C85: converting a wei amount to tokens and back gives the amount. -/
theorem C85_round_trip (t : SdkTkn) (d : ℤ) (hd : t.decimals = some d) (w : ℤ) :
    ∃ a : K, t.w2t (w : K) = .ok a ∧ t.t2w a = .ok w := by
  have h10 : ((10 : K) ^ d) ≠ 0 := zpow_ne_zero _ (by norm_num)
  refine ⟨w / (10 : K) ^ d, by unfold w2t; rw [hd], ?_⟩
  unfold t2w
  rw [hd]
  dsimp only
  rw [div_mul_cancel₀ _ h10]
  unfold toInt
  rw [Int.floor_intCast, Int.ceil_intCast, ite_self]

/-- C85: converting a token amount to wei and back loses less than one wei, and always towards zero. -/
theorem C85_loss (t : SdkTkn) (d : ℤ) (hd : t.decimals = some d) (a : K) :
    ∃ (w : ℤ) (b : K), t.t2w a = .ok w ∧ t.w2t (w : K) = .ok b ∧ |b| ≤ |a| ∧ |a - b| < 1 / 10 ^ d ∧ 0 ≤ a * b := by
  have h10 : (0 : K) < (10 : K) ^ d := zpow_pos (by norm_num) _
  obtain ⟨h1, h2, h3⟩ := toInt_bound (a * (10 : K) ^ d)
  refine ⟨toInt (a * (10 : K) ^ d), (toInt (a * (10 : K) ^ d) : ℤ) / (10 : K) ^ d, by unfold t2w; rw [hd], by unfold w2t; rw [hd], ?_, ?_, ?_⟩
  · rw [abs_div, abs_of_pos h10, div_le_iff₀ h10]
    rwa [abs_mul, abs_of_pos h10] at h1
  · have : a - (toInt (a * (10 : K) ^ d) : ℤ) / (10 : K) ^ d = (a * (10 : K) ^ d - (toInt (a * (10 : K) ^ d) : ℤ)) / (10 : K) ^ d := by
      field_simp
    rw [this, abs_div, abs_of_pos h10]
    exact div_lt_div_of_pos_right h2 h10
  · rw [mul_div_assoc']
    apply div_nonneg _ h10.le
    rw [mul_right_comm] at h3
    exact nonneg_of_mul_nonneg_left h3 h10

/-- C85 fails: a token without decimals, which by its description has 18, cannot be converted. -/
theorem C85_default_violated (a b : Str) (n : Option Str) (t : SdkTkn) (h : make a b .absent n = .ok t) (x : K) :
    t.w2t x = .error .type ∧ t.t2w x = .error .type := by
  have hd : t.decimals = none := by
    unfold make at h
    obtain ⟨y, hy, h⟩ := Py.bind_eq_ok.1 h
    dsimp only at h
    split at h
    · cases h
    · rw [← Except.ok.inj h]
      exact (Except.ok.inj hy).symm
  unfold w2t t2w
  rw [hd]
  exact ⟨rfl, rfl⟩

end

example : (TokenC.tkn "USDC" "0xa0" 6).t2w (5 / 3 : ℚ) = .ok 1666666 := by
  unfold t2w toInt TokenC.tkn
  norm_num

example : (TokenC.tkn "USDC" "0xa0" 6).t2w (-5 / 3 : ℚ) = .ok (-1666666) := by
  unfold t2w toInt TokenC.tkn
  norm_num

end SdkTkn

end Carbon
