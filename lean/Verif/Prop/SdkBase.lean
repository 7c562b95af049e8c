import Mathlib.Tactic.Linarith
import Mathlib.Tactic.Ring
import Mathlib.Tactic.FieldSimp
import Mathlib.Tactic.NormNum
import Mathlib.Tactic.Positivity
import Verif.Prop.Token
import Verif.Sdk.Base

/-!
# C97: names and numbers on their way to the interface; C98: requests
-/

set_option linter.unusedSectionVars false

namespace Carbon.Sdk

/-! ## Numbers as text -/

theorem digitVal_digitChar : ∀ d < 16, digitVal (digitChar d) = some d ∧ digitChar d ≠ '_' ∧ digitChar d ≠ '-' ∧ digitChar d ≠ '+' ∧
    digitChar d ≠ ' ' ∧ digitChar d ≠ '\t' ∧ digitChar d ≠ '\n' ∧ digitChar d ≠ '\r' ∧ digitChar d ≠ 'x' ∧ digitChar d ≠ 'X' := by
  decide

theorem digitsGo_digits (base : ℕ) (hb : 1 < base) (hb16 : base ≤ 16) (ds : List ℕ) (hd : ∀ d ∈ ds, d < base) (acc : ℕ) (ok : Bool)
    (h : ok = true ∨ ds ≠ []) :
    digitsGo base acc ok (ds.map digitChar) = some (ds.foldl (fun a d => a * base + d) acc) := by
  induction ds generalizing acc ok with
  | nil =>
    rcases h with h | h
    · subst h; rfl
    · exact absurd rfl h
  | cons d ds ih =>
    have h1 := hd d List.mem_cons_self
    obtain ⟨hv, hu, _⟩ := digitVal_digitChar d (by omega)
    rw [List.map_cons, digitsGo, if_neg hu, hv]
    dsimp only
    rw [if_pos h1, ih (fun e he => hd e (List.mem_cons_of_mem _ he)) _ _ (Or.inl rfl)]
    rfl

theorem foldl_digits (base : ℕ) (ds : List ℕ) (acc : ℕ) :
    ds.reverse.foldl (fun a d => a * base + d) acc = acc * base ^ ds.length + Nat.ofDigits base ds := by
  induction ds generalizing acc with
  | nil => simp [Nat.ofDigits]
  | cons d ds ih =>
    rw [List.reverse_cons, List.foldl_append, ih, Nat.ofDigits_cons]
    simp only [List.foldl_cons, List.foldl_nil, List.length_cons]
    ring

/-- The digits of a number, most significant first; at least one. -/
def digs (base n : ℕ) : List ℕ := if n = 0 then [0] else (Nat.digits base n).reverse

theorem natStr_digs (base n : ℕ) : natStr base n = (digs base n).map digitChar := by
  unfold natStr digs
  split
  · rfl
  · rw [List.map_reverse]

theorem digs_lt {base n : ℕ} (hb : 1 < base) : ∀ d ∈ digs base n, d < base := by
  unfold digs
  split
  · intro d hd; rw [List.mem_singleton] at hd; omega
  · intro d hd; exact Nat.digits_lt_base hb (List.mem_reverse.mp hd)

theorem digs_ne_nil {base n : ℕ} : digs base n ≠ [] := by
  unfold digs
  split
  · simp
  · rename_i h; simpa [Nat.digits_ne_nil_iff_ne_zero] using h

theorem digs_val {base n : ℕ} : (digs base n).foldl (fun a d => a * base + d) 0 = n := by
  unfold digs
  split
  · rename_i h; simp [h]
  · rw [foldl_digits, Nat.ofDigits_digits]; simp

theorem digitsGo_natStr {base n : ℕ} (hb : 1 < base) (hb16 : base ≤ 16) : digitsGo base 0 false (natStr base n) = some n := by
  rw [natStr_digs, digitsGo_digits base hb hb16 _ (digs_lt hb) _ _ (Or.inr digs_ne_nil), digs_val]

/-- The characters `strip` removes. -/
def blank (c : Char) : Bool := c = ' ' || c = '\t' || c = '\n' || c = '\r'

theorem strip_of_not (s : Str) (h : ∀ c ∈ s, blank c = false) : CarbonPair.strip s = s := by
  have hd : ∀ t : Str, (∀ c ∈ t, blank c = false) → t.dropWhile blank = t := by
    intro t ht
    cases t with
    | nil => rfl
    | cons c t => rw [List.dropWhile_cons_of_neg]; rw [ht c List.mem_cons_self]; decide
  show ((s.dropWhile blank).reverse.dropWhile blank).reverse = s
  rw [hd s h, hd _ (fun c hc => h c (List.mem_reverse.mp hc)), List.reverse_reverse]

theorem natStr_plain {base n : ℕ} (hb : 1 < base) (hb16 : base ≤ 16) : ∀ c ∈ natStr base n, blank c = false ∧ c ≠ '-' ∧ c ≠ '+' := by
  intro c hc
  rw [natStr_digs, List.mem_map] at hc
  obtain ⟨d, hd, rfl⟩ := hc
  obtain ⟨_, _, h1, h2, h3, h4, h5, h6, _⟩ := digitVal_digitChar d (lt_of_lt_of_le (digs_lt hb d hd) hb16)
  exact ⟨by simp [blank, h3, h4, h5, h6], h1, h2⟩

theorem unsignedInt_hex (n : ℕ) : unsignedInt 16 ('0' :: 'x' :: natStr 16 n) = some n := by
  have h := digitsGo_natStr (base := 16) (n := n) (by norm_num) (by norm_num)
  show (if 16 = 16 ∧ ('x' = 'x' ∨ 'x' = 'X') then
      (match natStr 16 n with
      | '_' :: u => digitsGo 16 0 false u
      | _ => digitsGo 16 0 false (natStr 16 n))
    else digitsGo 16 0 false ('0' :: 'x' :: natStr 16 n)) = some n
  rw [if_pos ⟨rfl, Or.inl rfl⟩]
  have hu : ∀ u, natStr 16 n ≠ '_' :: u := by
    intro u hu
    have : '_' ∈ natStr 16 n := by rw [hu]; exact List.mem_cons_self
    rw [natStr_digs, List.mem_map] at this
    obtain ⟨d, hd, he⟩ := this
    exact (digitVal_digitChar d (digs_lt (by norm_num) d hd)).2.1 he
  split
  · rename_i u hu'; exact absurd hu' (hu u)
  · exact h

theorem unsignedInt_dec (n : ℕ) : unsignedInt 10 (natStr 10 n) = some n := by
  have h := digitsGo_natStr (base := 10) (n := n) (by norm_num) (by norm_num)
  unfold unsignedInt
  split
  · rw [if_neg (by simp)]; exact h
  · exact h

/-- **C97** The text of an integer reads back as the integer: `hex` in base sixteen. -/
theorem pyInt_hexStr (i : ℤ) : pyInt 16 (hexStr i) = some i := by
  have hp : ∀ c ∈ hexStr i, blank c = false := by
    intro c hc
    have hn := natStr_plain (base := 16) (n := i.natAbs) (by norm_num) (by norm_num)
    unfold hexStr at hc
    split at hc
    · rcases List.mem_cons.mp hc with rfl | hc
      · rfl
      rcases List.mem_cons.mp hc with rfl | hc
      · rfl
      rcases List.mem_cons.mp hc with rfl | hc
      · rfl
      exact (hn c hc).1
    · rcases List.mem_cons.mp hc with rfl | hc
      · rfl
      rcases List.mem_cons.mp hc with rfl | hc
      · rfl
      exact (hn c hc).1
  unfold pyInt
  rw [strip_of_not _ hp]
  unfold hexStr
  by_cases hi : i < 0
  · rw [if_pos hi]
    show Option.map (fun n : ℤ => -n) ((unsignedInt 16 ('0' :: 'x' :: natStr 16 i.natAbs)).bind fun a => some (a : ℤ)) = some i
    rw [unsignedInt_hex]
    show some _ = some i
    congr 1
    dsimp only
    omega
  · rw [if_neg hi]
    show Option.map (fun n : ℤ => n) ((unsignedInt 16 ('0' :: 'x' :: natStr 16 i.natAbs)).bind fun a => some (a : ℤ)) = some i
    rw [unsignedInt_hex]
    show some _ = some i
    congr 1
    dsimp only
    omega

theorem pyInt_intStr (i : ℤ) : pyInt 10 (intStr i) = some i := by
  have hn := natStr_plain (base := 10) (n := i.natAbs) (by norm_num) (by norm_num)
  have hp : ∀ c ∈ intStr i, blank c = false := by
    intro c hc
    unfold intStr at hc
    split at hc
    · rcases List.mem_cons.mp hc with rfl | hc
      · rfl
      exact (hn c hc).1
    · exact (hn c hc).1
  unfold pyInt
  rw [strip_of_not _ hp]
  unfold intStr
  by_cases hi : i < 0
  · rw [if_pos hi]
    show Option.map (fun n : ℤ => -n) ((unsignedInt 10 (natStr 10 i.natAbs)).bind fun a => some (a : ℤ)) = some i
    rw [unsignedInt_dec]
    show some _ = some i
    congr 1
    dsimp only
    omega
  · rw [if_neg hi]
    split
    · rename_i t ht
      exact absurd rfl (hn '-' (by rw [ht]; exact List.mem_cons_self)).2.1
    · rename_i t ht
      exact absurd rfl (hn '+' (by rw [ht]; exact List.mem_cons_self)).2.2
    · rw [unsignedInt_dec]
      show some ((i.natAbs : ℕ) : ℤ) = some i
      congr 1
      omega

section
variable {K : Type} [Field K] [LinearOrder K] [FloorRing K]

/-- **C97** Every integer, negative ones too, becomes a big number that reads back as the same integer, and a text that reads back as it. -/
theorem C97_integers (i : ℤ) : bn2int (int2bn (.inl i : ℤ ⊕ K)) = .ok (.int i) ∧
    ∃ s, int2str (.int i : Val K) = .str s ∧ pyInt 10 s = some i := by
  constructor
  · have h1 : dictGet [("type".toList, "BigNumber".toList), ("hex".toList, hexStr i)] "type".toList = some "BigNumber".toList := by
      simp [dictGet]
    have h2 : dictGet [("type".toList, "BigNumber".toList), ("hex".toList, hexStr i)] "hex".toList = some (hexStr i) := by
      simp [dictGet]
    unfold int2bn bn2int
    dsimp only [Sum.elim_inl, id]
    rw [if_neg (by rw [h1]; simp), h2]
    dsimp only
    rw [pyInt_hexStr]
  · exact ⟨intStr i, rfl, pyInt_intStr i⟩

/-- What is not an integer of either form is handed on as it is. -/
def Plain : Val K → Prop
  | .int _ => False
  | .dict d => dictGet d "type".toList ≠ some "BigNumber".toList
  | _ => True

/-- **C97** A dictionary of big numbers and other entries is read entry by entry: same keys, the integers in their places, everything else
unchanged. -/
theorem C97_entries (d : List (Str × (ℤ ⊕ Val K))) (hd : ∀ kv ∈ d, ∀ v, kv.2 = .inr v → Plain v) :
    bn2intd (d.map fun kv => (kv.1, kv.2.elim (fun i => int2bn (.inl i)) id)) = .ok (d.map fun kv => (kv.1, kv.2.elim Val.int id)) ∧
      (int2strd (d.map fun kv => (kv.1, kv.2.elim Val.int id))).map Prod.fst = d.map Prod.fst ∧
      ∀ kv ∈ d, ∀ v, kv.2 = .inr v → int2str v = v := by
  refine ⟨?_, by simp [int2strd, Function.comp_def], ?_⟩
  · induction d with
    | nil => rfl
    | cons kv d ih =>
      have ih' := ih fun kv h => hd kv (List.mem_cons_of_mem _ h)
      unfold bn2intd at ih' ⊢
      rw [List.map_cons, List.mapM_cons, ih']
      obtain ⟨k, v⟩ := kv
      cases v with
      | inl i =>
        dsimp only [Sum.elim_inl]
        rw [(C97_integers i).1]
        rfl
      | inr v =>
        have hp := hd (k, .inr v) List.mem_cons_self v rfl
        have : bn2int v = .ok v := by
          cases v with
          | dict e => exact if_pos hp
          | _ => rfl
        dsimp only [Sum.elim_inr, id]
        rw [this]
        rfl
  · intro kv hkv v hv
    have hp := hd kv hkv v hv
    cases v with
    | int n => exact hp.elim
    | _ => rfl

end

/-! ## Significant digits -/

section
variable {K : Type} [Field K] [LinearOrder K] [IsStrictOrderedRing K] [FloorRing K]

theorem roundHE_err (x : K) : |(roundHE x : K) - x| ≤ 1 / 2 := by
  have h1 := Int.floor_le x
  have h2 := Int.lt_floor_add_one x
  unfold roundHE
  rw [abs_le]
  split_ifs <;> push_cast <;> constructor <;> linarith

theorem roundHE_floor (x : K) : ⌊x⌋ ≤ roundHE x ∧ roundHE x ≤ ⌊x⌋ + 1 := by
  unfold roundHE
  split_ifs <;> omega

theorem roundHE_int (n : ℤ) : roundHE (n : K) = n := by
  unfold roundHE
  rw [Int.floor_intCast, sub_self, if_pos (by norm_num)]

theorem roundHE_mono {x y : K} (h : x ≤ y) : roundHE x ≤ roundHE y := by
  rcases (Int.floor_mono h).lt_or_eq with hf | hf
  · have := (roundHE_floor x).2
    have := (roundHE_floor y).1
    omega
  · unfold roundHE
    rw [← hf]
    split_ifs <;> first | omega | linarith

/-- The unit `roundsd` rounds to. -/
def unit (x : K) (nsd : ℤ) : K := if Int.log 10 x ≤ nsd then 10 ^ (Int.log 10 x + 1 - nsd) else 10 ^ (Int.log 10 x - nsd)

theorem unit_pos (x : K) (nsd : ℤ) : 0 < unit x nsd := by
  unfold unit
  split_ifs <;> positivity

theorem roundsd_eq {x : K} (hx : 0 < x) (nsd : ℤ) : roundsd x nsd = roundHE (x / unit x nsd) * unit x nsd := by
  unfold roundsd unit roundTo
  rw [if_neg (not_le.mpr hx)]
  dsimp only
  have h10 : (10 : K) ≠ 0 := by norm_num
  by_cases h : Int.log 10 x ≤ nsd
  · rw [if_pos h, if_pos h]
    have : (10 : K) ^ (nsd - Int.log 10 x - 1) = (10 ^ (Int.log 10 x + 1 - nsd))⁻¹ := by
      rw [← zpow_neg]; congr 1; ring
    rw [this, div_inv_eq_mul, div_eq_mul_inv]
  · rw [if_neg h, if_neg h, zpow_zero, mul_one, div_one, mul_comm]

theorem log_le {x : K} (hx : 0 < x) : (10 : K) ^ Int.log 10 x ≤ x := by
  have := Int.zpow_log_le_self (b := 10) (by norm_num) hx
  simpa using this

theorem lt_log (x : K) : x < (10 : K) ^ (Int.log 10 x + 1) := by
  have := Int.lt_zpow_succ_log_self (b := 10) (by norm_num) x
  simpa using this

theorem unit_le {x : K} (hx : 0 < x) (nsd : ℤ) : unit x nsd ≤ x * 10 ^ (1 - nsd) := by
  have h10 : (10 : K) ≠ 0 := by norm_num
  have h1 := log_le hx
  have hp : (0 : K) < 10 ^ (1 - nsd) := by positivity
  calc unit x nsd ≤ 10 ^ (Int.log 10 x + 1 - nsd) := by
        unfold unit
        split_ifs
        · exact le_refl _
        · exact zpow_le_zpow_right₀ (by norm_num) (by omega)
    _ = 10 ^ Int.log 10 x * 10 ^ (1 - nsd) := by rw [← zpow_add₀ h10]; congr 1; ring
    _ ≤ x * 10 ^ (1 - nsd) := mul_le_mul_of_nonneg_right h1 hp.le

/-- **C97** Rounding to `n` significant digits changes a value by at most half a unit of the `n`-th digit. -/
theorem C97_round_error (x : K) (n : ℤ) : |roundsd x n - x| ≤ |x| * 10 ^ (1 - n) / 2 := by
  by_cases hx : 0 < x
  · have hu := unit_pos x n
    rw [roundsd_eq hx, abs_of_pos hx]
    have e : (roundHE (x / unit x n) : K) * unit x n - x = ((roundHE (x / unit x n) : K) - x / unit x n) * unit x n := by
      field_simp
    rw [e, abs_mul, abs_of_pos hu]
    have h1 := mul_le_mul_of_nonneg_right (roundHE_err (x / unit x n)) hu.le
    have h2 := unit_le hx n
    linarith
  · unfold roundsd
    rw [if_pos (not_lt.mp hx), sub_self, abs_zero]
    positivity

theorem decade {x : K} (hx : 0 < x) {n : ℤ} (hn : 1 ≤ n) : (10 : K) ^ Int.log 10 x ≤ roundsd x n ∧ roundsd x n ≤ 10 ^ (Int.log 10 x + 1) := by
  have h10 : (10 : K) ≠ 0 := by norm_num
  have hu := unit_pos x n
  have key : ∃ k : ℕ, (10 : K) ^ Int.log 10 x = ((10 ^ k : ℤ) : K) * unit x n := by
    unfold unit
    split_ifs with h
    · refine ⟨(n - 1).toNat, ?_⟩
      push_cast
      rw [← zpow_natCast, ← zpow_add₀ h10]
      congr 1
      omega
    · refine ⟨n.toNat, ?_⟩
      push_cast
      rw [← zpow_natCast, ← zpow_add₀ h10]
      congr 1
      omega
  obtain ⟨k, hk⟩ := key
  have hk1 : (10 : K) ^ (Int.log 10 x + 1) = ((10 ^ (k + 1) : ℤ) : K) * unit x n := by
    rw [zpow_add₀ h10, hk]; push_cast; ring
  rw [roundsd_eq hx, hk1, hk]
  constructor
  · refine mul_le_mul_of_nonneg_right ?_ hu.le
    have : ((10 ^ k : ℤ) : K) ≤ x / unit x n := by rw [le_div_iff₀ hu, ← hk]; exact log_le hx
    have := roundHE_mono this
    rw [roundHE_int] at this
    exact_mod_cast this
  · refine mul_le_mul_of_nonneg_right ?_ hu.le
    have : x / unit x n ≤ ((10 ^ (k + 1) : ℤ) : K) := by rw [div_le_iff₀ hu, ← hk1]; exact (lt_log x).le
    have := roundHE_mono this
    rw [roundHE_int] at this
    exact_mod_cast this

theorem log_mono {x y : K} (hx : 0 < x) (h : x ≤ y) : Int.log 10 x ≤ Int.log 10 y := Int.log_mono_right hx h

/-- **C97** Rounding to significant digits keeps the order of values, so that the low price of a range does not pass the high one, and
keeps signs. -/
theorem C97_round_mono {x y : K} (h : x ≤ y) {n : ℤ} (hn : 1 ≤ n) : roundsd x n ≤ roundsd y n ∧ (0 < x ↔ 0 < roundsd x n) := by
  have hpos : ∀ z : K, 0 < z → 0 < roundsd z n := fun z hz => lt_of_lt_of_le (by positivity) (decade hz hn).1
  have hneg : ∀ z : K, ¬ 0 < z → roundsd z n = z := by
    intro z hz
    unfold roundsd
    rw [if_pos (not_lt.mp hz)]
  refine ⟨?_, hpos x, fun hr => ?_⟩
  · by_cases hx : 0 < x
    · have hy : 0 < y := lt_of_lt_of_le hx h
      rcases (log_mono hx h).lt_or_eq with hl | hl
      · calc roundsd x n ≤ 10 ^ (Int.log 10 x + 1) := (decade hx hn).2
          _ ≤ 10 ^ Int.log 10 y := zpow_le_zpow_right₀ (by norm_num) (by omega)
          _ ≤ roundsd y n := (decade hy hn).1
      · have hu : unit y n = unit x n := by unfold unit; rw [hl]
        rw [roundsd_eq hx, roundsd_eq hy, hu]
        refine mul_le_mul_of_nonneg_right ?_ (unit_pos x n).le
        exact_mod_cast roundHE_mono (div_le_div_of_nonneg_right h (unit_pos x n).le)
    · rw [hneg x hx]
      by_cases hy : 0 < y
      · exact le_trans (not_lt.mp hx) (hpos y hy).le
      · rw [hneg y hy]; exact h
  · by_contra hx
    rw [hneg x hx] at hr
    exact hx hr

/-- **C97** A positive value below `10 ^ (n + 1)` comes out with at most `n` significant digits: as a whole number of units of the `n`-th
digit. -/
theorem C97_round_digits_partial {x : K} {m n : ℤ} (h1 : 10 ^ m ≤ x) (h2 : x < 10 ^ (m + 1)) (hm : m ≤ n) :
    ∃ k : ℤ, roundsd x n = k * 10 ^ (m + 1 - n) := by
  have hx : 0 < x := lt_of_lt_of_le (by positivity) h1
  have hl : Int.log 10 x = m := by
    have a : Int.log 10 x < m + 1 := (zpow_lt_zpow_iff_right₀ (a := (10 : K)) (by norm_num)).mp (lt_of_le_of_lt (log_le hx) h2)
    have b : m < Int.log 10 x + 1 := (zpow_lt_zpow_iff_right₀ (a := (10 : K)) (by norm_num)).mp (lt_of_le_of_lt h1 (lt_log x))
    omega
  refine ⟨roundHE (x / unit x n), ?_⟩
  rw [roundsd_eq hx]
  unfold unit
  rw [hl, if_pos hm]

theorem log_eq {x : K} {m : ℤ} (h1 : 10 ^ m ≤ x) (h2 : x < 10 ^ (m + 1)) : Int.log 10 x = m := by
  have hx : 0 < x := lt_of_lt_of_le (by positivity) h1
  have a : Int.log 10 x < m + 1 := (zpow_lt_zpow_iff_right₀ (a := (10 : K)) (by norm_num)).mp (lt_of_le_of_lt (log_le hx) h2)
  have b : m < Int.log 10 x + 1 := (zpow_lt_zpow_iff_right₀ (a := (10 : K)) (by norm_num)).mp (lt_of_le_of_lt h1 (lt_log x))
  omega

theorem roundHE_of_near {x : K} {n : ℤ} (h : |x - n| < 1 / 2) : roundHE x = n := by
  have h1 := roundHE_err x
  rw [abs_le] at h1
  rw [abs_lt] at h
  have a : ((roundHE x : ℤ) : K) < ((n + 1 : ℤ) : K) := by push_cast; linarith [h1.2, h.2]
  have b : ((n : ℤ) : K) < ((roundHE x + 1 : ℤ) : K) := by push_cast; linarith [h1.1, h.1]
  have := Int.cast_lt.mp a
  have := Int.cast_lt.mp b
  omega

/-- **C97** fails for larger values, which keep one digit more, and for negative values, which are not rounded at all: with six digits
12345678 becomes 12345680, while -1.23456789 stays. -/
theorem C97_round_digits_violated : roundsd (12345678 : K) 6 = 12345680 ∧ (∀ k : ℤ, (k : K) * 10 ^ ((7 : ℤ) + 1 - 6) ≠ 12345680) ∧
    roundsd (-123456789 / 100000000 : K) 6 = -123456789 / 100000000 := by
  refine ⟨?_, ?_, ?_⟩
  · have hl : Int.log 10 (12345678 : K) = 7 := log_eq (by norm_num) (by norm_num)
    rw [roundsd_eq (by norm_num)]
    have hu : unit (12345678 : K) 6 = 10 := by unfold unit; rw [hl]; norm_num
    rw [hu, roundHE_of_near (n := 1234568) (by rw [abs_lt]; constructor <;> norm_num)]
    norm_num
  · intro k hk
    have : ((k * 100 : ℤ) : K) = ((12345680 : ℤ) : K) := by push_cast; rw [← hk]; norm_num
    have := Int.cast_injective this
    omega
  · unfold roundsd
    rw [if_pos (by norm_num)]

example : roundsd (123456789 / 100000 : ℚ) 6 = 123457 / 100 := by
  have hl : Int.log 10 (123456789 / 100000 : ℚ) = 3 := log_eq (by norm_num) (by norm_num)
  rw [roundsd_eq (by norm_num)]
  have hu : unit (123456789 / 100000 : ℚ) 6 = 1 / 100 := by unfold unit; rw [hl]; norm_num
  rw [hu, roundHE_of_near (n := 123457) (by rw [abs_lt]; constructor <;> norm_num)]
  norm_num

end

/-! ## Names -/

/-- Lower-case letters. -/
def Low (c : Char) : Prop := 'a'.val ≤ c.val ∧ c.val ≤ 'z'.val

/-- Upper-case letters. -/
def Upp (c : Char) : Prop := 'A'.val ≤ c.val ∧ c.val ≤ 'Z'.val

theorem upp_iff (c : Char) : c.isUpper = true ↔ Upp c := by
  unfold Char.isUpper Upp
  simp

theorem low_iff (c : Char) : c.isLower = true ↔ Low c := by
  unfold Char.isLower Low
  simp

theorem not_both {c : Char} (h : Low c) : ¬ Upp c := by
  intro h'
  have h1 : (97 : UInt32) ≤ c.val := h.1
  have h2 : c.val ≤ (90 : UInt32) := h'.2
  have h3 := UInt32.le_iff_toNat_le.mp h1
  have h4 := UInt32.le_iff_toNat_le.mp h2
  have e1 : (97 : UInt32).toNat = 97 := rfl
  have e2 : (90 : UInt32).toNat = 90 := rfl
  omega

theorem toLower_low {c : Char} (h : Low c) : c.toLower = c := toLower_of_not (not_both h)

theorem toUpper_upp {c : Char} (h : Upp c) : c.toUpper = c := Carbon.toUpper_of_not (fun h' => not_both h' h)

theorem toLower_upp {c : Char} (h : Upp c) : Low c.toLower := by
  unfold Char.toLower
  rw [dif_pos (show c.val ≥ 'A'.val ∧ c.val ≤ 'Z'.val from h)]
  have h1 := UInt32.le_iff_toNat_le.mp h.1
  have h2 := UInt32.le_iff_toNat_le.mp h.2
  have e1 : 'A'.val.toNat = 65 := rfl
  have e2 : 'Z'.val.toNat = 90 := rfl
  constructor
  · rw [UInt32.le_iff_toNat_le]
    show 97 ≤ (c.val + ('a'.val - 'A'.val)).toNat
    rw [UInt32.toNat_add]
    have : ('a'.val - 'A'.val).toNat = 32 := rfl
    omega
  · rw [UInt32.le_iff_toNat_le]
    show (c.val + ('a'.val - 'A'.val)).toNat ≤ 122
    rw [UInt32.toNat_add]
    have : ('a'.val - 'A'.val).toNat = 32 := rfl
    omega

theorem low_ne {c : Char} (h : Low c) : c ≠ '_' := by
  rintro rfl
  exact absurd h.1 (by decide)

theorem upp_ne {c : Char} (h : Upp c) : c ≠ '_' := by
  rintro rfl
  exact absurd h.2 (by decide)

theorem alpha_low {c : Char} (h : Low c) : c.isAlpha = true := by
  unfold Char.isAlpha
  rw [(low_iff c).mpr h, Bool.or_true]

theorem titleGo_low (w : Str) (h : ∀ c ∈ w, Low c) : titleGo true w = w := by
  induction w with
  | nil => rfl
  | cons c w ih =>
    have hc := h c List.mem_cons_self
    rw [titleGo, if_pos (alpha_low hc), if_pos rfl, toLower_low hc, ih fun c hc => h c (List.mem_cons_of_mem _ hc)]

theorem split_letters (t : Str) (h : ∀ c ∈ t, Low c ∨ Upp c) : ∃ w ws, TokenC.splitChar '_' (t.flatMap snakeChar) = w :: ws ∧
    (∀ c ∈ w, Low c) ∧ w ++ (ws.map (titleGo false)).flatten = t := by
  induction t with
  | nil => exact ⟨[], [], rfl, by simp, rfl⟩
  | cons c t ih =>
    obtain ⟨w, ws, h1, h2, h3⟩ := ih fun c hc => h c (List.mem_cons_of_mem _ hc)
    rw [List.flatMap_cons]
    rcases h c List.mem_cons_self with hc | hc
    · have e : snakeChar c = [c] := by
        unfold snakeChar; rw [if_neg]; rw [upp_iff]; exact not_both hc
      refine ⟨c :: w, ws, ?_, ?_, ?_⟩
      · rw [e, List.singleton_append, TokenC.splitChar, if_neg (low_ne hc), h1]
      · intro d hd
        rcases List.mem_cons.mp hd with rfl | hd
        · exact hc
        · exact h2 d hd
      · rw [List.cons_append, h3]
    · have hl := toLower_upp hc
      have e : snakeChar c = ['_', c.toLower] := by
        unfold snakeChar; rw [if_pos]; rw [upp_iff]; exact hc
      refine ⟨[], (c.toLower :: w) :: ws, ?_, by simp, ?_⟩
      · rw [e, List.cons_append, List.singleton_append, TokenC.splitChar, if_pos rfl, TokenC.splitChar, if_neg (low_ne hl), h1]
      · rw [List.nil_append, List.map_cons, List.flatten_cons, titleGo, if_pos (alpha_low hl), if_neg (by decide), titleGo_low w h2,
          toUpper_toLower, toUpper_upp hc, List.cons_append, h3]

/-- **C97** A name of letters that begins with a small one comes back from its form with underscores; in particular no two such names have
the same form. -/
theorem C97_names (s : Str) (h : ∀ c ∈ s, c.isLower ∨ c.isUpper) (h0 : ∀ c ∈ s.head?, c.isLower) : s2c (c2s s) = s := by
  have h' : ∀ c ∈ s, Low c ∨ Upp c := fun c hc => (h c hc).imp (low_iff c).mp (upp_iff c).mp
  cases s with
  | nil => rfl
  | cons c s =>
    have hc : Low c := (low_iff c).mp (h0 c rfl)
    have e : snakeChar c = [c] := by
      unfold snakeChar; rw [if_neg]; rw [upp_iff]; exact not_both hc
    have hd : c2s (c :: s) = (c :: s).flatMap snakeChar := by
      unfold c2s
      rw [List.flatMap_cons, e, List.singleton_append, List.dropWhile_cons_of_neg]
      simpa using low_ne hc
    obtain ⟨w, ws, h1, _, h3⟩ := split_letters (c :: s) h'
    unfold s2c
    rw [hd, h1]
    exact h3

theorem C97_names_distinct (s t : Str) (hs : ∀ c ∈ s, c.isLower ∨ c.isUpper) (hs0 : ∀ c ∈ s.head?, c.isLower)
    (ht : ∀ c ∈ t, c.isLower ∨ c.isUpper) (ht0 : ∀ c ∈ t.head?, c.isLower) (h : c2s s = c2s t) : s = t := by
  rw [← C97_names s hs hs0, ← C97_names t ht ht0, h]

theorem flatMap_low (w : Str) (h : ∀ c ∈ w, Low c) : w.flatMap snakeChar = w := by
  induction w with
  | nil => rfl
  | cons c w ih =>
    have e : snakeChar c = [c] := by
      unfold snakeChar; rw [if_neg]; rw [upp_iff]; exact not_both (h c List.mem_cons_self)
    rw [List.flatMap_cons, e, ih fun c hc => h c (List.mem_cons_of_mem _ hc)]
    rfl

theorem split_join (w : Str) (ws : List Str) (hw : ∀ c ∈ w, c ≠ '_') (hws : ∀ v ∈ ws, ∀ c ∈ v, c ≠ '_') :
    TokenC.splitChar '_' (w ++ (ws.map fun v => '_' :: v).flatten) = w :: ws := by
  induction w with
  | nil =>
    induction ws with
    | nil => rfl
    | cons v ws ih =>
      have ih' := ih fun v hv => hws v (List.mem_cons_of_mem _ hv)
      rw [List.nil_append] at ih' ⊢
      rw [List.map_cons, List.flatten_cons, List.cons_append, TokenC.splitChar, if_pos rfl]
      congr 1
      have hv := hws v List.mem_cons_self
      clear ih
      induction v with
      | nil => exact ih'
      | cons c v ihv =>
        rw [List.cons_append, TokenC.splitChar, if_neg (hv c List.mem_cons_self),
          ihv (fun u hu => by
            rcases List.mem_cons.mp hu with rfl | hu
            · exact fun c hc => hv c (List.mem_cons_of_mem _ hc)
            · exact hws u (List.mem_cons_of_mem _ hu)) (fun c hc => hv c (List.mem_cons_of_mem _ hc))]
  | cons c w ih =>
    rw [List.cons_append, TokenC.splitChar, if_neg (hw c List.mem_cons_self), ih fun c hc => hw c (List.mem_cons_of_mem _ hc)]

theorem toUpper_low {c : Char} (h : Low c) : Upp c.toUpper := by
  unfold Char.toUpper
  rw [dif_pos (show 'a'.val ≤ c.val ∧ c.val ≤ 'z'.val from h)]
  have h1 := UInt32.le_iff_toNat_le.mp h.1
  have h2 := UInt32.le_iff_toNat_le.mp h.2
  have e1 : 'a'.val.toNat = 97 := rfl
  have e2 : 'z'.val.toNat = 122 := rfl
  have e3 : ('A'.val - 'a'.val).toNat = 4294967264 := rfl
  constructor
  · rw [UInt32.le_iff_toNat_le]
    show 65 ≤ (c.val + ('A'.val - 'a'.val)).toNat
    rw [UInt32.toNat_add]
    omega
  · rw [UInt32.le_iff_toNat_le]
    show (c.val + ('A'.val - 'a'.val)).toNat ≤ 90
    rw [UInt32.toNat_add]
    omega

/-- **C97** Conversely, small words with single underscores between them come back from the name with capitals. -/
theorem C97_words (w : Str) (ws : List Str) (hw : w ≠ [] ∧ ∀ c ∈ w, c.isLower) (hws : ∀ v ∈ ws, v ≠ [] ∧ ∀ c ∈ v, c.isLower) :
    c2s (s2c (w ++ (ws.map fun v => '_' :: v).flatten)) = w ++ (ws.map fun v => '_' :: v).flatten := by
  have hl : ∀ c ∈ w, Low c := fun c hc => (low_iff c).mp (hw.2 c hc)
  have hls : ∀ v ∈ ws, ∀ c ∈ v, Low c := fun v hv c hc => (low_iff c).mp ((hws v hv).2 c hc)
  have hsplit := split_join w ws (fun c hc => low_ne (hl c hc)) (fun v hv c hc => low_ne (hls v hv c hc))
  have hflat : ((ws.map (titleGo false)).flatten).flatMap snakeChar = (ws.map fun v => '_' :: v).flatten := by
    clear hsplit
    induction ws with
    | nil => rfl
    | cons v ws ih =>
      rw [List.map_cons, List.flatten_cons, List.flatMap_append, ih (fun v hv => hws v (List.mem_cons_of_mem _ hv))
        (fun v hv => hls v (List.mem_cons_of_mem _ hv)), List.map_cons, List.flatten_cons]
      congr 1
      have hv := hls v List.mem_cons_self
      cases v with
      | nil => exact absurd rfl (hws [] List.mem_cons_self).1
      | cons c v =>
        have hc := hv c List.mem_cons_self
        have hr : ∀ c ∈ v, Low c := fun c hc => hv c (List.mem_cons_of_mem _ hc)
        rw [titleGo, if_pos (alpha_low hc), if_neg (by decide), titleGo_low v hr, List.flatMap_cons, flatMap_low v hr]
        unfold snakeChar
        rw [if_pos ((upp_iff _).mpr (toUpper_low hc)), toLower_toUpper, toLower_low hc]
        rfl
  unfold s2c
  rw [hsplit]
  dsimp only
  unfold c2s
  rw [List.flatMap_append, flatMap_low w hl, hflat]
  cases w with
  | nil => exact absurd rfl hw.1
  | cons c w =>
    rw [List.cons_append, List.dropWhile_cons_of_neg]
    simpa using low_ne (hl c List.mem_cons_self)

/-- **C97** fails for names with digits. -/
theorem C97_digits_violated : s2c (c2s "getX2y".toList) ≠ "getX2y".toList := by decide

example : c2s "getRateLiquidityDepthByPair".toList = "get_rate_liquidity_depth_by_pair".toList := by decide

/-! ## Paths -/

/-- Without a slash at the end. -/
def trimR (s : Str) : Str := if s.getLast? = some '/' then s.dropLast else s

/-- Without a slash at the beginning. -/
def trimL : Str → Str
  | [] => []
  | c :: s => if c = '/' then s else c :: s

theorem join_eq {a b : Str} (ha : a ≠ []) (hb : b ≠ []) : join a b = .ok (trimR a ++ '/' :: trimL b) := by
  obtain ⟨l, hl⟩ : ∃ l, a.getLast? = some l := ⟨a.getLast ha, List.getLast?_eq_some_getLast ha⟩
  cases b with
  | nil => exact absurd rfl hb
  | cons c b =>
    unfold join trimR trimL
    rw [hl]
    dsimp only
    by_cases h : l = '/'
    · rw [if_pos h, if_pos (show some l = some '/' by rw [h])]
    · rw [if_neg h, if_neg (show ¬ some l = some '/' by simpa using h)]

/-- **C97** Whether or not the first part ends with a slash and the second begins with one, there is one slash between them. -/
theorem C97_join {a b : Str} (ha : a ≠ []) (hb : b ≠ []) (ha' : a.getLast? ≠ some '/') (hb' : b.head? ≠ some '/') :
    ∀ x ∈ [a, a ++ ['/']], ∀ y ∈ [b, '/' :: b], join x y = .ok (a ++ '/' :: b) := by
  have hx : ∀ x ∈ [a, a ++ ['/']], x ≠ [] ∧ trimR x = a := by
    intro x hx
    simp only [List.mem_cons, List.not_mem_nil, or_false] at hx
    rcases hx with rfl | rfl
    · exact ⟨ha, if_neg ha'⟩
    · refine ⟨by simp, ?_⟩
      unfold trimR
      rw [if_pos (by simp), List.dropLast_concat]
  have hy : ∀ y ∈ [b, '/' :: b], y ≠ [] ∧ trimL y = b := by
    intro y hy
    simp only [List.mem_cons, List.not_mem_nil, or_false] at hy
    rcases hy with rfl | rfl
    · refine ⟨hb, ?_⟩
      cases y with
      | nil => rfl
      | cons c y => exact if_neg (by simpa using hb')
    · exact ⟨by simp, rfl⟩
  intro x h y h'
  rw [join_eq (hx x h).1 (hy y h').1, (hx x h).2, (hy y h').2]

/-- **C97** fails for more than one slash, of which one is removed. -/
theorem C97_join_violated : join "http://localhost//".toList "api".toList = .ok "http://localhost//api".toList := by decide

/-- **C97** The order of joining does not matter. -/
theorem C97_join_assoc {a b c : Str} (ha : a ≠ []) (hb : b ≠ []) (hc : c ≠ []) :
    ∃ ab bc abc, join a b = .ok ab ∧ join b c = .ok bc ∧ join ab c = .ok abc ∧ join a bc = .ok abc := by
  refine ⟨_, _, trimR (trimR a ++ '/' :: trimL b) ++ '/' :: trimL c, join_eq ha hb, join_eq hb hc, join_eq (by simp) hc, ?_⟩
  rw [join_eq ha (by simp)]
  congr 1
  have key : trimR (trimR a ++ '/' :: trimL b) ++ ['/'] = trimR a ++ '/' :: trimL (trimR b ++ ['/']) := by
    cases b with
    | nil => exact absurd rfl hb
    | cons x b =>
      rcases List.eq_nil_or_concat b with rfl | ⟨b, y, rfl⟩
      · by_cases hx : x = '/'
        · subst hx
          have e1 : trimL ['/'] = [] := rfl
          have e2 : trimR ['/'] = [] := rfl
          rw [e1, e2]
          unfold trimR
          rw [if_pos (by simp), List.dropLast_concat]
          rfl
        · have e1 : trimL [x] = [x] := if_neg hx
          have e2 : trimR [x] = [x] := by unfold trimR; rw [if_neg]; simpa using hx
          have e3 : trimL ([x] ++ ['/']) = [x] ++ ['/'] := if_neg hx
          rw [e1, e2, e3]
          have e4 : trimR (trimR a ++ ['/', x]) = trimR a ++ ['/', x] := by
            rw [show trimR (trimR a ++ ['/', x]) = if (trimR a ++ ['/', x]).getLast? = some '/' then _ else _ from rfl, if_neg]
            rw [show trimR a ++ ['/', x] = (trimR a ++ ['/']) ++ [x] by simp, List.getLast?_concat]
            simpa using hx
          rw [e4]
          simp
      · have e : ∀ u : Str, trimR (u ++ [y]) = if y = '/' then u else u ++ [y] := by
          intro u
          unfold trimR
          rw [List.getLast?_concat, List.dropLast_concat]
          by_cases hy : y = '/'
          · rw [if_pos (by rw [hy]), if_pos hy]
          · rw [if_neg (by simpa using hy), if_neg hy]
        have e' : ∀ u : Str, trimL (x :: u) = if x = '/' then u else x :: u := fun u => rfl
        have h1 := e (trimR a ++ '/' :: (if x = '/' then b else x :: b))
        have h2 := e (x :: b)
        rw [List.cons_append] at h2
        rw [List.concat_eq_append, h2, e']
        have h3 : trimR a ++ '/' :: (if x = '/' then b ++ [y] else x :: (b ++ [y])) =
            (trimR a ++ '/' :: (if x = '/' then b else x :: b)) ++ [y] := by split_ifs <;> simp
        rw [h3, h1]
        by_cases hy : y = '/'
        · rw [if_pos hy, if_pos hy, List.cons_append, e']
          split_ifs <;> simp
        · rw [if_neg hy, if_neg hy, List.cons_append, e']
          split_ifs <;> simp
  have hc' : ∀ u : Str, u ++ '/' :: trimL c = (u ++ ['/']) ++ trimL c := by intro u; simp
  rw [hc' (trimR (trimR a ++ '/' :: trimL b)), key]
  have : trimL (trimR b ++ '/' :: trimL c) = trimL (trimR b ++ ['/']) ++ trimL c := by
    cases trimR b with
    | nil => rfl
    | cons x u =>
      show (if x = '/' then _ else _) = (if x = '/' then _ else _) ++ _
      split_ifs <;> simp
  rw [this]
  simp

/-! ## Requests -/

/-- A client whose parts of the address have no slashes at their ends, as the defaults. -/
structure Neat (c : Client) : Prop where
  url : c.clsUrl ≠ []
  urlEnd : c.clsUrl.getLast? ≠ some '/'
  api : c.apibase ≠ []
  apiHead : c.apibase.head? ≠ some '/'
  apiEnd : c.apibase.getLast? ≠ some '/'

section
variable {P α : Type}

/-- Where a call goes. -/
def address (c : Client) (kind ep : Str) : Str := c.clsUrl ++ '/' :: (c.apibase ++ '/' :: (kind ++ '/' :: ep))

theorem req_eq {c : Client} (hc : Neat c) (net : Request P → Option (Resp α)) (e : P → Bool) {kind ep : Str}
    (hk : kind ≠ []) (hk' : kind.head? ≠ some '/') (p : P) :
    req c net e (kind ++ '/' :: ep) (some p) = .ok (⟨.post, address c kind ep, some p⟩,
      received (net ⟨.post, address c kind ep, some p⟩)) := by
  have h1 : join c.apibase (kind ++ '/' :: ep) = .ok (c.apibase ++ '/' :: (kind ++ '/' :: ep)) :=
    C97_join hc.api (by simp) hc.apiEnd (by cases kind with
      | nil => exact absurd rfl hk
      | cons x k => simpa using hk') _ List.mem_cons_self _ List.mem_cons_self
  have h2 : join c.clsUrl (c.apibase ++ '/' :: (kind ++ '/' :: ep)) = .ok (address c kind ep) :=
    C97_join hc.url (by simp) hc.urlEnd (by
      have h := hc.apiHead
      cases hx : c.apibase with
      | nil => exact absurd hx hc.api
      | cons x k => rw [hx] at h; simpa using h) _ List.mem_cons_self _ List.mem_cons_self
  unfold req
  rw [h1, Py.ok_bind]
  unfold req0
  dsimp only [Option.getD_none, Option.isNone_some]
  rw [if_neg (by simp), h2, Py.ok_bind]
  rfl

theorem call_url {kind ep : Str} (hk : kind ≠ []) (hk' : kind.getLast? ≠ some '/') (he : ep ≠ []) (he' : ep.head? ≠ some '/') :
    join kind ep = .ok (kind ++ '/' :: ep) := C97_join hk he hk' he' _ List.mem_cons_self _ List.mem_cons_self

theorem c2s_letters {ep : Str} (h0 : ∃ x t, ep = x :: t ∧ x.isLower) : c2s ep ≠ [] ∧ (c2s ep).head? ≠ some '/' := by
  obtain ⟨x, t, rfl, hx⟩ := h0
  have hl := (low_iff x).mp hx
  have e : snakeChar x = [x] := by
    unfold snakeChar; rw [if_neg]; rw [upp_iff]; exact not_both hl
  have hd : c2s (x :: t) = x :: t.flatMap snakeChar := by
    unfold c2s
    rw [List.flatMap_cons, e, List.singleton_append, List.dropWhile_cons_of_neg]
    simpa using low_ne hl
  rw [hd]
  refine ⟨by simp, ?_⟩
  rw [List.head?_cons]
  intro h
  rw [Option.some.inj h] at hl
  exact absurd hl.1 (by decide)

/-- **C98** A wrapped call posts its parameters, once, to the synchronous interface under its own name, and returns the data of a reply with
status 200; every other reply and an unreachable server raise. -/
theorem C98_fetch {c : Client} (hc : Neat c) (net : Request P → Option (Resp α)) (e : P → Bool) {ep : Str}
    (h0 : ∃ x t, ep = x :: t ∧ x.isLower) (p : P) (q : Request P) (d : α) :
    fetch c net e ep p = .ok (q, d) ↔ q = ⟨.post, address c "scall".toList (c2s ep), some p⟩ ∧
      ∃ b, net q = some ⟨200, some b⟩ ∧ b.data = some d := by
  obtain ⟨hn, hh⟩ := c2s_letters h0
  have hcall : call c net e (c2s ep) (some p) none (some true) = .ok (⟨.post, address c "scall".toList (c2s ep), some p⟩,
      .resp (received (net ⟨.post, address c "scall".toList (c2s ep), some p⟩))) := by
    unfold call
    have hk : callapi0 c (some true) = "scall".toList := rfl
    rw [hk, call_url (by decide) (by decide) hn hh, Py.ok_bind, if_pos rfl, req_eq hc net e (by decide) (by decide), Py.ok_bind]
  unfold fetch
  rw [hcall, Py.ok_bind]
  dsimp only
  rw [Py.bind_eq_ok]
  generalize (⟨.post, address c "scall".toList (c2s ep), some p⟩ : Request P) = q0
  constructor
  · rintro ⟨a, ha, hq⟩
    obtain ⟨rfl, rfl⟩ := Prod.mk.inj (Except.ok.inj hq)
    refine ⟨rfl, ?_⟩
    unfold checkresult received at ha
    cases hr : net q0 with
    | none => rw [hr] at ha; exact absurd ha (by simp)
    | some r =>
      rw [hr] at ha
      dsimp only at ha
      by_cases hs : r.status = 200
      · rw [if_neg (not_not.mpr hs)] at ha
        obtain ⟨st, body⟩ := r
        dsimp only at hs ha
        subst hs
        cases body with
        | none => exact absurd ha (by simp)
        | some b =>
          dsimp only at ha
          refine ⟨b, rfl, ?_⟩
          cases hb : b.data with
          | none => rw [hb] at ha; exact absurd ha (by simp)
          | some x => rw [hb] at ha; rw [Except.ok.inj ha]
      · rw [if_pos hs] at ha
        exact absurd ha (by simp)
  · rintro ⟨rfl, b, hb, hd⟩
    refine ⟨d, ?_, rfl⟩
    rw [hb]
    unfold received checkresult
    dsimp only
    rw [if_neg (by simp), hd]

/-- **C98** fails for the address: the address given to the constructor has no effect on any request. -/
theorem C98_address_violated (c : Client) (url : Str) (net : Request P → Option (Resp α)) (e : P → Bool) (ep : Str) (ps : Option P)
    (m : Option Method) (sync : Option Bool) :
    req0 { c with url := url } net e ep ps m = req0 c net e ep ps m ∧ call { c with url := url } net e ep ps m sync = call c net e ep ps m sync :=
  ⟨rfl, rfl⟩

/-- **C98** An asynchronous call goes to the asynchronous interface and returns the number of the request exactly if the server accepts it;
an unreachable server or a refusal raises, or gives `False` if the client was told not to raise. -/
theorem C98_async {c : Client} (hc : Neat c) (net : Request P → Option (Resp α)) (e : P → Bool) {ep : Str}
    (h0 : ep ≠ [] ∧ ep.head? ≠ some '/') (p : P) :
    let q : Request P := ⟨.post, address c "ascall".toList ep, some p⟩
    (∀ i, call c net e ep (some p) none (some false) = .ok (q, .reqid i) ↔
      ∃ r b, net q = some r ∧ r.body = some b ∧ b.success = some true ∧ b.reqid = some i) ∧
    (net q = none → call c net e ep (some p) none (some false) =
      if c.raiseonerror then .error (.custom "AsyncAPICallError") else .ok (q, .no)) := by
  intro q
  have hcall : call c net e ep (some p) none (some false) = (do
      let a ← asyncReply c (received (net q))
      .ok (q, a)) := by
    unfold call
    have hk : callapi0 c (some false) = "ascall".toList := rfl
    rw [hk, call_url (by decide) (by decide) h0.1 h0.2, Py.ok_bind, if_neg (by simp), req_eq hc net e (by decide) (by decide)]
  rw [hcall]
  constructor
  · intro i
    rw [Py.bind_eq_ok]
    constructor
    · rintro ⟨a, ha, hq⟩
      have ha' := (Prod.mk.inj (Except.ok.inj hq)).2
      subst ha'
      unfold asyncReply at ha
      cases hr : net q with
      | none =>
        rw [hr] at ha
        unfold received at ha
        dsimp only at ha
        rw [if_neg (by simp)] at ha
        split_ifs at ha
        exact absurd ha (by simp)
      | some r =>
        rw [hr] at ha
        unfold received at ha
        dsimp only at ha
        cases hb : r.body with
        | none => rw [hb] at ha; exact absurd ha (by simp)
        | some b =>
          rw [hb] at ha
          dsimp only at ha
          by_cases hs : b.success = some true
          · rw [if_pos hs] at ha
            cases hi : b.reqid with
            | none => rw [hi] at ha; exact absurd ha (by simp)
            | some j =>
              rw [hi] at ha
              have := Except.ok.inj ha
              injection this with this
              exact ⟨r, b, rfl, hb, hs, by rw [hi, this]⟩
          · rw [if_neg hs] at ha
            split_ifs at ha
            exact absurd ha (by simp)
    · rintro ⟨r, b, hr, hb, hs, hi⟩
      refine ⟨.reqid i, ?_, rfl⟩
      rw [hr]
      unfold received asyncReply
      dsimp only
      rw [hb]
      dsimp only
      rw [if_pos hs, hi]
  · intro hr
    rw [hr]
    unfold received asyncReply
    dsimp only
    rw [if_neg (by simp)]
    split_ifs <;> rfl

/-- **C98** fails for clients that are synchronous by default: the call goes to the synchronous interface, but the reply is taken for that of
the asynchronous one and its data is lost to a `KeyError`. -/
theorem C98_default_violated {c : Client} (hc : Neat c) (hs : c.syncdefault = true) (net : Request P → Option (Resp α)) (e : P → Bool)
    {ep : Str} (h0 : ep ≠ [] ∧ ep.head? ≠ some '/') (p : P) (d : α)
    (hnet : net ⟨.post, address c "scall".toList ep, some p⟩ = some ⟨200, some { success := some true, data := some d }⟩) :
    call c net e ep (some p) = .error .key := by
  unfold call
  have hk : callapi0 c none = "scall".toList := by unfold callapi0; rw [Option.getD_none, hs]; rfl
  rw [hk, call_url (by decide) (by decide) h0.1 h0.2, Py.ok_bind, if_neg (by simp), req_eq hc net e (by decide) (by decide)]
  dsimp only
  rw [hnet]
  rfl

/-- **C98** Parameters are posted, and nothing else is; asking for a `GET` with parameters raises, whatever the server would reply. -/
theorem C98_method {c : Client} (hc : Neat c) (net : Request P → Option (Resp α)) (e : P → Bool) {path : Str}
    (hp : path ≠ [] ∧ path.head? ≠ some '/') (ps : Option P) :
    (∃ q r, req0 c net e path ps = .ok (q, r) ∧ q = ⟨if ps.isSome then .post else .get, c.clsUrl ++ '/' :: path, ps⟩ ∧
      (net q = some r ∨ net q = none ∧ r.status = 900)) ∧
      ∀ p, ps = some p → e p = false → req0 c net e path ps (some .get) = .error (.custom "CarbonSDKValueError") := by
  have h2 : join c.clsUrl path = .ok (c.clsUrl ++ '/' :: path) :=
    C97_join hc.url hp.1 hc.urlEnd hp.2 _ List.mem_cons_self _ List.mem_cons_self
  have hr : ∀ q, net q = some (received (net q)) ∨ net q = none ∧ (received (net q)).status = 900 := by
    intro q
    cases net q with
    | none => exact Or.inr ⟨rfl, rfl⟩
    | some r => exact Or.inl rfl
  constructor
  · cases ps with
    | none =>
      refine ⟨⟨.get, c.clsUrl ++ '/' :: path, none⟩, _, ?_, rfl, hr _⟩
      unfold req0
      dsimp only [Option.getD_none, Option.isNone_none]
      rw [if_neg (by simp), h2, Py.ok_bind]
      rfl
    | some p =>
      refine ⟨⟨.post, c.clsUrl ++ '/' :: path, some p⟩, _, ?_, rfl, hr _⟩
      unfold req0
      dsimp only [Option.getD_none, Option.isNone_some]
      rw [if_neg (by simp), h2, Py.ok_bind]
      rfl
  · rintro p rfl he
    unfold req0
    dsimp only [Option.getD_some]
    rw [if_pos (by simp [he])]

end

/-- The defaults of the class (carbonsdk0.py:11-14). -/
def localhost : Client := ⟨"http://localhost:3118".toList, "http://localhost:3118".toList, "api".toList, false, true⟩

example : Neat localhost := ⟨by decide, by decide, by decide, by decide, by decide⟩

/-- A server that knows one thing. -/
def server (q : Request ℕ) : Option (Resp ℕ) :=
  if q.url = "http://localhost:3118/api/scall/get_liquidity_by_pair".toList then some ⟨200, some { data := q.params }⟩ else none

example : fetch localhost server (fun _ => false) "getLiquidityByPair".toList 5 =
    .ok (⟨.post, "http://localhost:3118/api/scall/get_liquidity_by_pair".toList, some 5⟩, 5) := by decide

example : fetch localhost server (fun _ => false) "getMinRateByPair".toList 5 = .error (.custom "RuntimeError") := by decide

example : int2bn (.inl (-255) : ℤ ⊕ ℚ) = .dict [("type".toList, "BigNumber".toList), ("hex".toList, "-0xff".toList)] := by decide +kernel

end Carbon.Sdk
