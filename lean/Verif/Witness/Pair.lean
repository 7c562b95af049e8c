import Verif.Prop.Pair

/-!
# Concrete states for the theorems about pairs (C12-C15, C60, C61)
-/

namespace Carbon.Witness

open Carbon CarbonPair

/-- The reversed sample pair. -/
def usdcEth : CarbonPair :=
  { tknb := "USDC".toList, tknq := "ETH".toList, tknbOrig := "USDC".toList, tknqOrig := "ETH".toList }

theorem eth_ne : ethUsdc.tknb ≠ ethUsdc.tknq := by decide +kernel
theorem eth_make : make (.str "eth/USDC".toList) none none = .ok ethUsdc := by decide +kernel
theorem eth_reverse : ethUsdc.reverse = .ok usdcEth := by decide +kernel

/-- `C12_value`. -/
example := C12_value ethUsdc eth_ne (3 : ℚ) 2000 (by norm_num)
/-- `C12_roundtrip`. -/
example := C12_roundtrip ethUsdc "USDC".toList "ETH".toList (Or.inr ⟨rfl, rfl⟩) (3 : ℚ) 2000 (by norm_num)
/-- `C12_other`. -/
example := C12_other ethUsdc "ETH".toList "USDC".toList (by decide +kernel) (3 : ℚ) 2000 (by norm_num)
/-- `C12_none_iff`. -/
example : ethUsdc.convert (3 : ℚ) "DAI".toList "ETH".toList 2000 = .ok none :=
  (C12_none_iff ethUsdc _ _ (3 : ℚ) 2000 (by norm_num)).2 (by decide +kernel)
/-- `C13_value`. -/
example := C13_value ethUsdc eth_ne (2000 : ℚ) (by norm_num)
/-- `C13_involution`. -/
example := C13_involution ethUsdc "ETH".toList (Or.inl rfl) (2000 : ℚ) (by norm_num)
/-- `C13_none_iff`. -/
example : ethUsdc.convertPrice (some (2000 : ℚ)) "DAI".toList = .ok none :=
  (C13_none_iff ethUsdc _ _ (by norm_num)).2 (Or.inr (by decide +kernel))
/-- `C13_reverse_reverse`. -/
example := C13_reverse_reverse _ _ _ _ _ eth_make
/-- `C13_reverse_reciprocal`. -/
example : (2000 : ℚ) * (1 / 2000) = 1 := C13_reverse_reciprocal _ _ _ _ _ _ eth_make eth_reverse eth_ne "USDC".toList 2000 _ _ (by norm_num)
  (by decide +kernel) (by decide +kernel)
/-- `C13_price`. -/
example := C13_price ethUsdc eth_ne (2000 : ℚ) (by norm_num)
/-- `C14_buy`. -/
example := C14_buy ethUsdc eth_ne "USDC".toList (Or.inr rfl) (2000 : ℚ) 1900 (by norm_num) (by norm_num) false
/-- `C14_sell`. -/
example := C14_sell ethUsdc eth_ne "ETH".toList (Or.inl rfl) (2000 : ℚ) 1900 (by norm_num) (by norm_num) true
/-- `C14_foreign`. -/
example := C14_foreign ethUsdc "DAI".toList (by decide +kernel) (by decide +kernel) (2000 : ℚ) 1900 .buy false
/-- `C15_reject`. -/
example := C15_reject "eth/usdc/dai".toList false (by decide +kernel)
/-- `C15_names`. -/
example := C15_names _ _ _ eth_make
/-- `C15_rebuild`. -/
example := C15_rebuild _ _ _ eth_make (some (.int 18)) (some (.int 6)) (fun _ => none)
/-- `C15_ambiguous`. -/
example := C15_ambiguous "eth/usdc".toList (by decide +kernel) (some "DAI".toList) none false (Or.inl ⟨_, rfl, by decide +kernel⟩)
/-- `C60_base_partial`. -/
example := C60_base_partial _ _ _ _ _ eth_make (by decide +kernel) (by decide +kernel) (by decide +kernel)
/-- `C60_quote_partial`. -/
example := C60_quote_partial _ _ _ _ _ eth_make (by decide +kernel) (by decide +kernel) (by decide +kernel) (by decide +kernel)
  (by decide +kernel)
/-- `C61_from_slashpair_violated`: the decimals passed are lost. -/
example : ∃ p, fromSlashpair "eth/usdc".toList (some (18, 6)) = .ok p ∧ p.hasDecimals = false := by
  have h : ∀ p, fromSlashpair "eth/usdc".toList (some (18, 6)) = .ok p → _ := fun p hp => (C61_from_slashpair_violated _ _ p hp).1
  have hs : (fromSlashpair "eth/usdc".toList (some (18, 6))).toOption.isSome = true := by decide +kernel
  cases hr : fromSlashpair "eth/usdc".toList (some (18, 6)) with
  | ok p => exact ⟨p, rfl, h p hr⟩
  | error e => rw [hr] at hs; cases hs

end Carbon.Witness
