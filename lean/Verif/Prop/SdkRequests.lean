import Verif.Sdk.Requests
import Verif.Prop.SdkBase
import Verif.Prop.Formulas

/-!
# The requests of the SDK client: transactions (C145), balances, pairs and results (C146)
-/

set_option linter.unusedSectionVars false

namespace Carbon.Sdk

/-! ## What is sent -/

section
variable {K : Type} [Field K] [LinearOrder K]

/-- The parameters carry the overrides the caller gave, and a gas limit in any case. -/
def Carries (given : Option (Dict K)) (p : Params K) : Prop :=
  ∃ d g, dictGet p "overrides".toList = some (.dict d) ∧
    (∀ k, k ≠ "gasLimit".toList → dictGet d k = dictGet (given.getD []) k) ∧
    dictGet d "gasLimit".toList = some g ∧ g.truthy = true ∧
    (∀ g', dictGet (given.getD []) "gasLimit".toList = some g' → g'.truthy = true → g = g') ∧
    ((∀ g', dictGet (given.getD []) "gasLimit".toList = some g' → g'.truthy = false) → g = .int 999999999)

/-- A text stands for a value: numbers can be read from it, texts are unchanged. -/
def Stands (fl : K → Str) (v : Val K) (s : Str) : Prop :=
  (∀ n, v = .int n → pyInt 10 s = some n) ∧ (∀ t, v = .str t → s = t) ∧ (∀ x, v = .float x → s = fl x)

/-- Entry by entry the numbers have become texts they can be read from, and everything else is unchanged. -/
def SameEntries (a b : Dict K) : Prop :=
  List.Forall₂ (fun x y => x.1 = y.1 ∧ (∀ n, x.2 = .int n → ∃ s, y.2 = .str s ∧ pyInt 10 s = some n) ∧
    ((∀ n, x.2 ≠ .int n) → y.2 = x.2)) a b

theorem carries {p : Params K} {given : Option (Dict K)} (h : dictGet p "overrides".toList = some (.dict (withGas given))) : Carries given p := by
  unfold withGas at h
  dsimp only at h
  by_cases hg : (dictGet (given.getD []) "gasLimit".toList).any Val.truthy = true
  · rw [if_pos hg] at h
    obtain ⟨g, h1, h2⟩ := (Option.any_eq_true _ _).mp hg
    refine ⟨_, g, h, fun _ _ => rfl, h1, h2, ?_, ?_⟩
    · intro g' hg' _
      rw [h1] at hg'
      exact Option.some.inj hg'
    · intro hall
      rw [hall g h1] at h2
      exact absurd h2 (by simp)
  · rw [if_neg hg] at h
    refine ⟨_, .int 999999999, h, ?_, ?_, by simp [Val.truthy], ?_, fun _ => rfl⟩
    · intro k hk
      rw [dictGet_set, if_neg (Ne.symm hk)]
    · rw [dictGet_set, if_pos rfl]
    · intro g' hg' ht
      exact absurd ((Option.any_eq_true _ _).mpr ⟨g', hg', ht⟩) hg

theorem stands (fl : K → Str) (v : Val K) : Stands fl v (v.text fl) := by
  refine ⟨?_, ?_, ?_⟩
  · rintro n rfl
    exact pyInt_intStr n
  · rintro t rfl
    rfl
  · rintro x rfl
    rfl

theorem textOr_none (fl : K → Str) (s : Str) : textOr fl none s = s := rfl

theorem sameEntries [FloorRing K] (a : Dict K) : SameEntries a (int2strd a) := by
  unfold SameEntries int2strd
  rw [List.forall₂_map_right_iff, List.forall₂_same]
  intro x _
  refine ⟨rfl, ?_, ?_⟩
  · intro n hn
    rw [hn]
    exact ⟨_, rfl, pyInt_intStr n⟩
  · intro hn
    dsimp only
    cases h : x.2 with
    | int n => exact absurd h (hn n)
    | none => rfl
    | float _ => rfl
    | str _ => rfl
    | dict _ => rfl

end

section
variable {K α : Type} [Field K] [LinearOrder K] [FloorRing K]

/-- A request goes once to `ep` of the synchronous interface with the parameters `p`, and its data is returned. -/
def Posts (net : Request (Params K) → Option (Resp α)) (r : Py (Request (Params K) × α)) (url : Str) (p : Params K) : Prop :=
  ∀ q d, r = .ok (q, d) ↔ q = ⟨.post, url, some p⟩ ∧ ∃ b, net q = some ⟨200, some b⟩ ∧ b.data = some d

/-- **C145** A trade by target amount: the tokens, the actions with their numbers, the limits and the overrides are those of the caller; without
limits they are the largest values of 32 and of 128 bits. -/
theorem C145_target {c : Client} (hc : Neat c) (net : Request (Params K) → Option (Resp α)) (fl : K → Str) (source target : Str)
    (actions : Option (List (Dict K))) (deadline maxInput : Option (Val K)) (overrides : Option (Dict K)) :
    ∃ p l s t, Posts net (composeByTarget c net fl source target actions deadline maxInput overrides)
        (address c "scall".toList "compose_trade_by_target_transaction".toList) p ∧
      p.map Prod.fst = ["sourceToken".toList, "targetToken".toList, "tradeActions".toList, "deadline".toList, "maxInput".toList,
        "overrides".toList] ∧
      dictGet p "sourceToken".toList = some (.str source) ∧ dictGet p "targetToken".toList = some (.str target) ∧
      dictGet p "tradeActions".toList = some (.dicts l) ∧ List.Forall₂ SameEntries (actions.getD []) l ∧
      dictGet p "deadline".toList = some (.str s) ∧ (deadline = none → pyInt 10 s = some (2 ^ 32 - 1)) ∧
      (∀ v, deadline = some v → Stands fl v s) ∧
      dictGet p "maxInput".toList = some (.str t) ∧ (maxInput = none → pyInt 10 t = some (2 ^ 128 - 1)) ∧
      (∀ v, maxInput = some v → Stands fl v t) ∧ Carries overrides p := by
  refine ⟨byTargetParams fl source target actions deadline maxInput overrides, (actions.getD []).map int2strd,
    textOr fl deadline maxDeadline, textOr fl maxInput maxMaxInput, ?_, rfl, rfl, rfl, rfl, ?_, rfl, ?_, ?_, rfl, ?_, ?_, carries rfl⟩
  · intro q d
    have e : c2s "composeTradeByTargetTransaction".toList = "compose_trade_by_target_transaction".toList := by decide
    rw [← e]
    exact C98_fetch hc net noParams ⟨_, _, rfl, by decide⟩ _ q d
  · rw [List.forall₂_map_right_iff, List.forall₂_same]
    exact fun a _ => sameEntries a
  · rintro rfl
    rw [textOr_none]
    exact pyInt_intStr (2 ^ 32 - 1)
  · rintro v rfl
    exact stands fl v
  · rintro rfl
    rw [textOr_none]
    exact pyInt_intStr (2 ^ 128 - 1)
  · rintro v rfl
    exact stands fl v

/-- **C145** A trade by source amount, likewise; without a limit at least one unit must come back. -/
theorem C145_source {c : Client} (hc : Neat c) (net : Request (Params K) → Option (Resp α)) (fl : K → Str) (source target : Str)
    (actions : Option (List (Dict K))) (deadline minReturn : Option (Val K)) (overrides : Option (Dict K)) :
    ∃ p l s t, Posts net (composeBySource c net fl source target actions deadline minReturn overrides)
        (address c "scall".toList "compose_trade_by_source_transaction".toList) p ∧
      p.map Prod.fst = ["sourceToken".toList, "targetToken".toList, "tradeActions".toList, "deadline".toList, "minReturn".toList,
        "overrides".toList] ∧
      dictGet p "sourceToken".toList = some (.str source) ∧ dictGet p "targetToken".toList = some (.str target) ∧
      dictGet p "tradeActions".toList = some (.dicts l) ∧ List.Forall₂ SameEntries (actions.getD []) l ∧
      dictGet p "deadline".toList = some (.str s) ∧ (deadline = none → pyInt 10 s = some (2 ^ 32 - 1)) ∧
      (∀ v, deadline = some v → Stands fl v s) ∧
      dictGet p "minReturn".toList = some (.str t) ∧ (minReturn = none → pyInt 10 t = some 1) ∧
      (∀ v, minReturn = some v → Stands fl v t) ∧ Carries overrides p := by
  refine ⟨bySourceParams fl source target actions deadline minReturn overrides, (actions.getD []).map int2strd,
    textOr fl deadline maxDeadline, textOr fl minReturn (intStr 1), ?_, rfl, rfl, rfl, rfl, ?_, rfl, ?_, ?_, rfl, ?_, ?_, carries rfl⟩
  · intro q d
    have e : c2s "composeTradeBySourceTransaction".toList = "compose_trade_by_source_transaction".toList := by decide
    rw [← e]
    exact C98_fetch hc net noParams ⟨_, _, rfl, by decide⟩ _ q d
  · rw [List.forall₂_map_right_iff, List.forall₂_same]
    exact fun a _ => sameEntries a
  · rintro rfl
    rw [textOr_none]
    exact pyInt_intStr (2 ^ 32 - 1)
  · rintro v rfl
    exact stands fl v
  · rintro rfl
    rw [textOr_none]
    exact pyInt_intStr (1)
  · rintro v rfl
    exact stands fl v

/-- **C145** A new strategy: every price and budget goes under its own name. -/
theorem C145_create {c : Client} (hc : Neat c) (net : Request (Params K) → Option (Resp α)) (fl : K → Str) (base quote : Str)
    (bl bh bb sl sh sb : Val K) (overrides : Option (Dict K)) :
    ∃ p, Posts net (createBuySell c net fl base quote bl bh bb sl sh sb overrides)
        (address c "scall".toList "create_buy_sell_strategy".toList) p ∧
      dictGet p "baseToken".toList = some (.str base) ∧ dictGet p "quoteToken".toList = some (.str quote) ∧
      (∀ kv ∈ [("buyPriceLow".toList, bl), ("buyPriceHigh".toList, bh), ("buyBudget".toList, bb), ("sellPriceLow".toList, sl),
        ("sellPriceHigh".toList, sh), ("sellBudget".toList, sb)], ∃ s, dictGet p kv.1 = some (.str s) ∧ Stands fl kv.2 s) ∧
      p.length = 9 ∧ Carries overrides p := by
  refine ⟨createParams fl base quote bl bh bb sl sh sb overrides, ?_, rfl, rfl, ?_, rfl, carries rfl⟩
  · intro q d
    have e : c2s "createBuySellStrategy".toList = "create_buy_sell_strategy".toList := by decide
    rw [← e]
    exact C98_fetch hc net noParams ⟨_, _, rfl, by decide⟩ _ q d
  · intro kv hkv
    simp only [List.mem_cons, List.not_mem_nil, or_false] at hkv
    rcases hkv with rfl | rfl | rfl | rfl | rfl | rfl <;> exact ⟨_, rfl, stands fl _⟩

/-- **C145** A deletion names the strategy. -/
theorem C145_delete {c : Client} (hc : Neat c) (net : Request (Params K) → Option (Resp α)) (fl : K → Str) (sid : Val K)
    (overrides : Option (Dict K)) :
    ∃ p s, Posts net (deleteStrategy c net fl sid overrides) (address c "scall".toList "delete_strategy".toList) p ∧
      dictGet p "strategyId".toList = some (.str s) ∧ Stands fl sid s ∧ p.length = 2 ∧ Carries overrides p := by
  refine ⟨deleteParams fl sid overrides, sid.text fl, ?_, rfl, stands fl sid, rfl, carries rfl⟩
  intro q d
  have e : c2s "deleteStrategy".toList = "delete_strategy".toList := by decide
  rw [← e]
  exact C98_fetch hc net noParams ⟨_, _, rfl, by decide⟩ _ q d

/-! ## Updates -/

/-- The six values of an update that are not marginal prices. -/
def values (u : StrategyUpdate K) : List (Str × Val K) :=
  [("buyPriceLow".toList, u.buyPriceLow), ("buyPriceHigh".toList, u.buyPriceHigh), ("buyBudget".toList, u.buyBudget),
    ("sellPriceLow".toList, u.sellPriceLow), ("sellPriceHigh".toList, u.sellPriceHigh), ("sellBudget".toList, u.sellBudget)]

theorem dictGet_cons {β : Type} (a : Str) (b : β) (d : List (Str × β)) (k : Str) :
    dictGet ((a, b) :: d) k = if a = k then some b else dictGet d k := rfl

theorem filterMap_get {β : Type} (f : Val K → β) : ∀ {d : List (Str × Val K)} {k : Str}, (d.map Prod.fst).Nodup →
    dictGet ((d.filter fun kv => decide (kv.2 ≠ .none)).map fun kv => (kv.1, f kv.2)) k =
      (dictGet d k).bind fun v => if v = .none then none else some (f v)
  | [], k, _ => rfl
  | (a, b) :: d, k, h => by
    rw [List.map_cons, List.nodup_cons] at h
    have ih := filterMap_get f (k := k) h.2
    by_cases hb : b = .none
    · rw [List.filter_cons_of_neg (by simp [hb]), ih, dictGet_cons]
      by_cases hk : a = k
      · subst hk
        rw [if_pos rfl]
        have : dictGet d a = none := by
          cases hd : dictGet d a with
          | none => rfl
          | some v => exact absurd (List.mem_map_of_mem (f := Prod.fst) ((Formulas.dictGet_of_nodup h.2).mp hd)) h.1
        rw [this]
        simp [hb]
      · rw [if_neg hk]
    · rw [List.filter_cons_of_pos (by simp [hb]), List.map_cons, dictGet_cons, dictGet_cons]
      by_cases hk : a = k
      · rw [if_pos hk, if_pos hk]
        simp [hb]
      · rw [if_neg hk, if_neg hk, ih]

/-- **C145** The update that is sent has exactly the values that are set, as texts; the marginal prices of the update are sent beside it, or
`null`. -/
theorem C145_update {c : Client} (hc : Neat c) (net : Request (Params K) → Option (Resp α)) (fl : K → Str) (sid : Val K)
    (encoded base quote : Str) (u : StrategyUpdate K) (bm sm : Val K) (overrides : Option (Dict K)) :
    ∃ p d s, (∀ q r, updateStrategy c net fl sid encoded base quote u bm sm overrides (some true) = .ok (q, .resp r) ↔
        q = ⟨.post, address c "scall".toList "update_strategy".toList, some p⟩ ∧ r = received (net q)) ∧
      (∀ q i, updateStrategy c net fl sid encoded base quote u bm sm overrides (some false) = .ok (q, .reqid i) →
        q = ⟨.post, address c "ascall".toList "update_strategy".toList, some p⟩ ∧
          ∃ r b, net q = some r ∧ r.body = some b ∧ b.success = some true ∧ b.reqid = some i) ∧
      dictGet p "strategyId".toList = some (.str s) ∧ Stands fl sid s ∧ dictGet p "encoded".toList = some (.str encoded) ∧
      dictGet p "baseToken".toList = some (.str base) ∧ dictGet p "quoteToken".toList = some (.str quote) ∧
      dictGet p "update".toList = some (.dict d) ∧
      (∀ k v, (k, v) ∈ values u → v ≠ .none → ∃ t, dictGet d k = some (.str t) ∧ Stands fl v t) ∧
      (∀ k w, dictGet d k = some w → ∃ v, (k, v) ∈ values u ∧ v ≠ .none) ∧
      (∀ kv ∈ [("buyMarginalPrice".toList, u.buyMarginalPrice), ("sellMarginalPrice".toList, u.sellMarginalPrice)],
        (kv.2 = .none → dictGet p kv.1 = some .null) ∧
        (kv.2 ≠ .none → ∃ t, dictGet p kv.1 = some (.str t) ∧ Stands fl kv.2 t)) ∧ Carries overrides p := by
  have e : c2s "updateStrategy".toList = "update_strategy".toList := by decide
  have hkeys : ((values u).map Prod.fst).Nodup := by
    have : (values u).map Prod.fst = ["buyPriceLow".toList, "buyPriceHigh".toList, "buyBudget".toList, "sellPriceLow".toList,
      "sellPriceHigh".toList, "sellBudget".toList] := rfl
    rw [this]
    decide
  have hd : u.asdict fl = ((values u).filter fun kv => decide (kv.2 ≠ .none)).map fun kv => (kv.1, textOrNone fl kv.2) := by
    unfold StrategyUpdate.asdict
    dsimp only
    rw [if_pos rfl, if_pos rfl]
    rfl
  refine ⟨updateParams fl sid encoded base quote u bm sm overrides, u.asdict fl, sid.text fl, ?_, ?_, rfl, stands fl sid, rfl, rfl, rfl, rfl,
    ?_, ?_, ?_, carries rfl⟩
  · intro q r
    unfold updateStrategy call
    have hk : callapi0 c (some true) = "scall".toList := rfl
    rw [e, hk, call_url (by decide) (by decide) (by decide) (by decide), Py.ok_bind, if_pos rfl,
      req_eq hc net noParams (by decide) (by decide), Py.ok_bind]
    constructor
    · intro h
      obtain ⟨h1, h2⟩ := Prod.mk.inj (Except.ok.inj h)
      injection h2 with h2
      exact ⟨h1.symm, by rw [← h2, ← h1]⟩
    · rintro ⟨rfl, rfl⟩
      rfl
  · intro q i h
    unfold updateStrategy at h
    rw [e] at h
    have h' := C98_async hc net noParams (ep := "update_strategy".toList) ⟨by decide, by decide⟩
      (updateParams fl sid encoded base quote u bm sm overrides)
    have hq : q = ⟨.post, address c "ascall".toList "update_strategy".toList,
        some (updateParams fl sid encoded base quote u bm sm overrides)⟩ := by
      have h2 := h
      unfold call at h2
      have hk : callapi0 c (some false) = "ascall".toList := rfl
      rw [hk, call_url (by decide) (by decide) (by decide) (by decide), Py.ok_bind, if_neg (by simp),
        req_eq hc net noParams (by decide) (by decide)] at h2
      dsimp only at h2
      rw [Py.bind_eq_ok] at h2
      obtain ⟨a, _, ha⟩ := h2
      exact (Prod.mk.inj (Except.ok.inj ha)).1.symm
    subst hq
    exact ⟨rfl, (h'.1 i).mp h⟩
  · intro k v hv hn
    rw [hd, filterMap_get _ hkeys, (Formulas.dictGet_of_nodup hkeys).mpr hv]
    refine ⟨v.text fl, ?_, stands fl v⟩
    rw [Option.bind_some, if_neg hn]
    unfold textOrNone
    rw [if_neg hn]
  · intro k w hw
    rw [hd, filterMap_get _ hkeys] at hw
    obtain ⟨v, hv, hv'⟩ := Option.bind_eq_some_iff.mp hw
    refine ⟨v, (Formulas.dictGet_of_nodup hkeys).mp hv, ?_⟩
    intro hn
    rw [if_pos hn] at hv'
    exact absurd hv' (by simp)
  · intro kv hkv
    simp only [List.mem_cons, List.not_mem_nil, or_false] at hkv
    rcases hkv with rfl | rfl
    · refine ⟨fun h => ?_, fun h => ⟨u.buyMarginalPrice.text fl, ?_, stands fl _⟩⟩
      · have : dictGet (updateParams fl sid encoded base quote u bm sm overrides) "buyMarginalPrice".toList =
          some (jsonOrNull fl u.buyMarginalPrice) := rfl
        dsimp only at h ⊢
        rw [this, jsonOrNull, if_pos h]
      · have : dictGet (updateParams fl sid encoded base quote u bm sm overrides) "buyMarginalPrice".toList =
          some (jsonOrNull fl u.buyMarginalPrice) := rfl
        dsimp only at h ⊢
        rw [this, jsonOrNull, if_neg h]
    · refine ⟨fun h => ?_, fun h => ⟨u.sellMarginalPrice.text fl, ?_, stands fl _⟩⟩
      · have : dictGet (updateParams fl sid encoded base quote u bm sm overrides) "sellMarginalPrice".toList =
          some (jsonOrNull fl u.sellMarginalPrice) := rfl
        dsimp only at h ⊢
        rw [this, jsonOrNull, if_pos h]
      · have : dictGet (updateParams fl sid encoded base quote u bm sm overrides) "sellMarginalPrice".toList =
          some (jsonOrNull fl u.sellMarginalPrice) := rfl
        dsimp only at h ⊢
        rw [this, jsonOrNull, if_neg h]

/-- **C145** fails for marginal prices given as arguments of the update: whatever they are, the outcome and the request are the same as without
them. -/
theorem C145_marginal_violated (c : Client) (net : Request (Params K) → Option (Resp α)) (fl : K → Str) (sid : Val K) (encoded base quote : Str)
    (u : StrategyUpdate K) (bm sm : Val K) (overrides : Option (Dict K)) (sync : Option Bool) :
    updateStrategy c net fl sid encoded base quote u bm sm overrides sync =
      updateStrategy c net fl sid encoded base quote u .none .none overrides sync := rfl

/-- **C145** fails for a caller who wants its overrides unchanged: the gas limit is written into the dictionary it gave, so that it differs from
what it was exactly if it had no gas limit or a gas limit of zero. -/
theorem C145_caller_violated (d : Dict K) :
    withGas (some d) ≠ d ↔ ∀ g, dictGet d "gasLimit".toList = some g → g.truthy = false := by
  unfold withGas
  dsimp only [Option.getD_some]
  by_cases hg : (dictGet d "gasLimit".toList).any Val.truthy = true
  · rw [if_pos hg]
    obtain ⟨g, h1, h2⟩ := (Option.any_eq_true _ _).mp hg
    refine ⟨fun h => absurd rfl h, fun h => ?_⟩
    rw [h g h1] at h2
    exact absurd h2 (by simp)
  · rw [if_neg hg]
    refine ⟨fun _ g h1 => ?_, fun _ he => ?_⟩
    · by_contra h2
      exact hg ((Option.any_eq_true _ _).mpr ⟨g, h1, by simpa using h2⟩)
    · apply hg
      rw [Option.any_eq_true]
      refine ⟨.int 999999999, ?_, by simp [Val.truthy]⟩
      conv_lhs => rw [← he]
      rw [dictGet_set, if_pos rfl]

/-! ## Signing -/

theorem submit_iff {c : Client} (hc : Neat c) (net : Request (Params K) → Option (Resp α)) {ep : Str} (he : ep ≠ [])
    (he' : ep.head? ≠ some '/') (p : Params K) (q : Request (Params K)) (d : α) :
    submit c net ep p = .ok (q, d) ↔ q = ⟨.post, c.clsUrl ++ '/' :: (c.apibase ++ '/' :: ep), some p⟩ ∧
      ∃ b, net q = some ⟨200, some b⟩ ∧ b.data = some d := by
  have h1 : join c.apibase ep = .ok (c.apibase ++ '/' :: ep) :=
    C97_join hc.api he hc.apiEnd he' _ List.mem_cons_self _ List.mem_cons_self
  have h2 : join c.clsUrl (c.apibase ++ '/' :: ep) = .ok (c.clsUrl ++ '/' :: (c.apibase ++ '/' :: ep)) :=
    C97_join hc.url (by simp) hc.urlEnd (by
      have h := hc.apiHead
      cases hx : c.apibase with
      | nil => exact absurd hx hc.api
      | cons x k => rw [hx] at h; simpa using h) _ List.mem_cons_self _ List.mem_cons_self
  have hr : req c net noParams ep (some p) = .ok (⟨.post, c.clsUrl ++ '/' :: (c.apibase ++ '/' :: ep), some p⟩,
      received (net ⟨.post, c.clsUrl ++ '/' :: (c.apibase ++ '/' :: ep), some p⟩)) := by
    unfold req
    rw [h1, Py.ok_bind]
    unfold req0
    dsimp only [Option.getD_none, Option.isNone_some]
    rw [if_neg (by simp), h2, Py.ok_bind]
    rfl
  unfold submit
  rw [hr, Py.ok_bind]
  generalize (⟨.post, c.clsUrl ++ '/' :: (c.apibase ++ '/' :: ep), some p⟩ : Request (Params K)) = q0
  dsimp only
  rw [Py.bind_eq_ok]
  constructor
  · rintro ⟨a, ha, hq⟩
    obtain ⟨rfl, rfl⟩ := Prod.mk.inj (Except.ok.inj hq)
    refine ⟨rfl, ?_⟩
    unfold checkresult received at ha
    cases hr : net q0 with
    | none => rw [hr] at ha; exact absurd ha (by simp)
    | some r =>
      rw [hr] at ha
      dsimp only at ha
      by_cases hs : r.status = 200
      · rw [if_neg (not_not.mpr hs)] at ha
        obtain ⟨st, body⟩ := r
        dsimp only at hs ha
        subst hs
        cases body with
        | none => exact absurd ha (by simp)
        | some b =>
          dsimp only at ha
          refine ⟨b, rfl, ?_⟩
          cases hb : b.data with
          | none => rw [hb] at ha; exact absurd ha (by simp)
          | some x => rw [hb] at ha; rw [Except.ok.inj ha]
      · rw [if_pos hs] at ha
        exact absurd ha (by simp)
  · rintro ⟨rfl, b, hb, hd⟩
    refine ⟨d, ?_, rfl⟩
    rw [hb]
    unfold received checkresult
    dsimp only
    rw [if_neg (by simp), hd]

/-- **C145** A transaction is submitted as it is, and the two values of `sign` lead to different requests. -/
theorem C145_sign_partial {c : Client} (hc : Neat c) (net : Request (Params K) → Option (Resp α)) (tx : Json K) :
    ∃ p : Bool → Params K, p true ≠ p false ∧ ∀ sign, dictGet (p sign) "tx".toList = some tx ∧
      Posts net (signsubmittx c net tx sign) (c.clsUrl ++ '/' :: (c.apibase ++ '/' :: "signsubmittx".toList)) (p sign) := by
  refine ⟨signParams tx, ?_, ?_⟩
  · unfold signParams
    rw [if_pos rfl, if_neg (by simp)]
    intro h
    simp at h
  · intro sign
    refine ⟨rfl, ?_⟩
    intro q d
    unfold signsubmittx
    have e : c2s "signsubmittx".toList = "signsubmittx".toList := by decide
    rw [e]
    exact submit_iff hc net (by decide) (by decide) _ q d

/-- **C145** fails for the field `sign`: no request has it; the key is the text of the value instead. -/
theorem C145_sign_violated {c : Client} (hc : Neat c) (net : Request (Params K) → Option (Resp α)) (tx : Json K) (sign : Bool)
    {q : Request (Params K)} {d : α} (h : signsubmittx c net tx sign = .ok (q, d)) :
    ∃ p, q.params = some p ∧ dictGet p "sign".toList = none ∧
      dictGet p (if sign then "true".toList else "false".toList) = some (.bool sign) := by
  unfold signsubmittx at h
  have e : c2s "signsubmittx".toList = "signsubmittx".toList := by decide
  rw [e] at h
  obtain ⟨rfl, _⟩ := (submit_iff hc net (by decide) (by decide) _ q d).mp h
  refine ⟨_, rfl, ?_, ?_⟩
  · cases sign <;> rfl
  · cases sign <;> rfl

/-! ## Balances and symbols -/

theorem mapM_pure {β γ : Type} {l : List β} {f : β → Py γ} {g : β → γ} (h : ∀ a ∈ l, f a = .ok (g a)) : l.mapM f = .ok (l.map g) := by
  induction l with
  | nil => rfl
  | cons a l ih =>
    rw [List.mapM_cons, h a List.mem_cons_self, Py.ok_bind, ih (fun b hb => h b (List.mem_cons_of_mem _ hb)), Py.ok_bind]
    rfl

theorem dictOf_nodup {β : Type} {l : List (Str × β)} (h : (l.map Prod.fst).Nodup) : dictOf l = l := by
  unfold dictOf
  rw [Formulas.foldl_dictSet_new l [] (by simpa using h), List.nil_append]

/-- Where the questions about tokens go, and what is asked. -/
def asks (c : Client) (ep : String) (addrs : List Str) (extra : Params K) : Request (Params K) :=
  ⟨.post, c.clsUrl ++ '/' :: (c.apibase ++ '/' :: ep.toList), some (("tokens".toList, .strs addrs) :: extra)⟩

omit [FloorRing K] in
theorem submit_ok [FloorRing K] {c : Client} (hc : Neat c) (net : Request (Params K) → Option (Resp α)) {ep : Str} (he : ep ≠ [])
    (he' : ep.head? ≠ some '/') (p : Params K) {d : α} {b : Body α}
    (hn : net ⟨.post, c.clsUrl ++ '/' :: (c.apibase ++ '/' :: ep), some p⟩ = some ⟨200, some b⟩) (hb : b.data = some d) :
    submit c net ep p = .ok (⟨.post, c.clsUrl ++ '/' :: (c.apibase ++ '/' :: ep), some p⟩, d) :=
  (submit_iff hc net he he' p _ d).mpr ⟨rfl, b, hn, hb⟩

theorem balance_bn {t : SdkTkn} {k : ℤ} (h : t.decimals = some k) (w : ℤ) : balance t (int2bn (.inl w : ℤ ⊕ K)) = .ok ((w : K) / 10 ^ k) := by
  unfold balance
  rw [(C97_integers w).1, Py.ok_bind]
  dsimp only
  unfold SdkTkn.w2t
  rw [h]

theorem balance_mapM {l : List (SdkTkn × ℤ × ℤ)} (hd : ∀ x ∈ l, x.1.decimals = some x.2.1) :
    ((l.map Prod.fst).zip (l.map fun x => int2bn (.inl x.2.2 : ℤ ⊕ K))).mapM (fun tb => (do
      let x ← balance tb.1 tb.2
      .ok (tb.1.token, x) : Py (Str × K))) = .ok (l.map fun x => (x.1.token, (x.2.2 : K) / 10 ^ x.2.1)) := by
  rw [List.zip_map']
  induction l with
  | nil => rfl
  | cons x l ih =>
    rw [List.map_cons, List.mapM_cons]
    dsimp only
    rw [balance_bn (hd x List.mem_cons_self), Py.ok_bind, Py.ok_bind, ih (fun y hy => hd y (List.mem_cons_of_mem _ hy)), Py.ok_bind]
    rfl

/-- **C146** The balances of an address: the server is asked once, for the addresses of all the tokens in their order; if it replies with one
number for each, every ticker has the number of its own token, in units of the token. Each entry of `l` is a token, its decimals and the number
of the reply. -/
theorem C146_balance {c : Client} (hc : Neat c) (net : Request (Params K) → Option (Resp (List (Val K)))) (address : Str)
    (l : List (SdkTkn × ℤ × ℤ)) (hd : ∀ x ∈ l, x.1.decimals = some x.2.1) (hn : (l.map fun x => x.1.token).Nodup) {b : Body (List (Val K))}
    (hr : net (asks c "erc20/balance_of" (l.map fun x => x.1.address) [("address".toList, .str address)]) = some ⟨200, some b⟩)
    (hb : b.data = some (l.map fun x => int2bn (.inl x.2.2))) :
    ∃ d, getERC20Balance c net (l.map Prod.fst) address =
        .ok (asks c "erc20/balance_of" (l.map fun x => x.1.address) [("address".toList, .str address)], d) ∧
      d.map Prod.fst = l.map (fun x => x.1.token) ∧ ∀ x ∈ l, dictGet d x.1.token = some ((x.2.2 : K) / 10 ^ x.2.1) := by
  have hk : ((l.map fun x => (x.1.token, (x.2.2 : K) / 10 ^ x.2.1)).map Prod.fst) = l.map fun x => x.1.token := by
    rw [List.map_map]
    rfl
  refine ⟨l.map fun x => (x.1.token, (x.2.2 : K) / 10 ^ x.2.1), ?_, hk, ?_⟩
  · unfold getERC20Balance
    have e : (l.map Prod.fst).map SdkTkn.address = l.map fun x => x.1.address := by
      rw [List.map_map]
      rfl
    rw [e, submit_ok hc net (by decide) (by decide) _ hr hb, Py.ok_bind]
    dsimp only
    rw [balance_mapM hd, Py.ok_bind, dictOf_nodup (by rw [hk]; exact hn)]
    rfl
  · intro x hx
    rw [Formulas.dictGet_of_nodup (by rw [hk]; exact hn)]
    exact List.mem_map_of_mem (f := fun x : SdkTkn × ℤ × ℤ => (x.1.token, (x.2.2 : K) / 10 ^ x.2.1)) hx

theorem map_zip_fst {β : Type} : ∀ (l : List Str) (m : List β), (l.zip m).map Prod.fst = l.take m.length
  | [], m => by simp
  | _ :: _, [] => by simp
  | a :: l, b :: m => by simp [map_zip_fst l m]

/-- **C146** Symbols and decimals: every ticker, or every address if addresses were given, has the entry of the reply at its own place. -/
theorem C146_entries {c : Client} (hc : Neat c) (net : Request (Params K) → Option (Resp (List α))) (tokens : List SdkTkn ⊕ List Str)
    {b : Body (List α)} {data : List α} (hb : b.data = some data) :
    let addrs := tokens.elim (List.map SdkTkn.address) id
    let names := tokens.elim (List.map SdkTkn.token) id
    names.Nodup → data.length = names.length →
    (net (asks c "erc20/symbol" addrs []) = some ⟨200, some b⟩ → ∃ d, getERC20Symbol c net tokens = .ok (asks c "erc20/symbol" addrs [], d) ∧
      d.map Prod.fst = names ∧ ∀ (i : ℕ) k v, names[i]? = some k → data[i]? = some v → dictGet d k = some v) ∧
    (∀ ts, tokens = .inl ts → net (asks c "erc20/decimals" addrs []) = some ⟨200, some b⟩ →
      ∃ d, getERC20Decimals c net ts = .ok (asks c "erc20/decimals" addrs [], d) ∧
        d.map Prod.fst = names ∧ ∀ (i : ℕ) k v, names[i]? = some k → data[i]? = some v → dictGet d k = some v) := by
  intro addrs names hn hl
  have hk : (names.zip data).map Prod.fst = names := by rw [map_zip_fst, hl, List.take_length]
  have hd : ∀ (i : ℕ) k v, names[i]? = some k → data[i]? = some v → dictGet (names.zip data) k = some v := by
    intro i k v h1 h2
    rw [Formulas.dictGet_of_nodup (by rw [hk]; exact hn)]
    exact List.mem_of_getElem? (i := i) (by rw [List.getElem?_zip_eq_some]; exact ⟨h1, h2⟩)
  constructor
  · intro hr
    refine ⟨names.zip data, ?_, hk, hd⟩
    unfold getERC20Symbol
    dsimp only
    rw [submit_ok hc net (by decide) (by decide) _ hr hb, Py.ok_bind]
    dsimp only
    rw [dictOf_nodup (by rw [hk]; exact hn)]
    rfl
  · rintro ts rfl hr
    refine ⟨names.zip data, ?_, hk, hd⟩
    unfold getERC20Decimals
    change net (asks c "erc20/decimals" (ts.map SdkTkn.address) []) = _ at hr
    rw [submit_ok hc net (by decide) (by decide) _ hr hb, Py.ok_bind]
    dsimp only
    have : dictOf ((ts.map SdkTkn.token).zip data) = (ts.map SdkTkn.token).zip data :=
      dictOf_nodup (l := names.zip data) (by rw [hk]; exact hn)
    rw [this]
    rfl

/-- **C146** fails for a reply that is too short: there is no error, and the tokens at the end have no entry. -/
theorem C146_short_violated {c : Client} (hc : Neat c) (net : Request (Params K) → Option (Resp (List α))) (names : List Str)
    (hn : names.Nodup) {b : Body (List α)} {data : List α} (hb : b.data = some data) (hl : data.length < names.length)
    (hr : net (asks c "erc20/symbol" names []) = some ⟨200, some b⟩) :
    ∃ d, getERC20Symbol c net (.inr names) = .ok (asks c "erc20/symbol" names [], d) ∧
      (∀ (i : ℕ) k, names[i]? = some k → (dictGet d k = none ↔ data.length ≤ i)) ∧ ∃ k ∈ names, dictGet d k = none := by
  have hk : (names.zip data).map Prod.fst = names.take data.length := map_zip_fst _ _
  have hn' : ((names.zip data).map Prod.fst).Nodup := by
    rw [hk]
    exact hn.sublist (List.take_sublist _ _)
  have hmiss : ∀ (i : ℕ) k, names[i]? = some k → (dictGet (names.zip data) k = none ↔ data.length ≤ i) := by
    intro i k hi
    constructor
    · intro h
      by_contra hlt
      rw [not_le] at hlt
      have hv : (names.zip data)[i]? = some (k, data[i]) := by
        rw [List.getElem?_zip_eq_some]
        exact ⟨hi, List.getElem?_eq_getElem hlt⟩
      rw [(Formulas.dictGet_of_nodup hn').mpr (List.mem_of_getElem? hv)] at h
      exact absurd h (by simp)
    · intro h
      cases hg : dictGet (names.zip data) k with
      | none => rfl
      | some v =>
        exfalso
        have hm := (Formulas.dictGet_of_nodup hn').mp hg
        obtain ⟨j, hj⟩ := List.getElem?_of_mem hm
        rw [List.getElem?_zip_eq_some] at hj
        have hlt : j < data.length := (List.getElem?_eq_some_iff.mp hj.2).1
        have h1 := List.getElem?_eq_some_iff.mp hi
        have h2 := List.getElem?_eq_some_iff.mp hj.1
        obtain ⟨a1, b1⟩ := h1
        obtain ⟨a2, b2⟩ := h2
        have := (List.Nodup.getElem_inj_iff hn (hi := a1) (hj := a2)).mp (b1.trans b2.symm)
        omega
  refine ⟨names.zip data, ?_, hmiss, names[data.length], List.getElem_mem _, ?_⟩
  · unfold getERC20Symbol
    dsimp only [Sum.elim_inr, id]
    rw [submit_ok hc net (by decide) (by decide) _ hr hb, Py.ok_bind]
    dsimp only
    rw [dictOf_nodup hn']
    rfl
  · exact (hmiss _ _ (List.getElem?_eq_getElem hl)).mpr le_rfl

/-- **C146** fails for tokens with the same ticker: only the last balance is left. -/
theorem C146_ticker_violated {c : Client} (hc : Neat c) (net : Request (Params K) → Option (Resp (List α))) (t u : SdkTkn)
    (h : t.token = u.token) {b : Body (List α)} {v w : α} (hb : b.data = some [v, w])
    (hr : net (asks c "erc20/symbol" [t.address, u.address] []) = some ⟨200, some b⟩) :
    getERC20Symbol c net (.inl [t, u]) = .ok (asks c "erc20/symbol" [t.address, u.address] [], [(u.token, w)]) := by
  unfold getERC20Symbol
  dsimp only [Sum.elim_inl]
  rw [List.map_cons, List.map_cons, List.map_nil, submit_ok hc net (by decide) (by decide) _ hr hb, Py.ok_bind]
  simp [dictOf, dictSet, h, asks]

/-! ## Results of asynchronous calls -/

omit [FloorRing K] in
theorem req_get [FloorRing K] {c : Client} (hc : Neat c) (net : Request (Params K) → Option (Resp α)) {ep : Str} (he : ep ≠ []) (he' : ep.head? ≠ some '/') :
    req c net noParams ep = .ok (⟨.get, c.clsUrl ++ '/' :: (c.apibase ++ '/' :: ep), none⟩,
      received (net ⟨.get, c.clsUrl ++ '/' :: (c.apibase ++ '/' :: ep), none⟩)) := by
  have h1 : join c.apibase ep = .ok (c.apibase ++ '/' :: ep) :=
    C97_join hc.api he hc.apiEnd he' _ List.mem_cons_self _ List.mem_cons_self
  have h2 : join c.clsUrl (c.apibase ++ '/' :: ep) = .ok (c.clsUrl ++ '/' :: (c.apibase ++ '/' :: ep)) :=
    C97_join hc.url (by simp) hc.urlEnd (by
      have h := hc.apiHead
      cases hx : c.apibase with
      | nil => exact absurd hx hc.api
      | cons x k => rw [hx] at h; simpa using h) _ List.mem_cons_self _ List.mem_cons_self
  unfold req
  rw [h1, Py.ok_bind]
  unfold req0
  dsimp only [Option.getD_none, Option.isNone_none]
  rw [if_neg (by simp), h2, Py.ok_bind]
  rfl

/-- The question for the result of a call. -/
def resultOf (c : Client) (reqid : Str) : Request (Params K) :=
  ⟨.get, c.clsUrl ++ '/' :: (c.apibase ++ '/' :: ("result".toList ++ '/' :: reqid)), none⟩

/-- What a reply with a body means. -/
def meaning (c : Client) (b : Body α) : Py (Outcome α) :=
  match b.success, b.data, b.awaiting with
  | some true, some d, _ => .ok (.value d)
  | some false, _, some true => .ok (.bool true)
  | some false, _, some false => if c.raiseonerror then .error (.custom "UnknownReqIdError") else .ok (.bool false)
  | _, _, _ => .error .key

/-- **C146** The result of a call is asked for once under its number, and is returned exactly if the server has it; a call that still runs
gives `True`, and an unknown number raises or gives `False`, as configured. -/
theorem C146_result {c : Client} (hc : Neat c) (net : Request (Params K) → Option (Resp α)) {reqid : Str} (h0 : reqid ≠ [])
    (h1 : reqid.head? ≠ some '/') {r : Resp α} {b : Body α} (hr : net (resultOf c reqid) = some r) (hb : r.body = some b) :
    (∀ q a, result c net reqid = .ok (q, .value a) ↔ q = resultOf c reqid ∧ b.success = some true ∧ b.data = some a) ∧
    (∀ q, result c net reqid = .ok (q, .bool true) ↔ q = resultOf c reqid ∧ b.success = some false ∧ b.awaiting = some true) ∧
    (∀ q, result c net reqid = .ok (q, .bool false) ↔
      q = resultOf c reqid ∧ b.success = some false ∧ b.awaiting = some false ∧ c.raiseonerror = false) ∧
    (result c net reqid = .error (.custom "UnknownReqIdError") ↔
      b.success = some false ∧ b.awaiting = some false ∧ c.raiseonerror = true) := by
  have hj : join "result".toList reqid = .ok ("result".toList ++ '/' :: reqid) :=
    C97_join (by decide) h0 (by decide) h1 _ List.mem_cons_self _ List.mem_cons_self
  have he : result c net reqid = (meaning c b).bind fun o => .ok (resultOf c reqid, o) := by
    unfold result
    rw [hj]
    dsimp only
    rw [req_get hc net (by simp) (by simp)]
    dsimp only
    have : net ⟨.get, c.clsUrl ++ '/' :: (c.apibase ++ '/' :: ("result".toList ++ '/' :: reqid)), none⟩ = some r := hr
    rw [this]
    unfold received
    dsimp only
    rw [hb]
    dsimp only
    unfold meaning
    cases b.success with
    | none => rfl
    | some s =>
      cases s with
      | true => cases b.data <;> rfl
      | false =>
        cases b.awaiting with
        | none => cases b.data <;> rfl
        | some w =>
          cases w with
          | true => cases b.data <;> rfl
          | false =>
            cases b.data <;> cases c.raiseonerror <;> rfl
  rw [he]
  unfold meaning
  obtain ⟨s, i, d, w⟩ := b
  cases hro : c.raiseonerror <;> rcases s with _ | (_ | _) <;> rcases d with _ | d <;> rcases w with _ | (_ | _) <;>
    simp [Except.bind, eq_comm]

/-- The Python value of an outcome: the reply may itself be a truth value. -/
def Outcome.python (ofBool : Bool → α) : Outcome α → α
  | .value a => a
  | .bool b => ofBool b

/-- **C146** fails for results that are truth values: a call whose result is `True` cannot be told from one that still runs, whatever the
server and the number. -/
theorem C146_ambiguous_violated {c : Client} (hc : Neat c) {reqid : Str} (h0 : reqid ≠ []) (h1 : reqid.head? ≠ some '/') (ofBool : Bool → α)
    (done runs : Request (Params K) → Option (Resp α)) (s t : ℤ)
    (hd : done (resultOf c reqid) = some ⟨s, some { success := some true, data := some (ofBool true) }⟩)
    (hr : runs (resultOf c reqid) = some ⟨t, some { success := some false, awaiting := some true }⟩) :
    ∃ o o', result c done reqid = .ok (resultOf c reqid, o) ∧ result c runs reqid = .ok (resultOf c reqid, o') ∧
      o.python ofBool = o'.python ofBool :=
  ⟨.value (ofBool true), .bool true, ((C146_result hc done h0 h1 hd rfl).1 _ _).mpr ⟨rfl, rfl, rfl⟩,
    ((C146_result hc runs h0 h1 hr rfl).2.1 _).mpr ⟨rfl, rfl, rfl⟩, rfl⟩

/-- **C146** fails for errors: an unreachable server raises `KeyError` instead of the error of the interface, and an empty number raises the error
of the handler itself. -/
theorem C146_error_violated {c : Client} (hc : Neat c) (net : Request (Params K) → Option (Resp α)) {reqid : Str} (h0 : reqid ≠ [])
    (h1 : reqid.head? ≠ some '/') (hr : net (resultOf c reqid) = none) :
    result c net reqid = .error .key ∧ result c net [] = .error (.custom "UnboundLocalError") := by
  constructor
  · have hj : join "result".toList reqid = .ok ("result".toList ++ '/' :: reqid) :=
      C97_join (by decide) h0 (by decide) h1 _ List.mem_cons_self _ List.mem_cons_self
    unfold result
    rw [hj]
    dsimp only
    rw [req_get hc net (by simp) (by simp)]
    dsimp only
    have : net ⟨.get, c.clsUrl ++ '/' :: (c.apibase ++ '/' :: ("result".toList ++ '/' :: reqid)), none⟩ = none := hr
    rw [this]
    rfl
  · rfl

/-- **C146** The address of the wallet is that of the reply if the server says it succeeded, and `None` if it says it did not. -/
theorem C146_wallet {c : Client} (hc : Neat c) (net : Request (Params K) → Option (Resp Str)) (q : Request (Params K)) :
    (∀ a, addr c net = .ok (q, some a) ↔ q = ⟨.get, c.clsUrl ++ '/' :: (c.apibase ++ '/' :: "addr".toList), none⟩ ∧
      ∃ r b, net q = some r ∧ r.body = some b ∧ b.success = some true ∧ b.data = some a) ∧
    (addr c net = .ok (q, none) ↔ q = ⟨.get, c.clsUrl ++ '/' :: (c.apibase ++ '/' :: "addr".toList), none⟩ ∧
      ∃ r b, net q = some r ∧ r.body = some b ∧ b.success = some false) := by
  have e : c2s "addr".toList = "addr".toList := by decide
  unfold addr
  rw [e, req_get hc net (by decide) (by decide), Py.ok_bind]
  generalize (⟨.get, c.clsUrl ++ '/' :: (c.apibase ++ '/' :: "addr".toList), none⟩ : Request (Params K)) = q0
  dsimp only
  cases hn : net q0 with
  | none =>
    refine ⟨fun a => ⟨fun h => absurd h (by simp [received]), ?_⟩, ⟨fun h => absurd h (by simp [received]), ?_⟩⟩
    · rintro ⟨rfl, r, b, h, _⟩
      rw [hn] at h
      exact absurd h (by simp)
    · rintro ⟨rfl, r, b, h, _⟩
      rw [hn] at h
      exact absurd h (by simp)
  | some r =>
    obtain ⟨st, body⟩ := r
    have key : ∀ P : Body Str → Prop, (q = q0 ∧ ∃ r b, net q = some r ∧ r.body = some b ∧ P b) ↔ (q0 = q ∧ ∃ b, body = some b ∧ P b) := by
      intro P
      constructor
      · rintro ⟨rfl, r, b, h, h2, h3⟩
        rw [hn] at h
        have := Option.some.inj h
        subst this
        exact ⟨rfl, b, h2, h3⟩
      · rintro ⟨rfl, b, h2, h3⟩
        exact ⟨rfl, _, b, hn, h2, h3⟩
    constructor
    · intro a
      rw [key fun b => b.success = some true ∧ b.data = some a]
      unfold received
      dsimp only
      rcases body with _ | ⟨s, i, d, w⟩
      · simp
      · rcases s with _ | (_ | _) <;> rcases d with _ | d <;> simp
    · rw [key fun b => b.success = some false]
      unfold received
      dsimp only
      rcases body with _ | ⟨s, i, d, w⟩
      · simp
      · rcases s with _ | (_ | _) <;> rcases d with _ | d <;> simp

/-! ## Pairs -/

/-- **C146** The pairs are those of the reply, in order; an address of the table becomes its token in any letter case, any other stays an
address. -/
theorem C146_pairs {c : Client} (hc : Neat c) (net : Request (Params K) → Option (Resp (List (Str × Str)))) (own : Option TokenC)
    {ts : List SdkTkn} {ro : Option Bool} {global : TokenC} (hg : TokenC.make ts ro = .ok global) (hn : (ts.map SdkTkn.address).Nodup)
    {q : Request (Params K)} {ps : List ((SdkTkn ⊕ Str) × (SdkTkn ⊕ Str))} {s : Option Str} {inclstr : Bool}
    (h : pairs c net own global inclstr = .ok (q, ps, s)) :
    q = ⟨.post, address c "scall".toList "pairs".toList, some []⟩ ∧ ∃ b raw, net q = some ⟨200, some b⟩ ∧ b.data = some raw ∧
      List.Forall₂ (fun p r => ∀ z ∈ [(p.1, r.1), (p.2, r.2)], (∀ t ∈ ts, lower z.1 = t.address → z.2 = .inl t) ∧
        ((∀ t ∈ ts, lower z.1 ≠ t.address) → z.2 = .inr (lower z.1))) raw ps := by
  unfold pairs at h
  rw [Py.bind_eq_ok] at h
  obtain ⟨⟨q', raw⟩, h1, h2⟩ := h
  have hq : q' = q ∧ ps = raw.map fun p => (global.addr1 p.1, global.addr1 p.2) := by
    dsimp only at h2
    cases inclstr with
    | false =>
      rw [if_pos (by rfl)] at h2
      obtain ⟨e1, e2⟩ := Prod.mk.inj (Except.ok.inj h2)
      exact ⟨e1, (Prod.mk.inj e2).1.symm⟩
    | true =>
      rw [if_neg (by simp), Py.bind_eq_ok] at h2
      obtain ⟨l, _, h3⟩ := h2
      obtain ⟨e1, e2⟩ := Prod.mk.inj (Except.ok.inj h3)
      exact ⟨e1, (Prod.mk.inj e2).1.symm⟩
  obtain ⟨rfl, rfl⟩ := hq
  have e : c2s "pairs".toList = "pairs".toList := by decide
  obtain ⟨hq, b, hb, hd⟩ := (C98_fetch hc net noParams (ep := "pairs".toList) ⟨'p', "airs".toList, rfl, by decide⟩ [] q' raw).mp h1
  rw [e] at hq
  refine ⟨hq, b, raw, hb, hd, ?_⟩
  have hz : ∀ a : Str, (∀ t ∈ ts, lower a = t.address → global.addr1 a = .inl t) ∧
      ((∀ t ∈ ts, lower a ≠ t.address) → global.addr1 a = .inr (lower a)) := by
    intro a
    obtain ⟨rfl, _⟩ := TokenC.make_ok hg
    unfold TokenC.addr1
    dsimp only
    rw [TokenC.index_get]
    constructor
    · intro t ht he
      rw [he, TokenC.last_of_nodup hn ht]
    · intro hall
      have : TokenC.last SdkTkn.address ts (lower a) = none := by
        unfold TokenC.last
        rw [List.find?_eq_none]
        intro t ht
        simp only [decide_eq_true_eq]
        exact Ne.symm (hall t (List.mem_reverse.mp ht))
      rw [this]
  rw [List.forall₂_map_right_iff, List.forall₂_same]
  intro p _ z hz'
  simp only [List.mem_cons, List.not_mem_nil, or_false] at hz'
  rcases hz' with rfl | rfl
  · exact hz p.1
  · exact hz p.2

/-- **C146** fails for the table of the client: the pairs are the same whatever table it was given, none included. -/
theorem C146_own_violated (c : Client) (net : Request (Params K) → Option (Resp (List (Str × Str)))) (own own' : Option TokenC) (global : TokenC)
    (inclstr : Bool) : pairs c net own global inclstr = pairs c net own' global inclstr := rfl

theorem mapM_raises {β γ : Type} {l : List β} {f : β → Py γ} {e : Err} (h : ∀ a ∈ l, f a = .error e ∨ ∃ b, f a = .ok b)
    (hx : ∃ a ∈ l, f a = .error e) : l.mapM f = .error e := by
  induction l with
  | nil => simp at hx
  | cons a l ih =>
    rw [List.mapM_cons]
    rcases h a List.mem_cons_self with ha | ⟨b, ha⟩
    · rw [ha]
      rfl
    · rw [ha, Py.ok_bind]
      obtain ⟨a', ha', he⟩ := hx
      rcases List.mem_cons.mp ha' with rfl | hm
      · rw [ha] at he
        exact absurd he (by simp)
      · rw [ih (fun x hx => h x (List.mem_cons_of_mem _ hx)) ⟨a', hm, he⟩]
        rfl

/-- **C146** fails for the text of the pairs: one token that is not in the table makes it raise, although the pairs themselves are returned. -/
theorem C146_text_violated (c : Client) (net : Request (Params K) → Option (Resp (List (Str × Str)))) (own : Option TokenC) (global : TokenC)
    {q : Request (Params K)} {ps : List ((SdkTkn ⊕ Str) × (SdkTkn ⊕ Str))} (h : pairs c net own global = .ok (q, ps, none))
    (hu : ∃ p ∈ ps, p.1.isRight = true ∨ p.2.isRight = true) : pairs c net own global true = .error .attr := by
  unfold pairs at h ⊢
  rw [Py.bind_eq_ok] at h
  obtain ⟨r, h1, h2⟩ := h
  rw [h1, Py.ok_bind]
  dsimp only at h2 ⊢
  rw [if_pos (by rfl)] at h2
  obtain ⟨_, e2⟩ := Prod.mk.inj (Except.ok.inj h2)
  have hps := (Prod.mk.inj e2).1
  rw [if_neg (by simp), hps, mapM_raises (e := .attr)]
  · rfl
  · rintro ⟨a, b⟩ _
    rcases a with a | a <;> rcases b with b | b
    · exact Or.inr ⟨_, rfl⟩
    · exact Or.inl rfl
    · exact Or.inl rfl
    · exact Or.inl rfl
  · obtain ⟨⟨a, b⟩, hp, hr⟩ := hu
    refine ⟨_, hp, ?_⟩
    rcases a with a | a <;> rcases b with b | b
    · simp at hr
    · rfl
    · rfl
    · rfl

theorem splitChar_none {c : Char} : ∀ {s : Str}, c ∉ s → TokenC.splitChar c s = [s]
  | [], _ => rfl
  | a :: s, h => by
    rw [List.mem_cons, not_or] at h
    unfold TokenC.splitChar
    rw [if_neg (Ne.symm h.1), splitChar_none h.2]

theorem splitChar_sep {c : Char} : ∀ {s : Str} (t : Str), c ∉ s → TokenC.splitChar c (s ++ c :: t) = s :: TokenC.splitChar c t
  | [], t, _ => by
    rw [List.nil_append]
    conv_lhs => unfold TokenC.splitChar
    rw [if_pos rfl]
  | a :: s, t, h => by
    rw [List.mem_cons, not_or] at h
    rw [List.cons_append]
    conv_lhs => unfold TokenC.splitChar
    rw [if_neg (Ne.symm h.1), splitChar_sep t h.2]

theorem commaJoin_split : ∀ (s : Str) (l : List Str), (∀ x ∈ s :: l, ',' ∉ x) →
    TokenC.splitChar ',' (commaJoin (s :: l)) = s :: l.map fun x => ' ' :: x
  | s, [], h => splitChar_none (h s List.mem_cons_self)
  | s, t :: l, h => by
    have h2 : ∀ x ∈ (t :: l), ',' ∉ x := fun x hx => h x (List.mem_cons_of_mem _ hx)
    have ih := commaJoin_split t l h2
    show TokenC.splitChar ',' (s ++ ',' :: (' ' :: commaJoin (t :: l))) = _
    rw [splitChar_sep _ (h s List.mem_cons_self)]
    conv_lhs => rw [TokenC.splitChar]
    rw [if_neg (by decide), ih]
    rfl

/-- **C146** If all the tokens are in the table, the text names the pairs one by one: what stands between the commas are a blank, the tickers of
the pair and a slash. -/
theorem C146_text (c : Client) (net : Request (Params K) → Option (Resp (List (Str × Str)))) (own : Option TokenC) (global : TokenC)
    {q : Request (Params K)} {p : SdkTkn × SdkTkn} {ps : List (SdkTkn × SdkTkn)}
    (h : pairs c net own global = .ok (q, (p :: ps).map fun p => (.inl p.1, .inl p.2), none))
    (hc : ∀ y ∈ p :: ps, ',' ∉ y.1.token ∧ ',' ∉ y.2.token) :
    ∃ s, pairs c net own global true = .ok (q, (p :: ps).map fun p => (.inl p.1, .inl p.2), some s) ∧
      TokenC.splitChar ',' s = (p.1.token ++ '/' :: p.2.token) :: ps.map fun p => ' ' :: (p.1.token ++ '/' :: p.2.token) := by
  unfold pairs at h ⊢
  rw [Py.bind_eq_ok] at h
  obtain ⟨r, h1, h2⟩ := h
  rw [h1, Py.ok_bind]
  dsimp only at h2 ⊢
  rw [if_pos (by rfl)] at h2
  obtain ⟨hq, e2⟩ := Prod.mk.inj (Except.ok.inj h2)
  have hps := (Prod.mk.inj e2).1
  have hm : ((p :: ps).map fun p : SdkTkn × SdkTkn => ((.inl p.1, .inl p.2) : (SdkTkn ⊕ Str) × (SdkTkn ⊕ Str))).mapM pairText =
      .ok ((p :: ps).map fun p => p.1.token ++ '/' :: p.2.token) := by
    clear hps h2 hc e2
    induction (p :: ps) with
    | nil => rfl
    | cons a l ih =>
      rw [List.map_cons, List.mapM_cons, ih]
      rfl
  rw [if_neg (by simp), hps, hm]
  refine ⟨_, by rw [Py.ok_bind, hq], ?_⟩
  rw [List.map_cons, commaJoin_split]
  · rw [List.map_map]
    rfl
  · intro x hx
    rw [← List.map_cons (f := fun p : SdkTkn × SdkTkn => p.1.token ++ '/' :: p.2.token)] at hx
    obtain ⟨y, hy, rfl⟩ := List.mem_map.mp hx
    rw [List.mem_append, List.mem_cons, not_or, not_or]
    exact ⟨(hc y hy).1, by decide, (hc y hy).2⟩

/-! ## Questions about liquidity -/

/-- **C146** A question about liquidity names either a list of pairs, whose entries are sent as texts, or two tokens; both together raise. -/
theorem C146_liquidity {c : Client} (hc : Neat c) (net : Request (Params K) → Option (Resp α)) (fl : K → Str) (source target : Val K)
    (ps : List (Dict K)) :
    (¬(source = .none ∧ target = .none) → hasLiquidity c net fl source target (some ps) = .error .value) ∧
    (∃ l, Posts net (hasLiquidity c net fl .none .none (some ps)) (address c "scall".toList "has_liquidity_by_pair".toList)
        [("pairList".toList, .dicts l)] ∧
      List.Forall₂ (List.Forall₂ fun a b => a.1 = b.1 ∧ ∃ s, b.2 = .str s ∧ Stands fl a.2 s) ps l) ∧
    ∃ s t, Posts net (hasLiquidity c net fl source target) (address c "scall".toList "has_liquidity_by_pair".toList)
        [("sourceToken".toList, .str s), ("targetToken".toList, .str t)] ∧ Stands fl source s ∧ Stands fl target t := by
  have e : c2s "hasLiquidityByPair".toList = "has_liquidity_by_pair".toList := by decide
  refine ⟨?_, ?_, ?_⟩
  · intro h
    unfold hasLiquidity hasLiquidityParams
    dsimp only
    rw [if_pos h]
    rfl
  · refine ⟨ps.map fun p => p.map fun kv => (kv.1, .str (kv.2.text fl)), ?_, ?_⟩
    · intro q d
      unfold hasLiquidity hasLiquidityParams
      dsimp only
      rw [if_neg (by simp), Py.ok_bind, ← e]
      exact C98_fetch hc net noParams ⟨_, _, rfl, by decide⟩ _ q d
    · rw [List.forall₂_map_right_iff, List.forall₂_same]
      intro p _
      rw [List.forall₂_map_right_iff, List.forall₂_same]
      intro kv _
      exact ⟨rfl, _, rfl, stands fl kv.2⟩
  · refine ⟨source.text fl, target.text fl, ?_, stands fl source, stands fl target⟩
    intro q d
    unfold hasLiquidity hasLiquidityParams
    dsimp only
    rw [Py.ok_bind, ← e]
    exact C98_fetch hc net noParams ⟨_, _, rfl, by decide⟩ _ q d

/-- **C146** fails for a question that names nothing: it does not raise, and the server is asked about tokens called `None`. -/
theorem C146_nothing_violated {c : Client} (hc : Neat c) (net : Request (Params K) → Option (Resp α)) (fl : K → Str) :
    Posts net (hasLiquidity c net fl) (address c "scall".toList "has_liquidity_by_pair".toList)
      [("sourceToken".toList, .str "None".toList), ("targetToken".toList, .str "None".toList)] := by
  have e : c2s "hasLiquidityByPair".toList = "has_liquidity_by_pair".toList := by decide
  intro q d
  unfold hasLiquidity hasLiquidityParams
  dsimp only
  rw [Py.ok_bind, ← e]
  exact C98_fetch hc net noParams ⟨_, _, rfl, by decide⟩ _ q d

end

/-! ## Examples -/

namespace Requests

theorem localhost_neat : Neat localhost := ⟨by decide, by decide, by decide, by decide, by decide⟩

/-- A server that replies to everything with the same data. -/
def always {α : Type} (d : α) (_ : Request (Params ℚ)) : Option (Resp α) := some ⟨200, some { success := some true, data := some d }⟩

/-- The texts of floats, for the examples. -/
def someText (_ : ℚ) : Str := "1.5".toList

/-- An action of a trade. -/
def action : Dict ℚ := [("id".toList, .int 17), ("amount".toList, .str "100".toList)]

example := C145_target localhost_neat (always 5) someText "0xa".toList "0xb".toList (some [action]) none (some (.int 1000)) (some [])
example := C145_source localhost_neat (always 5) someText "0xa".toList "0xb".toList (some [action]) (some (.int 1700000000)) none none
example := C145_create localhost_neat (always 5) someText "0xa".toList "0xb".toList (.int 1) (.float (3 / 2)) (.int 100) (.int 2) (.int 3) (.int 10)
  (some [("gasLimit".toList, .int 300000)])
example := C145_delete localhost_neat (always 5) someText (.int 12) (some [("gasPrice".toList, .int 30)])
example := C145_update localhost_neat (always 5) someText (.int 12) "0xff".toList "0xa".toList "0xb".toList
  { buyPriceLow := .int 1, sellMarginalPrice := .float (3 / 2) } (.int 7) .none none

example : deleteStrategy localhost (always 5) someText (.int 12) (some [("gasPrice".toList, .int 30), ("gasLimit".toList, .int 0)]) =
    .ok (⟨.post, "http://localhost:3118/api/scall/delete_strategy".toList, some [("strategyId".toList, .str "12".toList),
      ("overrides".toList, .dict [("gasPrice".toList, .int 30), ("gasLimit".toList, .int 999999999)])]⟩, 5) := by decide +kernel

example : (⟨.int 1, .none, .none, .none, .float (3 / 2), .none, .int 9, .none⟩ : StrategyUpdate ℚ).asdict someText =
    [("buyPriceLow".toList, .str "1".toList), ("sellPriceHigh".toList, .str "1.5".toList)] := by decide +kernel

example : updateStrategy localhost (always 5) someText (.int 12) [] [] [] {} (.int 7) (.int 8) none (some true) =
    updateStrategy localhost (always 5) someText (.int 12) [] [] [] {} .none .none none (some true) :=
  C145_marginal_violated _ _ _ _ _ _ _ _ _ _ _ _

example : withGas (some [("gasLimit".toList, .int 0)] : Option (Dict ℚ)) ≠ [("gasLimit".toList, .int 0)] :=
  (C145_caller_violated _).mpr (by
    intro g hg
    have : g = .int 0 := (Option.some.inj hg).symm
    rw [this]
    rfl)

example := C145_sign_partial localhost_neat (always 5) (.str "0x1234".toList)

theorem signed : signsubmittx localhost (always 5) (.str "0x1234".toList) true = .ok (⟨.post, "http://localhost:3118/api/signsubmittx".toList,
    some [("tx".toList, .str "0x1234".toList), ("true".toList, .bool true)]⟩, 5) := by decide +kernel

example := C145_sign_violated localhost_neat (always 5) (.str "0x1234".toList) true signed

/-- Two tokens and their balances. -/
def eth : SdkTkn := ⟨"ETH".toList, "0xee".toList, some 18, "ETH".toList⟩
def usdc : SdkTkn := ⟨"USDC".toList, "0xa0".toList, some 6, "USDC".toList⟩

example := C146_balance localhost_neat (always [int2bn (.inl (5 * 10 ^ 17)), int2bn (.inl 1234567)]) "0x99".toList
  [(eth, 18, 5 * 10 ^ 17), (usdc, 6, 1234567)] (by
    intro x hx
    simp only [List.mem_cons, List.not_mem_nil, or_false] at hx
    rcases hx with rfl | rfl <;> rfl) (by decide) rfl rfl

example : (getERC20Balance localhost (always [int2bn (.inl (5 * 10 ^ 17)), int2bn (.inl 1234567)]) [eth, usdc] "0x99".toList).map Prod.snd =
    .ok [("ETH".toList, 1 / 2), ("USDC".toList, 1234567 / 1000000)] := by decide +kernel

example := C146_entries localhost_neat (always ["WETH".toList, "USDC".toList]) (.inl [eth, usdc])
  (b := { success := some true, data := some ["WETH".toList, "USDC".toList] }) rfl (by decide) rfl

example := C146_short_violated localhost_neat (always ["WETH".toList]) ["0xee".toList, "0xa0".toList] (by decide)
  (b := { success := some true, data := some ["WETH".toList] }) rfl (by decide) rfl

example := C146_ticker_violated localhost_neat (always [1, 2]) eth { usdc with token := "ETH".toList } rfl
  (b := { success := some true, data := some [1, 2] }) rfl rfl

example := C146_result (r := ⟨200, some { success := some true, data := some 5 }⟩) localhost_neat (always 5) (reqid := "77".toList) (by decide)
  (by decide) rfl rfl

example := C146_ambiguous_violated localhost_neat (reqid := "77".toList) (by decide) (by decide) (fun b : Bool => b) (always true)
  (fun _ : Request (Params ℚ) => some ⟨200, some { success := some false, awaiting := some true }⟩) 200 200 rfl rfl

example := C146_error_violated localhost_neat (fun _ : Request (Params ℚ) => (none : Option (Resp ℕ))) (reqid := "77".toList) (by decide)
  (by decide) rfl

example := C146_wallet localhost_neat (always "0x99".toList)
  ⟨.get, localhost.clsUrl ++ '/' :: (localhost.apibase ++ '/' :: "addr".toList), none⟩

/-- The table of the module, for the examples. -/
def table : TokenC := ⟨true, [("ETH".toList, eth), ("USDC".toList, usdc)], [("0xee".toList, eth), ("0xa0".toList, usdc)]⟩

theorem table_made : TokenC.make [eth, usdc] = .ok table := by decide +kernel

theorem some_pairs : pairs localhost (always [("0xEE".toList, "0xa0".toList), ("0xee".toList, "0x11".toList)]) none table =
    .ok (⟨.post, "http://localhost:3118/api/scall/pairs".toList, some []⟩, [(.inl eth, .inl usdc), (.inl eth, .inr "0x11".toList)], none) := by
  rfl

example := C146_pairs localhost_neat _ none table_made (by decide) some_pairs
example := C146_text_violated localhost _ none table some_pairs ⟨_, List.mem_cons_of_mem _ List.mem_cons_self, Or.inr rfl⟩

theorem known_pairs : pairs localhost (always [("0xEE".toList, "0xa0".toList), ("0xa0".toList, "0xee".toList)]) none table =
    .ok (⟨.post, "http://localhost:3118/api/scall/pairs".toList, some []⟩, [(eth, usdc), (usdc, eth)].map fun p => (.inl p.1, .inl p.2), none) := by
  rfl

example := C146_text localhost _ none table known_pairs (by decide)

example := C146_liquidity localhost_neat (always true) someText (.str "0xee".toList) (.str "0xa0".toList)
  [[("sourceToken".toList, .str "0xee".toList), ("targetToken".toList, .str "0xa0".toList)]]

example : hasLiquidity localhost (always true) someText = .ok (⟨.post, "http://localhost:3118/api/scall/has_liquidity_by_pair".toList,
    some [("sourceToken".toList, .str "None".toList), ("targetToken".toList, .str "None".toList)]⟩, true) :=
  (C146_nothing_violated localhost_neat (always true) someText _ _).mpr ⟨rfl, _, rfl, rfl⟩

end Requests

end Carbon.Sdk
