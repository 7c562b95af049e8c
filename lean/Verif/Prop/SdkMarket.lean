import Verif.Prop.SdkBase
import Verif.Sdk.Market

/-!
# C99: market information of the interface; C100: trades and strategies sent to it
-/

set_option linter.unusedSectionVars false

namespace Carbon.Sdk

open CarbonPair (pyDiv)
open UICurve (pyDiv_ok)

/-- A pair of two different tokens that the container of the object knows. -/
structure Quoted (tokens : Option TokenC) (arg : CarbonPair.Arg) (p : CarbonPair) (T : TokenC) (b q : SdkTkn) : Prop where
  tokens : tokens = some T
  pair : CarbonPair.make arg none none = .ok p
  ne : p.tknb ≠ p.tknq
  base : T.ticker p.tknb = .ok (some b)
  baseName : b.token = p.tknb
  quote : T.ticker p.tknq = .ok (some q)
  quoteName : q.token = p.tknq

/-- A pair that has been made can be made again: same names. -/
theorem remake {arg : CarbonPair.Arg} {p : CarbonPair} (h : CarbonPair.make arg none none = .ok p) :
    ∃ p', CarbonPair.make (.pair p) none none = .ok p' ∧ p'.tknb = p.tknb ∧ p'.tknq = p.tknq := by
  have hu := CarbonPair.make_upper h
  have hs : '/' ∉ p.tknb ∧ '/' ∉ p.tknq := by
    have key : ∀ s d x y bq, CarbonPair.unpack s = .ok bq → p = CarbonPair.finish bq.1 bq.2 d x y → '/' ∉ p.tknb ∧ '/' ∉ p.tknq := by
      intro s d x y bq hb hp
      obtain ⟨_, h1, h2⟩ := CarbonPair.unpack_eq_ok.mp hb
      rw [hp]
      simp [CarbonPair.finish, h1, h2]
    cases arg with
    | none => cases h
    | str s =>
      cases s with
      | nil => cases h
      | cons c s =>
        unfold CarbonPair.make at h
        dsimp only at h
        rw [if_neg (by simp [CarbonPair.truthy]), Py.bind_eq_ok] at h
        obtain ⟨bq, hb, h⟩ := h
        exact key _ _ _ _ bq hb (Except.ok.inj h).symm
    | pair p0 =>
      unfold CarbonPair.make at h
      dsimp only at h
      rw [if_neg (by simp [CarbonPair.truthy]), Py.bind_eq_ok] at h
      obtain ⟨bq, hb, h⟩ := h
      exact key _ _ _ _ bq hb (Except.ok.inj h).symm
  refine ⟨CarbonPair.finish p.tknb p.tknq false p.decB p.decQ, ?_, hu.1, hu.2⟩
  unfold CarbonPair.make
  dsimp only
  rw [if_neg (by simp [CarbonPair.truthy]), (CarbonPair.unpack_eq_ok (s := p.slashpair) (bq := (p.tknb, p.tknq))).mpr ⟨rfl, hs.1, hs.2⟩]
  rfl

namespace Quoted

variable {tokens : Option TokenC} {arg : CarbonPair.Arg} {p : CarbonPair} {T : TokenC} {b q : SdkTkn}

theorem again (h : Quoted tokens arg p T b q) :
    ∃ p', Quoted tokens (.pair p) p' T b q ∧ p'.tknb = p.tknb ∧ p'.tknq = p.tknq := by
  obtain ⟨p', h1, h2, h3⟩ := remake h.pair
  refine ⟨p', ⟨h.tokens, h1, ?_, ?_, ?_, ?_, ?_⟩, h2, h3⟩
  · rw [h2, h3]; exact h.ne
  · rw [h2]; exact h.base
  · rw [h2]; exact h.baseName
  · rw [h3]; exact h.quote
  · rw [h3]; exact h.quoteName

theorem lookB (h : Quoted tokens arg p T b q) : lookup T (some p.tknb) = .ok b := by
  unfold lookup
  dsimp only
  rw [h.base]
  rfl

theorem lookQ (h : Quoted tokens arg p T b q) : lookup T (some p.tknq) = .ok q := by
  unfold lookup
  dsimp only
  rw [h.quote]
  rfl

theorem otherB (_ : Quoted tokens arg p T b q) : p.other p.tknb = some p.tknq := by
  simp [CarbonPair.other, CarbonPair.hasBase]

theorem otherQ (h : Quoted tokens arg p T b q) : p.other p.tknq = some p.tknb := by
  simp [CarbonPair.other, CarbonPair.hasBase, CarbonPair.hasQuote, h.ne.symm]

variable {K : Type} [Field K] [LinearOrder K]

theorem priceBid (h : Quoted tokens arg p T b q) (x : K) : p.price x b.token q.token = .ok (some x) := by
  rw [h.baseName, h.quoteName]
  simp [CarbonPair.price, CarbonPair.hasToken, CarbonPair.hasBase, CarbonPair.hasQuote, h.ne, h.ne.symm]

theorem priceAsk (h : Quoted tokens arg p T b q) (x : K) : p.price x q.token b.token = (pyDiv 1 x).map some := by
  rw [h.baseName, h.quoteName]
  simp only [CarbonPair.price, CarbonPair.hasToken, CarbonPair.hasBase, CarbonPair.hasQuote]
  simp only [h.ne.symm, decide_true, decide_false, if_true, Bool.not_true, Bool.false_eq_true, if_false, ite_self]
  cases pyDiv 1 x <;> rfl

theorem rangeBid (h : Quoted tokens arg p T b q) (api : Api K) : getRangeByPair api tokens arg p.tknq = (do
    let mn ← api.minRate b.address q.address
    let mx ← api.maxRate b.address q.address
    .ok ⟨some mx, some mn, q.token, b.token, true, p, true⟩) := by
  unfold getRangeByPair
  rw [h.tokens]
  unfold provided
  rw [Py.ok_bind, h.pair, Py.ok_bind, h.otherQ, h.lookB, Py.ok_bind, h.lookQ, Py.ok_bind]
  have e1 : p.hasBase p.tknq = false := by simp [CarbonPair.hasBase, h.ne.symm]
  have e2 : p.hasQuote q.token = true := by rw [h.quoteName]; simp [CarbonPair.hasQuote]
  cases api.minRate b.address q.address with
  | error e => rfl
  | ok mn =>
    cases api.maxRate b.address q.address with
    | error e => rfl
    | ok mx =>
      simp only [Py.ok_bind]
      rw [h.priceBid, Py.ok_bind, h.priceBid, Py.ok_bind, e1, e2]
      rfl

theorem rangeAsk (h : Quoted tokens arg p T b q) (api : Api K) : getRangeByPair api tokens arg p.tknb = (do
    let mn ← api.minRate q.address b.address
    let mx ← api.maxRate q.address b.address
    let s ← pyDiv 1 mx
    let e ← pyDiv 1 mn
    .ok ⟨some s, some e, b.token, q.token, false, p, false⟩) := by
  unfold getRangeByPair
  rw [h.tokens]
  unfold provided
  rw [Py.ok_bind, h.pair, Py.ok_bind, h.otherB, h.lookQ, Py.ok_bind, h.lookB, Py.ok_bind]
  have e1 : p.hasBase p.tknb = true := by simp [CarbonPair.hasBase]
  have e2 : p.hasQuote b.token = false := by rw [h.baseName]; simp [CarbonPair.hasQuote, h.ne]
  cases api.minRate q.address b.address with
  | error e => rfl
  | ok mn =>
    cases api.maxRate q.address b.address with
    | error e => rfl
    | ok mx =>
      simp only [Py.ok_bind]
      rw [h.priceAsk, h.priceAsk, e1, e2]
      cases pyDiv 1 mx with
      | error e => rfl
      | ok s =>
        cases pyDiv 1 mn with
        | error e => rfl
        | ok e => rfl

theorem liqBid (h : Quoted tokens arg p T b q) (api : Api K) : getLiquidityByPair api tokens arg p.tknq = (do
    let a ← api.liquidity b.address q.address
    .ok { amount := a, unit := p.tknq, sells := p.tknq, bid := true, pair := p }) := by
  unfold getLiquidityByPair
  rw [h.tokens]
  unfold provided
  rw [Py.ok_bind, h.pair, Py.ok_bind, h.lookQ, Py.ok_bind, h.otherQ, h.lookB, Py.ok_bind]
  have e1 : p.hasBase p.tknq = false := by simp [CarbonPair.hasBase, h.ne.symm]
  rw [e1]
  rfl

theorem liqAsk (h : Quoted tokens arg p T b q) (api : Api K) : getLiquidityByPair api tokens arg p.tknb = (do
    let a ← api.liquidity q.address b.address
    .ok { amount := a, unit := p.tknb, sells := p.tknb, bid := false, pair := p }) := by
  unfold getLiquidityByPair
  rw [h.tokens]
  unfold provided
  rw [Py.ok_bind, h.pair, Py.ok_bind, h.lookB, Py.ok_bind, h.otherB, h.lookQ, Py.ok_bind]
  have e1 : p.hasBase p.tknb = true := by simp [CarbonPair.hasBase]
  rw [e1]
  rfl

end Quoted

/-! ## Market information -/

section
variable {K : Type} [Field K] [LinearOrder K] [IsStrictOrderedRing K]
variable {tokens : Option TokenC} {arg : CarbonPair.Arg} {p : CarbonPair} {T : TokenC} {b q : SdkTkn}

/-- What the server replies about the sale of `tgt` for `src`. -/
structure Side (api : Api K) (src tgt : SdkTkn) (mn mx liq : K) : Prop where
  min : api.minRate src.address tgt.address = .ok mn
  max : api.maxRate src.address tgt.address = .ok mx
  liquidity : api.liquidity src.address tgt.address = .ok liq
  pos : 0 < mn
  le : mn ≤ mx

/-- **C99** The market of a pair: the bids are the rates at which the base token is taken for the quote token, best and last; the asks are the
reciprocals of the rates at which the quote token is taken for the base token; and the liquidity is that of the token given out. -/
theorem C99_market (h : Quoted tokens arg p T b q) {api : Api K} {nb xb lb na xa la : K} (hb : Side api b q nb xb lb) (ha : Side api q b na xa la) :
    getMarketByPair api tokens arg = .ok ⟨p.slashpair, some xb, some (1 / xa), lb, la, some nb, some (1 / na)⟩ := by
  obtain ⟨p', h', e1, e2⟩ := h.again
  unfold getMarketByPair
  have hp : provided tokens = .ok T := by rw [h.tokens]; rfl
  rw [hp, Py.ok_bind, h.pair, Py.ok_bind, ← e1, ← e2, h'.rangeBid, hb.min, Py.ok_bind, hb.max, Py.ok_bind, Py.ok_bind, h'.rangeAsk, ha.min,
    Py.ok_bind, ha.max, Py.ok_bind, pyDiv_ok (lt_of_lt_of_le ha.pos ha.le).ne', Py.ok_bind, pyDiv_ok ha.pos.ne', Py.ok_bind, Py.ok_bind,
    h'.liqBid, hb.liquidity, Py.ok_bind, Py.ok_bind, h'.liqAsk, ha.liquidity, Py.ok_bind, Py.ok_bind]

/-- **C99** The market of the reversed pair is the same market seen from the other side: its bids are the reciprocals of the asks. -/
theorem C99_reverse (h : Quoted tokens arg p T b q) {api : Api K} {nb xb lb na xa la : K} (hb : Side api b q nb xb lb) (ha : Side api q b na xa la)
    {arg' : CarbonPair.Arg} {p' : CarbonPair} (hp : CarbonPair.make arg' none none = .ok p') (h1 : p'.tknb = p.tknq) (h2 : p'.tknq = p.tknb) :
    ∃ m m' : Market K, getMarketByPair api tokens arg = .ok m ∧ getMarketByPair api tokens arg' = .ok m' ∧
      m'.bestBid = m.bestAsk.map (1 / ·) ∧ m'.bestAsk = m.bestBid.map (1 / ·) ∧
      m'.lastBid = m.lastAsk.map (1 / ·) ∧ m'.lastAsk = m.lastBid.map (1 / ·) ∧ m'.liqBid = m.liqAsk ∧ m'.liqAsk = m.liqBid := by
  have h' : Quoted tokens arg' p' T q b := ⟨h.tokens, hp, by rw [h1, h2]; exact h.ne.symm, by rw [h1]; exact h.quote,
    by rw [h1]; exact h.quoteName, by rw [h2]; exact h.base, by rw [h2]; exact h.baseName⟩
  refine ⟨_, _, C99_market h hb ha, C99_market h' ha hb, ?_, ?_, ?_, ?_, rfl, rfl⟩ <;> simp

/-- **C99** Bids fall from the best to the last and asks rise; and the best bid is above the best ask exactly if changing back and forth at
the best rates gains. -/
theorem C99_order (h : Quoted tokens arg p T b q) {api : Api K} {nb xb lb na xa la : K} (hb : Side api b q nb xb lb) (ha : Side api q b na xa la) :
    ∃ (m : Market K) (bb ba nb' na' : K), getMarketByPair api tokens arg = .ok m ∧ m.bestBid = some bb ∧ m.bestAsk = some ba ∧
      m.lastBid = some nb' ∧ m.lastAsk = some na' ∧ 0 < nb' ∧ nb' ≤ bb ∧ 0 < ba ∧ ba ≤ na' ∧ m.inverted = .ok (decide (1 < xb * xa)) := by
  have hxa : 0 < xa := lt_of_lt_of_le ha.pos ha.le
  refine ⟨_, xb, 1 / xa, nb, 1 / na, C99_market h hb ha, rfl, rfl, rfl, rfl, hb.pos, hb.le, by positivity,
    one_div_le_one_div_of_le ha.pos ha.le, ?_⟩
  show Except.ok (decide (1 / xa < xb)) = _
  congr 1
  rw [decide_eq_decide, div_lt_iff₀ hxa]

/-- **C99** fails for markets with bids only: a server that quotes a rate of zero for the missing asks brings the query down. -/
theorem C99_one_sided_violated (h : Quoted tokens arg p T b q) {api : Api K} {nb xb lb na : K} (hb : Side api b q nb xb lb)
    (h1 : api.minRate q.address b.address = .ok na) (h2 : api.maxRate q.address b.address = .ok 0) :
    getMarketByPair api tokens arg = .error .zeroDiv := by
  obtain ⟨p', h', e1, e2⟩ := h.again
  unfold getMarketByPair
  have hp : provided tokens = .ok T := by rw [h.tokens]; rfl
  have hz : pyDiv (1 : K) 0 = .error .zeroDiv := by unfold pyDiv; rw [if_pos rfl]
  rw [hp, Py.ok_bind, h.pair, Py.ok_bind, ← e1, ← e2, h'.rangeBid, hb.min, Py.ok_bind, hb.max, Py.ok_bind, Py.ok_bind, h'.rangeAsk, h1,
    Py.ok_bind, h2, Py.ok_bind, hz]
  rfl

/-- **C99** fails for the flag `inverted` of a range, which says whether the rates are the reciprocals of those of the server: it is set
exactly where they are not. -/
theorem C99_flag_violated (h : Quoted tokens arg p T b q) {api : Api K} {nb xb lb na xa la : K} (hb : Side api b q nb xb lb)
    (ha : Side api q b na xa la) : ∃ rb ra : RangeByPair K, getRangeByPair api tokens arg p.tknq = .ok rb ∧ rb.startRate = some xb ∧
      rb.inverted = true ∧ getRangeByPair api tokens arg p.tknb = .ok ra ∧ ra.startRate = some (1 / xa) ∧ ra.inverted = false := by
  refine ⟨⟨some xb, some nb, q.token, b.token, true, p, true⟩, ⟨some (1 / xa), some (1 / na), b.token, q.token, false, p, false⟩,
    ?_, rfl, rfl, ?_, rfl, rfl⟩
  · rw [h.rangeBid, hb.min, Py.ok_bind, hb.max, Py.ok_bind]
  · rw [h.rangeAsk, ha.min, Py.ok_bind, ha.max, Py.ok_bind, pyDiv_ok (lt_of_lt_of_le ha.pos ha.le).ne', Py.ok_bind, pyDiv_ok ha.pos.ne',
      Py.ok_bind]

/-- **C99** A token that is not one of the pair, under the very name the pair has for it, brings every query down. -/
theorem C99_foreign (h : Quoted tokens arg p T b q) (api : Api K) (t : Str) (h1 : t ≠ p.tknb) (h2 : t ≠ p.tknq) :
    getRangeByPair api tokens arg t = .error .attr ∧ (∀ r, getDepthByPair api tokens r arg t = .error .attr) ∧
      (∀ x, getLiquidityByPair api tokens arg t ≠ .ok x) ∧ ∀ x, hasLiquidityByPair api tokens arg t ≠ .ok x := by
  have ho : p.other t = none := by simp [CarbonPair.other, CarbonPair.hasBase, CarbonPair.hasQuote, h1, h2]
  have hp : provided tokens = .ok T := by rw [h.tokens]; rfl
  refine ⟨?_, ?_, ?_, ?_⟩
  · unfold getRangeByPair
    rw [hp, Py.ok_bind, h.pair, Py.ok_bind, ho]
    rfl
  · intro r
    unfold getDepthByPair
    rw [hp, Py.ok_bind, h.pair, Py.ok_bind, ho]
    rfl
  · intro x
    unfold getLiquidityByPair
    rw [hp, Py.ok_bind, h.pair, Py.ok_bind, ho]
    cases lookup T (some t) with
    | error e => simp
    | ok y => simp [lookup]
  · intro x
    unfold hasLiquidityByPair
    rw [hp, Py.ok_bind, h.pair, Py.ok_bind, ho]
    cases lookup T (some t) with
    | error e => simp
    | ok y => simp [lookup]

/-- **C99** The depth at the start of a range is asked at the best rate of the server and the depth at the end at the last, on both sides. -/
theorem C99_depth (h : Quoted tokens arg p T b q) {api : Api K} {nb xb lb na xa la : K} (hb : Side api b q nb xb lb) (ha : Side api q b na xa la) :
    (∃ r : RangeByPair K, getRangeByPair api tokens arg p.tknq = .ok r ∧ ∀ s e, r.startRate = some s → r.endRate = some e →
      (getDepthByPair api tokens s arg p.tknq).map (·.amount) = api.depth b.address q.address xb ∧
      (getDepthByPair api tokens e arg p.tknq).map (·.amount) = api.depth b.address q.address nb) ∧
    ∃ r : RangeByPair K, getRangeByPair api tokens arg p.tknb = .ok r ∧ ∀ s e, r.startRate = some s → r.endRate = some e →
      (getDepthByPair api tokens s arg p.tknb).map (·.amount) = api.depth q.address b.address xa ∧
      (getDepthByPair api tokens e arg p.tknb).map (·.amount) = api.depth q.address b.address na := by
  have hp : provided tokens = .ok T := by rw [h.tokens]; rfl
  have hxa : 0 < xa := lt_of_lt_of_le ha.pos ha.le
  have e1 : p.hasBase q.token = false := by rw [h.quoteName]; simp [CarbonPair.hasBase, h.ne.symm]
  have e2 : p.hasBase b.token = true := by rw [h.baseName]; simp [CarbonPair.hasBase]
  have hbid : ∀ r, (getDepthByPair api tokens r arg p.tknq).map (·.amount) = api.depth b.address q.address r := by
    intro r
    unfold getDepthByPair
    rw [hp, Py.ok_bind, h.pair, Py.ok_bind, h.otherQ, h.lookB, Py.ok_bind, h.lookQ, Py.ok_bind, e1]
    dsimp only
    rw [if_neg (by simp), Py.ok_bind]
    cases api.depth b.address q.address r <;> rfl
  have hask : ∀ r : K, r ≠ 0 → (getDepthByPair api tokens r arg p.tknb).map (·.amount) = api.depth q.address b.address (1 / r) := by
    intro r hr
    unfold getDepthByPair
    rw [hp, Py.ok_bind, h.pair, Py.ok_bind, h.otherB, h.lookQ, Py.ok_bind, h.lookB, Py.ok_bind, e2]
    dsimp only
    rw [if_pos rfl, pyDiv_ok hr, Py.ok_bind]
    cases api.depth q.address b.address (1 / r) <;> rfl
  refine ⟨⟨⟨some xb, some nb, q.token, b.token, true, p, true⟩, ?_, ?_⟩,
    ⟨some (1 / xa), some (1 / na), b.token, q.token, false, p, false⟩, ?_, ?_⟩
  · rw [h.rangeBid, hb.min, Py.ok_bind, hb.max, Py.ok_bind]
  · intro s e hs he
    cases hs
    cases he
    exact ⟨hbid _, hbid _⟩
  · rw [h.rangeAsk, ha.min, Py.ok_bind, ha.max, Py.ok_bind, pyDiv_ok hxa.ne', Py.ok_bind, pyDiv_ok ha.pos.ne', Py.ok_bind]
  · intro s e hs he
    cases hs
    cases he
    rw [hask _ (by positivity), hask _ (one_div_ne_zero ha.pos.ne'), one_div_one_div, one_div_one_div]
    exact ⟨rfl, rfl⟩

/-- **C99** A depth is in units of the token that is given out, and it is on the side of the bids exactly if this is the quote token. -/
theorem C99_depth_side (h : Quoted tokens arg p T b q) {api : Api K} {r : K} {t : Str} (ht : t = p.tknb ∨ t = p.tknq) {d : PairLiquidity K}
    (hd : getDepthByPair api tokens r arg t = .ok d) : d.unit = t ∧ d.sells = t ∧ d.pair = p ∧ (d.bid = true ↔ t = p.tknq) ∧
      (d.inverted = some true ↔ t = p.tknb) := by
  have hp : provided tokens = .ok T := by rw [h.tokens]; rfl
  unfold getDepthByPair at hd
  rw [hp, Py.ok_bind, h.pair, Py.ok_bind, Py.bind_eq_ok] at hd
  obtain ⟨src, _, hd⟩ := hd
  rw [Py.bind_eq_ok] at hd
  obtain ⟨tgt, htgt, hd⟩ := hd
  dsimp only at hd
  obtain ⟨a, hd⟩ : ∃ a, (⟨a, t, t, !p.hasBase t, p, some (p.hasBase tgt.token)⟩ : PairLiquidity K) = d := by
    split_ifs at hd
    · rw [Py.bind_eq_ok] at hd
      obtain ⟨raw, _, hd⟩ := hd
      rw [Py.bind_eq_ok] at hd
      obtain ⟨a, _, hd⟩ := hd
      exact ⟨a, Except.ok.inj hd⟩
    · rw [Py.ok_bind, Py.bind_eq_ok] at hd
      obtain ⟨a, _, hd⟩ := hd
      exact ⟨a, Except.ok.inj hd⟩
  subst hd
  have e1 : p.hasBase p.tknb = true := by simp [CarbonPair.hasBase]
  have e2 : p.hasBase p.tknq = false := by simp [CarbonPair.hasBase, h.ne.symm]
  refine ⟨rfl, rfl, rfl, ?_, ?_⟩
  · dsimp only
    rcases ht with rfl | rfl
    · simp [e1, h.ne]
    · simp [e2]
  · dsimp only
    rcases ht with rfl | rfl
    · rw [h.lookB] at htgt
      rw [← Except.ok.inj htgt, h.baseName, e1]
      simp
    · rw [h.lookQ] at htgt
      rw [← Except.ok.inj htgt, h.quoteName, e2]
      simp [h.ne.symm]

/-- **C99** A list of rates is asked rate by rate: if the server treats lists so, each amount is that of the query of the single rate. -/
theorem C99_depths (h : Quoted tokens arg p T b q) {api : Api K}
    (hapi : ∀ s t rs as, api.depths s t rs = .ok as ↔ List.Forall₂ (fun r a => ∃ x, a = some x ∧ api.depth s t r = .ok x) rs as)
    (rs : List K) (h0 : ∀ r ∈ rs, r ≠ 0) (t : Str) (ht : t = p.tknb ∨ t = p.tknq) (as : List (Option K)) :
    (getDepthsByPair api tokens rs arg t).map (·.amount) = .ok as ↔
      List.Forall₂ (fun r a => ∃ x, a = some x ∧ (getDepthByPair api tokens r arg t).map (·.amount) = .ok x) rs as := by
  have hp : provided tokens = .ok T := by rw [h.tokens]; rfl
  have e1 : p.hasBase q.token = false := by rw [h.quoteName]; simp [CarbonPair.hasBase, h.ne.symm]
  have e2 : p.hasBase b.token = true := by rw [h.baseName]; simp [CarbonPair.hasBase]
  rcases ht with rfl | rfl
  · have h1 : (getDepthsByPair api tokens rs arg p.tknb).map (·.amount) = api.depths q.address b.address (rs.map fun r => 1 / r) := by
      unfold getDepthsByPair
      rw [hp, Py.ok_bind, h.pair, Py.ok_bind, h.otherB, h.lookQ, Py.ok_bind, h.lookB, Py.ok_bind, e2]
      dsimp only
      rw [if_pos rfl, if_neg (fun hm => h0 0 hm rfl), Py.ok_bind]
      cases api.depths q.address b.address (rs.map fun r => 1 / r) <;> rfl
    have hask : ∀ r : K, r ≠ 0 → (getDepthByPair api tokens r arg p.tknb).map (·.amount) = api.depth q.address b.address (1 / r) := by
      intro r hr
      unfold getDepthByPair
      rw [hp, Py.ok_bind, h.pair, Py.ok_bind, h.otherB, h.lookQ, Py.ok_bind, h.lookB, Py.ok_bind, e2]
      dsimp only
      rw [if_pos rfl, pyDiv_ok hr, Py.ok_bind]
      cases api.depth q.address b.address (1 / r) <;> rfl
    rw [h1, hapi, List.forall₂_map_left_iff]
    constructor
    · intro hf
      clear h1
      induction hf with
      | nil => exact .nil
      | cons hx _ ih =>
        refine .cons ?_ (ih fun r hr => h0 r (List.mem_cons_of_mem _ hr))
        rw [hask _ (h0 _ List.mem_cons_self)]; exact hx
    · intro hf
      clear h1
      induction hf with
      | nil => exact .nil
      | cons hx _ ih =>
        refine .cons ?_ (ih fun r hr => h0 r (List.mem_cons_of_mem _ hr))
        rw [hask _ (h0 _ List.mem_cons_self)] at hx; exact hx
  · have h1 : (getDepthsByPair api tokens rs arg p.tknq).map (·.amount) = api.depths b.address q.address rs := by
      unfold getDepthsByPair
      rw [hp, Py.ok_bind, h.pair, Py.ok_bind, h.otherQ, h.lookB, Py.ok_bind, h.lookQ, Py.ok_bind, e1]
      dsimp only
      rw [if_neg (by simp), Py.ok_bind]
      cases api.depths b.address q.address rs <;> rfl
    have hbid : ∀ r, (getDepthByPair api tokens r arg p.tknq).map (·.amount) = api.depth b.address q.address r := by
      intro r
      unfold getDepthByPair
      rw [hp, Py.ok_bind, h.pair, Py.ok_bind, h.otherQ, h.lookB, Py.ok_bind, h.lookQ, Py.ok_bind, e1]
      dsimp only
      rw [if_neg (by simp), Py.ok_bind]
      cases api.depth b.address q.address r <;> rfl
    rw [h1, hapi]
    simp only [hbid]

/-- **C99** fails for lists of asks that contain a zero, which a single query reports as a division by zero: the handler divides by the list. -/
theorem C99_depths_violated (h : Quoted tokens arg p T b q) (api : Api K) (rs : List K) (h0 : (0 : K) ∈ rs) :
    getDepthsByPair api tokens rs arg p.tknb = .error .type ∧ getDepthByPair api tokens 0 arg p.tknb = .error .zeroDiv := by
  have hp : provided tokens = .ok T := by rw [h.tokens]; rfl
  have e2 : p.hasBase b.token = true := by rw [h.baseName]; simp [CarbonPair.hasBase]
  constructor
  · unfold getDepthsByPair
    rw [hp, Py.ok_bind, h.pair, Py.ok_bind, h.otherB, h.lookQ, Py.ok_bind, h.lookB, Py.ok_bind, e2]
    dsimp only
    rw [if_pos rfl, if_pos h0]
    rfl
  · unfold getDepthByPair
    rw [hp, Py.ok_bind, h.pair, Py.ok_bind, h.otherB, h.lookQ, Py.ok_bind, h.lookB, Py.ok_bind, e2]
    dsimp only
    rw [if_pos rfl]
    unfold pyDiv
    rw [if_pos rfl]
    rfl

/-! ### Interpolation -/

/-- **C99** The interpolated bids run from the best to the last and stay between them, likewise the asks, and all prices run from the last bid
to the last ask. -/
theorem C99_interpolate (m : Market K) {bb ba lb la : K} (h1 : m.bestBid = some bb) (h2 : m.bestAsk = some ba) (h3 : m.lastBid = some lb)
    (h4 : m.lastAsk = some la) (hb : lb ≤ bb) (ha : ba ≤ la) (x : K) (hx0 : 0 ≤ x) (hx1 : x ≤ 1) :
    m.ibid 0 = .ok bb ∧ m.ibid 1 = .ok lb ∧ m.iask 0 = .ok ba ∧ m.iask 1 = .ok la ∧ m.iall 0 = .ok lb ∧ m.iall 1 = .ok la ∧
      (∃ i, m.ibid x = .ok i ∧ lb ≤ i ∧ i ≤ bb) ∧ (∃ i, m.iask x = .ok i ∧ ba ≤ i ∧ i ≤ la) ∧
      ∀ y i j, x ≤ y → m.ibid x = .ok i → m.ibid y = .ok j → j ≤ i := by
  unfold Market.ibid Market.iask Market.iall
  rw [h1, h2, h3, h4]
  unfold Market.both
  dsimp only
  refine ⟨by congr 1; ring, by congr 1; ring, by congr 1; ring, by congr 1; ring, by congr 1; ring, by congr 1; ring,
    ⟨_, rfl, ?_, ?_⟩, ⟨_, rfl, ?_, ?_⟩, ?_⟩
  · nlinarith
  · nlinarith
  · nlinarith
  · nlinarith
  · intro y i j hxy hi hj
    rw [← Except.ok.inj hi, ← Except.ok.inj hj]
    nlinarith

/-- **C99** The mid price lies between the best bid and the best ask, half a spread from either, and the relative spread is the spread in
units of the mid price. -/
theorem C99_mid (m : Market K) {bb ba : K} (h1 : m.bestBid = some bb) (h2 : m.bestAsk = some ba) (hb : 0 < bb) (ha : 0 < ba) :
    ∃ c s r, m.mid = .ok c ∧ m.spread = .ok s ∧ m.spreadpc = .ok r ∧ bb = c - s / 2 ∧ ba = c + s / 2 ∧ s = r * c ∧
      m.inverted = .ok (decide (s < 0)) := by
  have e1 : m.mid = .ok (1 / 2 * (bb + ba)) := by unfold Market.mid Market.both; rw [h1, h2]
  have e2 : m.spread = .ok (ba - bb) := by unfold Market.spread Market.both; rw [h1, h2]
  have hc : (0 : K) < 1 / 2 * (bb + ba) := by positivity
  refine ⟨_, _, (ba - bb) / (1 / 2 * (bb + ba)), e1, e2, ?_, by ring, by ring, ?_, ?_⟩
  · unfold Market.spreadpc
    rw [e2, Py.ok_bind, e1, Py.ok_bind, pyDiv_ok hc.ne']
  · rw [div_mul_cancel₀ _ hc.ne']
  · unfold Market.inverted Market.both
    rw [h1, h2]
    dsimp only
    congr 1
    rw [decide_eq_decide]
    constructor <;> intro hh <;> linarith

/-! ### Many pairs -/

theorem mapM_iff {α β : Type} {f : α → Py β} (l : List α) (r : List β) : l.mapM f = .ok r ↔ List.Forall₂ (fun a b => f a = .ok b) l r := by
  induction l generalizing r with
  | nil =>
    constructor
    · intro h
      cases (Except.ok.inj (show (Except.ok [] : Py (List β)) = .ok r from h))
      exact .nil
    · intro h; cases h; rfl
  | cons a l ih =>
    rw [List.mapM_cons, Py.bind_eq_ok]
    constructor
    · rintro ⟨b, hb, h⟩
      rw [Py.bind_eq_ok] at h
      obtain ⟨bs, hbs, h⟩ := h
      cases (Except.ok.inj (show (Except.ok (b :: bs) : Py (List β)) = .ok r from h))
      exact .cons hb ((ih bs).mp hbs)
    · intro h
      cases h with
      | cons hb hbs =>
        refine ⟨_, hb, ?_⟩
        rw [(ih _).mpr hbs]
        rfl

/-- A container that raises for unknown tokens gives the token of the name asked for. -/
theorem ticker_name {ts : List SdkTkn} (hT : TokenC.make ts = .ok T) {k : Str} {x : SdkTkn} (h : T.ticker k = .ok (some x)) :
    x.token = upper k ∧ x ∈ ts := by
  rw [TokenC.C52_ticker hT] at h
  unfold TokenC.answer at h
  cases hl : TokenC.last SdkTkn.token ts (upper k) with
  | none => rw [hl] at h; cases h
  | some t =>
    rw [hl] at h
    have := Option.some.inj (Except.ok.inj h)
    subst this
    unfold TokenC.last at hl
    exact ⟨by simpa using List.find?_some hl, List.mem_reverse.mp (List.mem_of_find?_eq_some hl)⟩

theorem lookup_ok {k : Str} {x : SdkTkn} (h : lookup T (some k) = .ok x) : T.ticker k = .ok (some x) := by
  unfold lookup at h
  dsimp only at h
  rw [Py.bind_eq_ok] at h
  obtain ⟨r, hr, h⟩ := h
  cases r with
  | none => cases h
  | some y => rw [hr, Except.ok.inj h]

/-- **C99** Asking for several pairs at once gives two answers for each, and each answer is the one of the single query, if the server treats
lists so. -/
theorem C99_many {ts : List SdkTkn} (hT : TokenC.make ts = .ok T) {api : Api K}
    (hapi : ∀ l r, api.hasLiquidities l = .ok r → List.Forall₂ (fun x y => api.hasLiquidity x.1 x.2 = .ok y) l r)
    (texts : List Str) (hne : ∀ s ∈ texts, ∀ p, CarbonPair.make (.str s) none none = .ok p → p.tknb ≠ p.tknq)
    {out : List ((CarbonPair × Str) × Bool)} (h : hasLiquidityByPairs api (some T) (texts.map .inl) = .ok out) :
    out.length = 2 * texts.length ∧ ∀ e ∈ out, hasLiquidityByPair api (some T) (.pair e.1.1) e.1.2 = .ok e.2 := by
  unfold hasLiquidityByPairs at h
  rw [show provided (some T) = .ok T from rfl, Py.ok_bind, Py.bind_eq_ok] at h
  obtain ⟨qs, hqs, h⟩ := h
  rw [Py.bind_eq_ok] at h
  obtain ⟨r, hr, h⟩ := h
  have hout := Except.ok.inj h
  subst hout
  rw [mapM_iff, List.forall₂_map_left_iff] at hqs
  have hr' := hapi _ _ hr
  rw [List.forall₂_map_left_iff] at hr'
  -- the questions
  have key : ∀ s ∈ texts, ∀ qq, bothWays T (.inl s) = .ok qq → qq.length = 2 ∧ ∀ x ∈ qq,
      hasLiquidityByPair api (some T) (.pair x.1.1) x.1.2 = api.hasLiquidity x.2.1 x.2.2 := by
    intro s hs qq hq
    unfold bothWays at hq
    dsimp only [Sum.elim_inl] at hq
    rw [Py.bind_eq_ok] at hq
    obtain ⟨p, hp, hq⟩ := hq
    rw [Py.bind_eq_ok] at hq
    obtain ⟨q, hlq, hq⟩ := hq
    rw [Py.bind_eq_ok] at hq
    obtain ⟨b, hlb, hq⟩ := hq
    have hq := Except.ok.inj hq
    subst hq
    have hu := CarbonPair.make_upper hp
    have tq := lookup_ok hlq
    have tb := lookup_ok hlb
    have h' : Quoted (some T) (.str s) p T b q := ⟨rfl, hp, hne s hs p hp, tb, by rw [(ticker_name hT tb).1, hu.1], tq,
      by rw [(ticker_name hT tq).1, hu.2]⟩
    obtain ⟨p', h'', e1, e2⟩ := h'.again
    refine ⟨rfl, ?_⟩
    intro x hx
    have lb := h''.lookB
    have lq := h''.lookQ
    have ob := h''.otherB
    have oq := h''.otherQ
    rw [e1] at lb ob
    rw [e2] at lq oq
    rw [e1] at oq
    rw [e2] at ob
    rcases List.mem_cons.mp hx with rfl | hx
    · unfold hasLiquidityByPair
      dsimp only
      rw [show provided (some T) = .ok T from rfl, Py.ok_bind, h''.pair, Py.ok_bind, h'.quoteName, lq, Py.ok_bind, oq, lb, Py.ok_bind]
    · rcases List.mem_cons.mp hx with rfl | hx
      · unfold hasLiquidityByPair
        dsimp only
        rw [show provided (some T) = .ok T from rfl, Py.ok_bind, h''.pair, Py.ok_bind, h'.baseName, lb, Py.ok_bind, ob, lq, Py.ok_bind]
      · cases hx
  have hlen : qs.flatten.length = 2 * texts.length ∧ ∀ x ∈ qs.flatten,
      hasLiquidityByPair api (some T) (.pair x.1.1) x.1.2 = api.hasLiquidity x.2.1 x.2.2 := by
    clear hr hr' h hne
    induction hqs with
    | nil => exact ⟨rfl, by intro x hx; cases hx⟩
    | cons ha _ ih =>
      obtain ⟨i1, i2⟩ := ih fun s hs => key s (List.mem_cons_of_mem _ hs)
      obtain ⟨k1, k2⟩ := key _ List.mem_cons_self _ ha
      refine ⟨?_, ?_⟩
      · rw [List.flatten_cons, List.length_append, i1, k1, List.length_cons]; ring
      · intro x hx
        rw [List.flatten_cons, List.mem_append] at hx
        rcases hx with hx | hx
        · exact k2 x hx
        · exact i2 x hx
  have hl := hr'.length_eq
  refine ⟨by rw [List.length_zip, List.length_map, ← hl, min_self, hlen.1], ?_⟩
  have hz := hlen.2
  clear hlen hr h hl key hqs
  generalize qs.flatten = Q at hr' hz ⊢
  induction hr' with
  | nil => intro e he; cases he
  | cons ha _ ih =>
    intro e he
    rw [List.map_cons, List.zip_cons_cons] at he
    rcases List.mem_cons.mp he with rfl | he
    · dsimp only
      rw [hz _ List.mem_cons_self]
      exact ha
    · exact ih (fun x hx => hz x (List.mem_cons_of_mem _ hx)) e he

end

/-! ## Strategies -/

section
variable {K : Type} [Field K] [LinearOrder K] [IsStrictOrderedRing K]

/-- **C100** A strategy is sent with its ranges in order, whatever the order of their ends in the call: bids below asks, each range from low to
high, made of the prices given, and with the budgets given. -/
theorem C100_create {tokens : Option TokenC} {arg : CarbonPair.Arg} {ss se sa bs be ba : K} {tx : Tx K}
    (h : createStrategy tokens arg ss se sa bs be ba = .ok tx) : ∃ s, tx = .create s ∧ s.buyPriceLow ≤ s.buyPriceHigh ∧
      s.buyPriceHigh < s.sellPriceLow ∧ s.sellPriceLow ≤ s.sellPriceHigh ∧ s.buyPriceLow = min bs be ∧ s.buyPriceHigh = max bs be ∧
      s.sellPriceLow = min ss se ∧ s.sellPriceHigh = max ss se ∧ s.buyBudget = ba ∧ s.sellBudget = sa := by
  unfold createStrategy at h
  rw [Py.bind_eq_ok] at h
  obtain ⟨T, _, h⟩ := h
  rw [Py.bind_eq_ok] at h
  obtain ⟨p, _, h⟩ := h
  have e1 : (if ss ≤ se then (ss, se) else (se, ss)) = (min ss se, max ss se) := by
    split_ifs with hh
    · rw [min_eq_left hh, max_eq_right hh]
    · rw [min_eq_right (not_le.mp hh).le, max_eq_left (not_le.mp hh).le]
  have e2 : (if be ≤ bs then (bs, be) else (be, bs)) = (max bs be, min bs be) := by
    split_ifs with hh
    · rw [min_eq_right hh, max_eq_left hh]
    · rw [min_eq_left (not_le.mp hh).le, max_eq_right (not_le.mp hh).le]
  rw [e1, e2] at h
  dsimp only at h
  by_cases hc : min ss se ≤ max bs be
  · rw [if_pos hc] at h; cases h
  · rw [if_neg hc, Py.bind_eq_ok] at h
    obtain ⟨b, _, h⟩ := h
    rw [Py.bind_eq_ok] at h
    obtain ⟨q, _, h⟩ := h
    exact ⟨_, (Except.ok.inj h).symm, min_le_max, not_le.mp hc, min_le_max, rfl, rfl, rfl, rfl, rfl, rfl⟩

/-- **C100** fails for the pair: it has no influence on what is sent. The strategy is on the tokens called ETH and USDC. -/
theorem C100_pair_violated (T : TokenC) {arg arg' : CarbonPair.Arg} {p p' : CarbonPair} (h : CarbonPair.make arg none none = .ok p)
    (h' : CarbonPair.make arg' none none = .ok p') (ss se sa bs be ba : K) :
    createStrategy (some T) arg ss se sa bs be ba = createStrategy (some T) arg' ss se sa bs be ba := by
  unfold createStrategy
  rw [show provided (some T) = .ok T from rfl, Py.ok_bind, Py.ok_bind, h, h', Py.ok_bind, Py.ok_bind]

/-- **C100** For the pair ETH/USDC the strategy is on the tokens of the pair. -/
theorem C100_pair_partial {tokens : Option TokenC} {arg : CarbonPair.Arg} {p : CarbonPair} {T : TokenC} {b q : SdkTkn}
    (h : Quoted tokens arg p T b q) (hb : p.tknb = "ETH".toList) (hq : p.tknq = "USDC".toList) {ss se sa bs be ba : K}
    (hc : max bs be < min ss se) : ∃ s, createStrategy tokens arg ss se sa bs be ba = .ok (.create s) ∧ s.baseToken = b.address ∧
      s.quoteToken = q.address := by
  have lb := h.lookB
  have lq := h.lookQ
  rw [hb] at lb
  rw [hq] at lq
  unfold createStrategy
  have hp : provided tokens = .ok T := by rw [h.tokens]; rfl
  rw [hp, Py.ok_bind, h.pair, Py.ok_bind]
  have c1 : ¬ (if ss ≤ se then (ss, se) else (se, ss)).1 ≤ (if be ≤ bs then (bs, be) else (be, bs)).1 := by
    have a1 : min ss se ≤ (if ss ≤ se then (ss, se) else (se, ss)).1 := by
      split_ifs
      · exact min_le_left _ _
      · exact min_le_right _ _
    have a2 : (if be ≤ bs then (bs, be) else (be, bs)).1 ≤ max bs be := by
      split_ifs
      · exact le_max_left _ _
      · exact le_max_right _ _
    exact not_le.mpr (lt_of_le_of_lt a2 (lt_of_lt_of_le hc a1))
  dsimp only
  rw [if_neg c1, lb, Py.ok_bind, lq, Py.ok_bind]
  exact ⟨_, rfl, rfl, rfl⟩

/-- **C100** Ranges that touch or overlap are refused. -/
theorem C100_overlap (tokens : Option TokenC) (arg : CarbonPair.Arg) {ss se sa bs be ba : K} (hc : min ss se ≤ max bs be) (tx : Tx K) :
    createStrategy tokens arg ss se sa bs be ba ≠ .ok tx := by
  intro h
  obtain ⟨s, _, _, h1, _, _, h2, h3, _⟩ := C100_create h
  rw [h2, h3] at h1
  exact absurd hc (not_le.mpr h1)

variable [FloorRing K]

/-- **C100** The strategies of a user come one for one and in order. The integers of the orders are exact; the six numbers are within half
a unit of the digit asked for, and keep their order; the tokens are named by the container. -/
theorem C100_strategies {api : Api K} {T : TokenC} {user : Str} {d : Digits} {out : List (UserStrategy K)}
    (h : getUserStrategies api (some T) user d = .ok out) : ∃ raw, api.userStrategies user = .ok raw ∧
      List.Forall₂ (fun r u => bn2int r.id = .ok u.sid ∧ u.encodedId = u.sid ∧ u.baseToken = lower r.baseToken ∧
        u.quoteToken = lower r.quoteToken ∧ u.baseTokenName = T.addr1Name r.baseToken ∧ u.quoteTokenName = T.addr1Name r.quoteToken ∧
        lower u.order0.token = u.baseToken ∧ lower u.order1.token = u.quoteToken ∧
        orderInts r.token0 r.order0 = .ok u.order0 ∧ orderInts r.token1 r.order1 = .ok u.order1 ∧
        (∀ n : ℤ, 1 ≤ n → (d = .some n ∨ d = .default ∧ n = 8) →
          ((r.buyPriceLow ≤ r.buyPriceHigh → u.buyPriceLow ≤ u.buyPriceHigh) ∧
          (r.buyPriceHigh ≤ r.sellPriceLow → u.buyPriceHigh ≤ u.sellPriceLow) ∧
          (r.sellPriceLow ≤ r.sellPriceHigh → u.sellPriceLow ≤ u.sellPriceHigh) ∧
          ∀ xy ∈ [(u.buyPriceLow, r.buyPriceLow), (u.buyPriceHigh, r.buyPriceHigh), (u.buyBudget, r.buyBudget),
            (u.sellPriceLow, r.sellPriceLow), (u.sellPriceHigh, r.sellPriceHigh), (u.sellBudget, r.sellBudget)],
            |xy.1 - xy.2| ≤ |xy.2| * 10 ^ (1 - n) / 2)) ∧
        (d = .all → u.buyPriceLow = r.buyPriceLow ∧ u.buyPriceHigh = r.buyPriceHigh ∧ u.buyBudget = r.buyBudget ∧
          u.sellPriceLow = r.sellPriceLow ∧ u.sellPriceHigh = r.sellPriceHigh ∧ u.sellBudget = r.sellBudget)) raw out := by
  unfold getUserStrategies at h
  rw [Py.bind_eq_ok] at h
  obtain ⟨raw, hraw, h⟩ := h
  refine ⟨raw, hraw, ?_⟩
  rw [mapM_iff] at h
  refine h.imp ?_
  intro r u hu
  unfold userStrategy at hu
  rw [show provided (some T) = .ok T from rfl, Py.ok_bind, Py.bind_eq_ok] at hu
  obtain ⟨i, hi, hu⟩ := hu
  rw [Py.bind_eq_ok] at hu
  obtain ⟨o0, h0, hu⟩ := hu
  rw [Py.bind_eq_ok] at hu
  obtain ⟨o1, h1, hu⟩ := hu
  have tok : ∀ t (o : RawOrder K) e, orderInts t o = .ok e → e.token = t := by
    intro t o e he
    unfold orderInts at he
    simp only [Py.bind_eq_ok] at he
    obtain ⟨_, _, _, _, _, _, _, _, he⟩ := he
    rw [← Except.ok.inj he]
  by_cases c1 : lower (lower r.baseToken) = lower r.token0
  · rw [if_neg (not_not.mpr c1)] at hu
    by_cases c2 : lower (lower r.quoteToken) = lower r.token1
    · rw [if_neg (not_not.mpr c2)] at hu
      have hu := Except.ok.inj hu
      subst hu
      refine ⟨hi, rfl, rfl, rfl, rfl, rfl, ?_, ?_, h0, h1, ?_, ?_⟩
      · dsimp only
        rw [tok _ _ _ h0, ← c1, lower_lower]
      · dsimp only
        rw [tok _ _ _ h1, ← c2, lower_lower]
      · intro n hn hd
        have hr : ∀ x : K, d.round x = roundsd x n := by
          intro x
          rcases hd with rfl | ⟨rfl, rfl⟩ <;> rfl
        dsimp only
        simp only [hr]
        refine ⟨fun hle => (C97_round_mono hle hn).1, fun hle => (C97_round_mono hle hn).1, fun hle => (C97_round_mono hle hn).1, ?_⟩
        intro xy hxy
        simp only [List.mem_cons, List.not_mem_nil, or_false] at hxy
        rcases hxy with rfl | rfl | rfl | rfl | rfl | rfl <;> exact C97_round_error _ n
      · rintro rfl
        exact ⟨rfl, rfl, rfl, rfl, rfl, rfl⟩
    · rw [if_pos c2] at hu
      cases hu
  · rw [if_pos c1] at hu
    cases hu

/-- **C100** An order is read integer by integer. -/
theorem C100_order (token : Str) (y z A B : ℤ) :
    orderInts (K := K) token ⟨int2bn (.inl y), int2bn (.inl z), int2bn (.inl A), int2bn (.inl B)⟩ =
      .ok ⟨token, .int y, .int z, .int A, .int B⟩ := by
  unfold orderInts
  dsimp only
  simp only [(C97_integers _).1, Py.ok_bind]

/-- **C100** One strategy whose base token is not the first token of its orders hides all strategies of the user. -/
theorem C100_base {api : Api K} {T : TokenC} {user : Str} {d : Digits} {raw : List (RawStrategy K)} (h : api.userStrategies user = .ok raw)
    {r : RawStrategy K} (hr : r ∈ raw) (hb : lower r.baseToken ≠ lower r.token0) (out : List (UserStrategy K)) :
    getUserStrategies api (some T) user d ≠ .ok out := by
  intro ho
  obtain ⟨raw', h', hf⟩ := C100_strategies ho
  rw [h] at h'
  have := Except.ok.inj h'
  subst this
  clear h h' ho
  induction hf with
  | nil => cases hr
  | cons ha _ ih =>
    rcases List.mem_cons.mp hr with rfl | hr
    · obtain ⟨_, _, e1, _, _, _, e2, _, e3, _⟩ := ha
      unfold orderInts at e3
      simp only [Py.bind_eq_ok] at e3
      obtain ⟨_, _, _, _, _, _, _, _, e3⟩ := e3
      rw [← Except.ok.inj e3, e1] at e2
      exact hb e2.symm
    · exact ih hr

/-! ## Trades -/

variable {tokens : Option TokenC} {arg : CarbonPair.Arg} {p : CarbonPair} {T : TokenC} {b q : SdkTkn}

/-- **C100** A trade that is prepared: the amount is positive, the token is one of the pair; who buys it receives it and fixes what they
receive, who sells it gives it and fixes what they give; and the server is asked for exactly this. -/
theorem C100_prepare (h : Quoted tokens arg p T b q) {api : Api K} {global : TokenC} {side : BuySell} {tkn : Str} {amount : K}
    {t : TradeData K} (ht : prepareTrade api tokens global arg side tkn amount = .ok t) :
    0 < amount ∧ t.amount = amount ∧ t.tkn = tkn ∧ t.pair = p.slashpair ∧ (t.source, t.target) ∈ [(b, q), (q, b)] ∧
      (side = .buy ∧ t.target.token = tkn ∧ t.byTarget = true ∨ side = .sell ∧ t.source.token = tkn ∧ t.byTarget = false) ∧
      ∃ r, api.tradeData t.source.address t.target.address amount t.byTarget = .ok r ∧ t.totals = r.totals ∧
        List.Forall₂ (fun d e => bn2intd d = .ok e) r.tradeActions t.actions ∧
        List.Forall₂ (fun d e => bn2intd d = .ok e) r.actionsWei t.actionsWei := by
  unfold prepareTrade at ht
  have hp : provided tokens = .ok T := by rw [h.tokens]; rfl
  rw [hp, Py.ok_bind, h.pair, Py.ok_bind] at ht
  by_cases c1 : side = .other
  · rw [if_pos c1] at ht; cases ht
  rw [if_neg c1] at ht
  by_cases c2 : p.hasToken tkn = true
  swap
  · rw [if_pos (by simpa using c2)] at ht; cases ht
  rw [if_neg (by simpa using c2)] at ht
  by_cases c3 : amount ≤ 0
  · rw [if_pos c3] at ht; cases ht
  rw [if_neg c3] at ht
  have c3 := not_le.mp c3
  have finish : ∀ (src tgt : SdkTkn) (source target : Option Str) (by' : Bool),
      (if !global.containsAll (source.toList ++ target.toList) then (.error .value : Py (TradeData K))
      else do
        let data ← api.tradeData src.address tgt.address amount by'
        let actions ← data.tradeActions.mapM bn2intd
        let wei ← data.actionsWei.mapM bn2intd
        .ok ⟨p.slashpair, tkn, side, amount, src, tgt, by', actions, wei, data.totals⟩) = .ok t →
      t.source = src ∧ t.target = tgt ∧ t.byTarget = by' ∧ t.amount = amount ∧ t.tkn = tkn ∧ t.pair = p.slashpair ∧
      ∃ r, api.tradeData src.address tgt.address amount by' = .ok r ∧ t.totals = r.totals ∧
        List.Forall₂ (fun d e => bn2intd d = .ok e) r.tradeActions t.actions ∧
        List.Forall₂ (fun d e => bn2intd d = .ok e) r.actionsWei t.actionsWei := by
    intro src tgt source target by' hh
    split_ifs at hh
    rw [Py.bind_eq_ok] at hh
    obtain ⟨r, hr, hh⟩ := hh
    rw [Py.bind_eq_ok] at hh
    obtain ⟨a, ha, hh⟩ := hh
    rw [Py.bind_eq_ok] at hh
    obtain ⟨w, hw, hh⟩ := hh
    have hh := Except.ok.inj hh
    subst hh
    exact ⟨rfl, rfl, rfl, rfl, rfl, rfl, r, hr, rfl, (mapM_iff _ _).mp ha, (mapM_iff _ _).mp hw⟩
  have htk : tkn = p.tknb ∨ tkn = p.tknq := by
    unfold CarbonPair.hasToken CarbonPair.hasQuote CarbonPair.hasBase at c2
    by_cases hq : tkn = p.tknq
    · exact Or.inr hq
    · rw [if_neg (by simpa using hq)] at c2; exact Or.inl (by simpa using c2)
  refine ⟨c3, ?_⟩
  cases side with
  | other => exact absurd rfl c1
  | sell =>
    rw [if_pos rfl] at ht
    dsimp only at ht
    rcases htk with rfl | rfl
    · rw [show (some p.tknb).bind p.other = p.other p.tknb from rfl, h.otherB, h.lookB, Py.ok_bind, h.lookQ, Py.ok_bind] at ht
      obtain ⟨e1, e2, e3, e4, e5, e6, e7⟩ := finish _ _ _ _ _ ht
      have e3' : t.byTarget = false := by rw [e3]; simpa using h.ne
      rw [e1, e2, e3']
      refine ⟨e4, e5, e6, by simp, Or.inr ⟨rfl, h.baseName, rfl⟩, ?_⟩
      rw [e3] at e3'
      rw [e3'] at e7
      exact e7
    · rw [show (some p.tknq).bind p.other = p.other p.tknq from rfl, h.otherQ, h.lookQ, Py.ok_bind, h.lookB, Py.ok_bind] at ht
      obtain ⟨e1, e2, e3, e4, e5, e6, e7⟩ := finish _ _ _ _ _ ht
      have e3' : t.byTarget = false := by rw [e3]; simpa using h.ne.symm
      rw [e1, e2, e3']
      refine ⟨e4, e5, e6, by simp, Or.inr ⟨rfl, h.quoteName, rfl⟩, ?_⟩
      rw [e3] at e3'
      rw [e3'] at e7
      exact e7
  | buy =>
    rw [if_neg (by decide)] at ht
    dsimp only at ht
    rcases htk with rfl | rfl
    · rw [h.otherB, show (some p.tknq).bind p.other = p.other p.tknq from rfl, h.otherQ, h.lookQ, Py.ok_bind, h.lookB, Py.ok_bind] at ht
      obtain ⟨e1, e2, e3, e4, e5, e6, e7⟩ := finish _ _ _ _ _ ht
      have e3' : t.byTarget = true := by rw [e3]; simp
      rw [e1, e2, e3']
      refine ⟨e4, e5, e6, by simp, Or.inl ⟨rfl, h.baseName, rfl⟩, ?_⟩
      rw [e3] at e3'
      rw [e3'] at e7
      exact e7
    · rw [h.otherQ, show (some p.tknb).bind p.other = p.other p.tknb from rfl, h.otherB, h.lookB, Py.ok_bind, h.lookQ, Py.ok_bind] at ht
      obtain ⟨e1, e2, e3, e4, e5, e6, e7⟩ := finish _ _ _ _ _ ht
      have e3' : t.byTarget = true := by rw [e3]; simp
      rw [e1, e2, e3']
      refine ⟨e4, e5, e6, by simp, Or.inl ⟨rfl, h.quoteName, rfl⟩, ?_⟩
      rw [e3] at e3'
      rw [e3'] at e7
      exact e7

/-- **C100** The transaction of a prepared trade moves the same tokens, and its limit is never tighter than the quote: a buyer pays at most the
quoted amount and a tenth, a seller receives at least nine tenths of it, unless another proportion is given. -/
theorem C100_compose (h : Quoted tokens arg p T b q) {api : Api K} {global : TokenC} {side : BuySell} {tkn : Str} {amount : K}
    {t : TradeData K} (ht : prepareTrade api tokens global arg side tkn amount = .ok t) {dev : Option K} (hdev : ∀ d, dev = some d → 0 ≤ d)
    {tx : Tx K} (hx : composeTrade t dev = .ok tx) (hpos : ∀ kv ∈ t.totals, 0 ≤ kv.2) :
    (side = .buy ∧ t.target.token = tkn ∧ ∃ a l, dictGet t.totals "totalSourceAmount".toList = some a ∧
      tx = .byTarget t.source.address t.target.address (t.actions.map int2strd) l ∧ a ≤ l ∧ l = a + dev.getD (1 / 10) * a) ∨
    (side = .sell ∧ t.source.token = tkn ∧ ∃ a l, dictGet t.totals "totalTargetAmount".toList = some a ∧
      tx = .bySource t.source.address t.target.address (t.actions.map int2strd) l ∧ l ≤ a ∧ l = a - dev.getD (1 / 10) * a) := by
  obtain ⟨_, _, _, _, _, hs, _⟩ := C100_prepare h ht
  have hd : 0 ≤ dev.getD (1 / 10) := by
    cases dev with
    | none => simp
    | some d => exact hdev d rfl
  have hmem : ∀ (l : List (Str × K)) k a, dictGet l k = some a → (k, a) ∈ l := by
    intro l
    induction l with
    | nil => intro k a hk; cases hk
    | cons kv l ih =>
      intro k a hk
      unfold dictGet at hk
      split_ifs at hk with hk'
      · rw [← hk', ← Option.some.inj hk]; exact List.mem_cons_self
      · exact List.mem_cons_of_mem _ (ih k a hk)
  unfold composeTrade at hx
  dsimp only at hx
  rcases hs with ⟨hs, htok, hby⟩ | ⟨hs, htok, hby⟩
  · rw [hby, if_pos rfl] at hx
    cases hg : dictGet t.totals "totalSourceAmount".toList with
    | none => rw [hg] at hx; cases hx
    | some a =>
      rw [hg] at hx
      have ha : 0 ≤ a := hpos _ (hmem _ _ _ hg)
      refine Or.inl ⟨hs, htok, a, _, rfl, (Except.ok.inj hx).symm, ?_, by ring⟩
      nlinarith [mul_nonneg ha hd]
  · rw [hby, if_neg (by simp)] at hx
    cases hg : dictGet t.totals "totalTargetAmount".toList with
    | none => rw [hg] at hx; cases hx
    | some a =>
      rw [hg] at hx
      have ha : 0 ≤ a := hpos _ (hmem _ _ _ hg)
      refine Or.inr ⟨hs, htok, a, _, rfl, (Except.ok.inj hx).symm, ?_, by ring⟩
      nlinarith [mul_nonneg ha hd]

/-- **C100** fails for tokens that the client was given but that are not in the table of the module: every trade in them is refused, although
the container knows them and the server quotes them. -/
theorem C100_table_violated (h : Quoted tokens arg p T b q) (api : Api K) (global : TokenC) (hg : p.tknb ∉ global.byTicker.map Prod.fst)
    {side : BuySell} (hs : side ≠ .other) {tkn : Str} (ht : tkn = p.tknb ∨ tkn = p.tknq) {amount : K} (ha : 0 < amount) :
    prepareTrade api tokens global arg side tkn amount = .error .value := by
  have hp : provided tokens = .ok T := by rw [h.tokens]; rfl
  have c2 : p.hasToken tkn = true := by
    unfold CarbonPair.hasToken CarbonPair.hasQuote CarbonPair.hasBase
    rcases ht with rfl | rfl <;> simp
  have n1 : global.containsAll [p.tknb, p.tknq] = false := by
    unfold TokenC.containsAll
    rw [List.all_cons, decide_eq_false hg, Bool.false_and]
  have n2 : global.containsAll [p.tknq, p.tknb] = false := by
    unfold TokenC.containsAll
    rw [List.all_cons, List.all_cons, decide_eq_false hg, Bool.false_and, Bool.and_false]
  unfold prepareTrade
  rw [hp, Py.ok_bind, h.pair, Py.ok_bind, if_neg hs, if_neg (by simpa using c2), if_neg (not_le.mpr ha)]
  cases side with
  | other => exact absurd rfl hs
  | sell =>
    rw [if_pos rfl]
    dsimp only
    rcases ht with rfl | rfl
    · rw [show (some p.tknb).bind p.other = p.other p.tknb from rfl, h.otherB, h.lookB, Py.ok_bind, h.lookQ, Py.ok_bind]
      exact if_pos (by rw [show (some p.tknb).toList ++ (some p.tknq).toList = [p.tknb, p.tknq] from rfl, n1]; rfl)
    · rw [show (some p.tknq).bind p.other = p.other p.tknq from rfl, h.otherQ, h.lookQ, Py.ok_bind, h.lookB, Py.ok_bind]
      exact if_pos (by rw [show (some p.tknq).toList ++ (some p.tknb).toList = [p.tknq, p.tknb] from rfl, n2]; rfl)
  | buy =>
    rw [if_neg (by decide)]
    dsimp only
    rcases ht with rfl | rfl
    · rw [h.otherB, show (some p.tknq).bind p.other = p.other p.tknq from rfl, h.otherQ, h.lookQ, Py.ok_bind, h.lookB, Py.ok_bind]
      exact if_pos (by rw [show (some p.tknq).toList ++ (some p.tknb).toList = [p.tknq, p.tknb] from rfl, n2]; rfl)
    · rw [h.otherQ, show (some p.tknb).bind p.other = p.other p.tknb from rfl, h.otherB, h.lookB, Py.ok_bind, h.lookQ, Py.ok_bind]
      exact if_pos (by rw [show (some p.tknb).toList ++ (some p.tknq).toList = [p.tknb, p.tknq] from rfl, n1]; rfl)

end

/-! ## Examples -/

/-- Two tokens, one of them in the table of the module. -/
def weth : SdkTkn := ⟨"WETH".toList, "0xc02a".toList, some 18, "WETH".toList⟩
def usdc : SdkTkn := ⟨"USDC".toList, "0xa0b8".toList, some 6, "USDC".toList⟩

/-- The container of the client. -/
def twoTokens : TokenC := ⟨true, [("WETH".toList, weth), ("USDC".toList, usdc)], [("0xc02a".toList, weth), ("0xa0b8".toList, usdc)]⟩

/-- The table of the module, cut down. -/
def table : TokenC := ⟨true, [("USDC".toList, usdc)], [("0xa0b8".toList, usdc)]⟩

/-- A server with bids at 1600 to 1500 and asks at 2000 to 2500. -/
def quotes : Api ℚ where
  hasLiquidity _ _ := .ok true
  hasLiquidities l := .ok (l.map fun _ => true)
  liquidity s _ := if s = "0xc02a".toList then .ok 5000 else .ok 3
  minRate s _ := if s = "0xc02a".toList then .ok 1500 else .ok (1 / 2500)
  maxRate s _ := if s = "0xc02a".toList then .ok 1600 else .ok (1 / 2000)
  depth _ _ r := .ok r
  depths _ _ rs := .ok (rs.map some)
  tradeData s _ a byTarget := .ok ⟨[], [], [("totalSourceAmount".toList, if byTarget then (if s = "0xc02a".toList then a / 1600 else a * 2000) else a),
    ("totalTargetAmount".toList, if byTarget then a else (if s = "0xc02a".toList then a * 1600 else a / 2000))]⟩
  userStrategies _ := .ok []

theorem twoTokens_quoted : Quoted (some twoTokens) (.str "weth/usdc".toList)
    ⟨"WETH".toList, "USDC".toList, "weth".toList, "usdc".toList, false, none, none⟩ twoTokens weth usdc :=
  ⟨rfl, by decide, by decide, by decide, rfl, by decide, rfl⟩

example : Side quotes weth usdc 1500 1600 5000 ∧ Side quotes usdc weth (1 / 2500) (1 / 2000) 3 :=
  ⟨⟨rfl, rfl, rfl, by norm_num, by norm_num⟩, ⟨rfl, rfl, rfl, by norm_num, by norm_num⟩⟩

example : getMarketByPair quotes (some twoTokens) (.str "weth/usdc".toList) =
    .ok ⟨"WETH/USDC".toList, some 1600, some 2000, 5000, 3, some 1500, some 2500⟩ := by
  rw [C99_market twoTokens_quoted (api := quotes) (nb := 1500) (xb := 1600) (lb := 5000) (na := 1 / 2500) (xa := 1 / 2000) (la := 3)
    ⟨rfl, rfl, rfl, by norm_num, by norm_num⟩ ⟨rfl, rfl, rfl, by norm_num, by norm_num⟩]
  norm_num
  rfl

example : prepareTrade quotes (some twoTokens) table (.str "weth/usdc".toList) .sell "WETH".toList 2 = .error .value :=
  C100_table_violated twoTokens_quoted quotes table (by decide) (by decide) (Or.inl rfl) (by norm_num)

/-- Buying one WETH costs 2000 USDC, and at most 2200. -/
example : ∃ t, prepareTrade quotes (some twoTokens) twoTokens (.str "weth/usdc".toList) .buy "WETH".toList 1 = .ok t ∧
    composeTrade t = .ok (.byTarget "0xa0b8".toList "0xc02a".toList [] 2200) := by
  refine ⟨⟨"WETH/USDC".toList, "WETH".toList, .buy, 1, usdc, weth, true, [], [], [("totalSourceAmount".toList, 2000),
    ("totalTargetAmount".toList, 1)]⟩, by decide +kernel, by decide +kernel⟩

example : createStrategy (some ⟨true, [("ETH".toList, weth), ("USDC".toList, usdc)], []⟩) (.str "BNT/DAI".toList) (2500 : ℚ) 2000 3 1600 1500 5000 =
    .ok (.create ⟨"0xc02a".toList, "0xa0b8".toList, 1500, 1600, 5000, 2000, 2500, 3⟩) := by decide +kernel

end Carbon.Sdk
