import Verif.Tools.ArbFormat
import Verif.Prop.ArbNode

/-!
# C136: results of running cycles: ratios, tokens and formats
-/

set_option linter.unusedSectionVars false

namespace Carbon

open CarbonPair (pyDiv)

namespace Arb

section
variable {K : Type} [Field K] [LinearOrder K] [IsStrictOrderedRing K]

/-- The product of the average prices along a cycle: what one unit of the first token becomes. -/
def cyclePrice (g : AG K) (cycle : List Nat) : K := ((closedWalk cycle).map fun p => avgPrice (edgesFrom g p.1 p.2)).prod

theorem cyclePrice_rotate (g : AG K) (cycle : List Nat) (k : Nat) : cyclePrice g (cycle.rotate k) = cyclePrice g cycle := by
  unfold cyclePrice
  rw [closedWalk_rotate, List.map_rotate]
  exact (List.rotate_perm _ _).prod_eq

theorem report_of_run (g : AG K) {cycle : List Nat} (hne : cycle ≠ []) (h : ∀ p ∈ closedWalk cycle, Tradable (edgesFrom g p.1 p.2))
    (token : Option Str) : ∃ k res, g.runCycle cycle token = .ok res ∧ Reports g (cycle.rotate k) res := by
  cases token with
  | none =>
    obtain ⟨res, h1, h2⟩ := C47_run g hne h true
    exact ⟨0, res, h1, by rwa [List.rotate_zero]⟩
  | some t =>
    by_cases ht : ∃ n, dictGet g.byTkn t = some n ∧ n ∈ cycle
    · obtain ⟨n, hn, hc⟩ := ht
      obtain ⟨k, res, -, h1, h2⟩ := C47_token g hn hc h true
      exact ⟨k, res, h1, h2⟩
    · obtain ⟨res, h1, h2⟩ := C47_run g hne h true
      refine ⟨0, res, ?_, by rwa [List.rotate_zero]⟩
      rw [(C47_other_token g (fun n hn hc => ht ⟨n, hn, hc⟩)).1]
      exact h1

/-- C136: the return of a cycle is the product of its prices minus one, whatever token it is entered at; the profit is the return times the
amount put in, the returns and the profit per step add up to the totals over the steps of the cycle, and there is a profit exactly if the
product of the prices exceeds one. -/
theorem C136_return (g : AG K) {cycle : List Nat} (hne : cycle ≠ []) (h : ∀ p ∈ closedWalk cycle, Tradable (edgesFrom g p.1 p.2))
    (token : Option Str) :
    ∃ res r rs ps, g.runCycle cycle token = .ok res ∧ res.r = .ok r ∧ res.rpcs cycle.length = .ok rs ∧ res.ppcs cycle.length = .ok ps ∧
      r = cyclePrice g cycle - 1 ∧ res.profit = r * res.amountIn ∧ rs * cycle.length = r ∧ ps * cycle.length = res.profit ∧
      (0 < res.profit ↔ 1 < cyclePrice g cycle) := by
  obtain ⟨k, res, h1, h2⟩ := report_of_run g hne h token
  have hpr : cyclePrice g (cycle.rotate k) = cyclePrice g cycle := cyclePrice_rotate g cycle k
  have hout : res.amountOut = res.amountIn * cyclePrice g cycle := by rw [← hpr]; exact h2.out
  have hpos := h2.pos
  have hlen : (cycle.length : K) ≠ 0 := by
    have : cycle.length ≠ 0 := by simpa using hne
    exact_mod_cast this
  have hr : res.r = .ok (cyclePrice g cycle - 1) := by
    unfold AG.ArbResult.r
    rw [UICurve.pyDiv_ok hpos.ne', Py.ok_bind, hout, mul_div_cancel_left₀ _ hpos.ne']
  have hprofit : res.profit = (cyclePrice g cycle - 1) * res.amountIn := by
    rw [h2.profit, hout]
    ring
  refine ⟨res, _, (cyclePrice g cycle - 1) / cycle.length, res.profit / cycle.length, h1, hr, ?_, ?_, rfl, hprofit, div_mul_cancel₀ _ hlen,
    div_mul_cancel₀ _ hlen, ?_⟩
  · unfold AG.ArbResult.rpcs
    rw [hr, Py.ok_bind, UICurve.pyDiv_ok hlen]
  · unfold AG.ArbResult.ppcs
    rw [UICurve.pyDiv_ok hlen]
  · rw [hprofit]
    constructor
    · intro hp
      have := pos_of_mul_pos_left hp hpos.le
      linarith
    · intro hp
      exact mul_pos (by linarith) hpos

/-- C136: without an amount put in there is no return. -/
theorem C136_nothing (res : AG.ArbResult K) (h : res.amountIn = 0) (n : Nat) : res.r = .error .zeroDiv ∧ res.rpcs n = .error .zeroDiv := by
  have : res.r = .error .zeroDiv := by
    unfold AG.ArbResult.r pyDiv
    rw [if_pos h]
    rfl
  refine ⟨this, ?_⟩
  unfold AG.ArbResult.rpcs
  rw [this]
  rfl

theorem runCycleArg_one (g : AG K) (cycle : List Nat) (t : Option Str) (any : Bool) :
    g.runCycleArg cycle (.one t) any = g.runCycle cycle t any := rfl

/-- C136: with one token for all cycles, by default and as a tuple or generator, the results are those of the individual runs, in order. -/
theorem C136_tuple_partial (g : AG K) (cycles : List (List Nat)) (t : Option Str) (any : Bool) {f : Option AG.Fmt}
    (hf : f = none ∨ f = some .tuple ∨ f = some .gen) (rs : List (AG.ArbResult K)) :
    g.runCyclesArg cycles (.one t) f any = .ok (.results rs) ↔
      rs.length = cycles.length ∧ ∀ (i : Nat) (c : List Nat) (r : AG.ArbResult K), cycles[i]? = some c → rs[i]? = some r →
        g.runCycle c t any = .ok r := by
  have : g.runCyclesArg cycles (.one t) f any = (do
      let rs ← cycles.mapM fun c => g.runCycle c t any
      .ok (.results rs)) := by
    unfold AG.runCyclesArg
    rw [if_pos (by rcases hf with rfl | rfl | rfl <;> simp)]
    rfl
  rw [this, Py.bind_eq_ok]
  clear this
  induction cycles generalizing rs with
  | nil =>
    constructor
    · rintro ⟨l, hl, he⟩
      simp only [List.mapM_nil, Py.pure_eq_ok, Except.ok.injEq] at hl
      simp only [Except.ok.injEq, AG.Formatted.results.injEq] at he
      subst hl; subst he
      simp
    · rintro ⟨hl, -⟩
      obtain rfl : rs = [] := List.length_eq_zero_iff.1 (by simpa using hl)
      exact ⟨[], rfl, rfl⟩
  | cons c cs ih =>
    constructor
    · rintro ⟨l, hl, he⟩
      rw [List.mapM_cons, Py.bind_eq_ok] at hl
      obtain ⟨r, hr, hl⟩ := hl
      rw [Py.bind_eq_ok] at hl
      obtain ⟨l', hl', hl⟩ := hl
      rw [Py.pure_eq_ok] at hl
      simp only [Except.ok.injEq, AG.Formatted.results.injEq] at he
      subst he; subst hl
      obtain ⟨h1, h2⟩ := (ih l').1 ⟨l', hl', rfl⟩
      refine ⟨by simp [h1], ?_⟩
      intro i c' r' hc hr'
      cases i with
      | zero =>
        simp only [List.getElem?_cons_zero, Option.some.injEq] at hc hr'
        subst hc; subst hr'
        exact hr
      | succ i => exact h2 i c' r' (by simpa using hc) (by simpa using hr')
    · rintro ⟨hl, h⟩
      cases rs with
      | nil => simp at hl
      | cons r rs =>
        obtain ⟨l', h1, h2⟩ := (ih rs).2 ⟨by simpa using hl, fun i c' r' hc hr' => h (i + 1) c' r' (by simpa using hc) (by simpa using hr')⟩
        simp only [Except.ok.injEq, AG.Formatted.results.injEq] at h2
        subst h2
        refine ⟨r :: l', ?_, rfl⟩
        rw [List.mapM_cons, h 0 c r rfl rfl, Py.ok_bind, h1, Py.ok_bind]
        rfl

/-- C136: a list of tokens is not matched with the cycles but ignored or rejected, even if each of its tokens lies in its cycle. -/
theorem C136_tokens (g : AG K) (cycle : List Nat) (ts : List Str) :
    g.runCycleArg cycle (.list ts) true = g.runCycle cycle none true ∧ g.runCycleArg cycle (.list ts) false = .error .value :=
  ⟨rfl, rfl⟩

/-- C136: asked for dictionaries or dataframes, `run_arbitrage_cycles` raises as soon as it has a result, and so does the function that formats
given results, whose default format raises in any case. -/
theorem C136_formats_violated (g : AG K) {f : AG.Fmt} (hf : f ≠ .gen ∧ f ≠ .tuple) {c : List Nat} {cs : List (List Nat)}
    {t : AG.TokenArg} {any : Bool} {r : AG.ArbResult K} (hr : g.runCycleArg c t any = .ok r) (rs : List (AG.ArbResult K)) :
    g.runCyclesArg (c :: cs) t (some f) any = .error .type ∧ AG.formatResults (r :: rs) (some f) = .error .type ∧
      AG.formatResults rs none = .error .attr := by
  have key : ∀ rs : List (AG.ArbResult K), AG.formatResults (r :: rs) (some f) = .error .type := by
    intro rs
    unfold AG.formatResults
    cases f <;> simp_all
  refine ⟨?_, key rs, rfl⟩
  unfold AG.runCyclesArg
  rw [if_neg (by simpa using ⟨hf.2, hf.1⟩)]
  unfold AG.formatRuns
  dsimp only [Option.getD_some]
  rw [hr, Py.ok_bind, key]

/-- C136: without cycles there is an empty list of dictionaries, and every dataframe raises. -/
theorem C136_none (g : AG K) (t : AG.TokenArg) (any : Bool) : g.runCyclesArg [] t (some .dicts) any = .ok .noDicts ∧
    ∀ f, f = .df ∨ f = .aggrdf ∨ f = .prettyadf ∨ f = .other → g.runCyclesArg [] t (some f) any = .error .key := by
  refine ⟨rfl, ?_⟩
  rintro f (rfl | rfl | rfl | rfl) <;> rfl

end

/-! ## Examples -/

example : ∃ res : AG.ArbResult ℚ, exGraph.runCycle [0, 1, 2] = .ok res ∧ res.r = .ok 1 ∧ res.rpcs 3 = .ok (1 / 3) ∧
    res.ppcs 3 = .ok (5 / 2) ∧ cyclePrice exGraph [0, 1, 2] = 2 :=
  ⟨⟨some "A".toList, 15 / 2, 15 / 2, 15⟩, by decide +kernel, by decide +kernel, by decide +kernel, by decide +kernel, by decide +kernel⟩

example : exGraph.runCyclesArg [[0, 1, 2], [1, 2, 0]] (.one none) none =
    .ok (.results [⟨some "A".toList, 15 / 2, 15 / 2, 15⟩, ⟨some "B".toList, 10, 10, 20⟩]) := by decide +kernel

example : exGraph.runCyclesArg [[0, 1, 2], [1, 2, 0]] (.one none) (some .df) = .error .type := by decide +kernel

/-- C136: with the documented list of tokens, one for each cycle, a cycle is run from another token than the one given for it. -/
theorem C136_tokens_violated : ∃ (g : AG ℚ) (c : List Nat) (t : Str) (n : Nat) (r : AG.ArbResult ℚ), Reach false g ∧
    dictGet g.byTkn t = some n ∧ n ∈ c ∧ g.runCyclesArg [c] (.list [t]) none = .ok (.results [r]) ∧ r.token ≠ some t :=
  ⟨exGraph, [0, 1, 2], "C".toList, 2, ⟨some "A".toList, 15 / 2, 15 / 2, 15⟩,
    .addEdge _ _ _ _ _ _ (.addEdge _ _ _ _ _ _ (.addEdge _ _ _ _ _ _ (.addEdge _ _ _ _ _ _ .empty))),
    by decide +kernel, by decide +kernel, by decide +kernel, by decide +kernel⟩

end Arb

end Carbon
