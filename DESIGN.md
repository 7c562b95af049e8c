# Formal model of carbon-simulator: design

Source under study: `/repo` (bancorprotocol/carbon-simulator, pinned, Python). Model and proofs: Lean 4, `lean/Verif/`.
Properties: `properties.jsonl`. Which theorem proves which property: `MANIFEST.json`.

## 1. Layout

Each area of the code has a *model* file (definitions only, each citing `/repo` file and lines), where
useful a *lemma* file, and a *property* file that holds the statements that count (`Verif/Prop/*.lean`), each followed by
`example`s with concrete non-trivial data meeting the hypotheses. Further instances, named after the theorem they
apply, are in `Verif/Witness/`.

## 2. How the Python is modelled

* **Integers** (`benchmark/core/*`): Python ints are Lean `Int`/`Nat`, exactly. `assert` and `ZeroDivisionError`
  are `Except` errors. No simplification.
* **Decimal / float code** (`carbon/*`): modelled over an arbitrary linearly ordered field `K` (so in particular ℚ
  and ℝ); where the code takes square roots, over ℝ. Division by zero is an explicit error value, never
  `x / 0 = 0`. *Rounding of Decimal (128 digits) and of IEEE floats is not modelled, except for order curves (C147-C149) and the booked amounts of trades (C151)*: the theorems are about the
  formulas and the control flow, not about the last digits.
* **None / exceptions**: `Option` / `Except`, branch by branch.
* **Mutable objects and dicts**: association lists or functions with explicit state passing.
* **Sorting**: the comparators of the matchers and routers are not strict weak orders once a quote has a zero
  side, so Python's result is some permutation. Theorems about matching are stated for *every* ordering of the
  quotes, hence for whatever the sort returns.

## 3. Plan per property

| id | modelled | proof |
|----|----------|-------|
| C01, C02 | `encodeFloat`, `decodeFloat` over `Nat` | bit-length bounds, monotonicity of truncation |
| C03, C04 | `tradeBy*AmountFunc` over `Int` with checked ops in `Except` | floor/ceil inequalities through the rescaling factor, for every factor |
| C05 | `tradeFunc` | case analysis of `check` |
| C06, C07 | same, factor = 1 | exact floor/ceil characterisation, Galois connection |
| C08–C10 | `matchFast`, `rateBy*` over lists | induction over the quotes |
| C11 | `matchBest` | expected to fail at extreme scales; counterexample + partial theorem |
| C12–C15 | `CarbonPair` | field algebra, case analysis, list-of-char reasoning for the constructor |
| C16–C23 | `CarbonOrderUI` formulas and `selly`/`tradeto` as state transformers | `field_simp`/`nlinarith`, induction for splitting; C22 is violated by the code (linked curve) |
| C24 | `Order` properties, routers' formulas | algebra; the capacity floor `max(y_int,1)` needs capacity ≥ 1, with a counterexample below |
| C25 | `FastRouter.match` | induction over quotes |
| C26 | `amt_by_target`, `amt_by_src` | the amounts take all orders to one level `λ`; derivative of the charge |
| C27 | alpha router's selector | invariant: chosen ++ dropped is a permutation of the prefix seen, dropped ≤ chosen; exchange argument |
| C28–C36 | simulator state machine: orders dict, id counter, `_trade`, `add_strategy`, `delete_order` | invariants by induction over operations; negations for the violated ones |
| C37–C42 | `ConstantProductCurve` | algebra; optimality by AM-GM style inequality |
| C43, C44 | container selection, `Pair` naming | invariant of the two dictionaries by induction over additions; string order |
| C72–C77 | container ids, `price`, `price_estimate`, `herfindahl`, `filter_pairs`, `tokentable` | the same invariant; mean inequalities (Cauchy–Schwarz over lists); a table of the documented conditions |
| C45–C49, C78, C88–C91 | `ArbGraph` as a heap of node and edge objects, `Edge`, `Cycle`, `TradeInstruction` | invariant over an inductive relation of all operations; induction over the edges of a transport and the steps of a cycle; rotations of lists |
| C50 | both goal seeks, number of rounds as parameter, and the relation "finishes with" | invariant of the loop; the interval halves, so some number of rounds suffices |
| C79–C81 | `margp_optimizer` at given prices, instructions, `adjust_curves` | every curve minimises its value at the prices (C40); summed over the curves this is a duality argument against all alternative trades |
| C82 | `simple_optimizer` on the views `CPCInverter.wrap` | monotonicity and continuity of the trades in the price, C50, duality as in C80 |
| C83, C84 | `SelfFinancingConstraints`, derivatives and extrema | case analysis over dictionaries; algebra |
| C51 | `Params` as a state transformer | induction over operation sequences |
| C52, C85 | `SDKToken`, `TokenContainer` | dictionary lemmas; floor and ceiling |
| C53 | `CarbonFloatInt64` for any digit estimate | truncation bounds as for C01 |
| C54, C55, C86, C87 | `strategy` constructors, `rescale_strat`, `set_tvl` | case analysis, algebra |
| C92, C94 | `Univ3Calculator`, `TokenScale` over ℝ | powers of 1.0001, square-root algebra; induction over additions |
| C93 | `tvl`, ends of the range | algebra of the product curve |
| C95 | `EncodedOrder` of the SDK | the largest representable root below a real one; agreement with the benchmark's integer square root |
| C96 | `run_sim` | invariant of two linked curves, carried through the strategies and along the path |
| C97, C98 | `SDKBase`, `_checkresult` against an arbitrary server | texts as lists of characters, `Int.log`, case analysis over replies |
| C99, C100 | the market, strategy and trade functions of `CarbonSDK` | the server is a structure of arbitrary functions; one lemma per query, algebra |
| C101 | `PathInterpolation` | random draws are arguments; telescoping sums, list induction |
| C102 | `Analytics`, `OrderBook` of `sim_analytics.py` | floats with NaN (`Flt`) where a division by zero is silent; list induction |
| C103 | `liquidityApprox`, `calcLiquidityApprox` | sums over the curves of a book |
| C104, C105 | `Sim` with its log | invariant `Logged` over `Reachable` states; a preview and an execution run side by side |
| C106 | `effectivePrice`, `simulateTrades` | on top of C104 and C105 |
| C107 | `UICurve.fromSdk`, `Sim.addFromSdk` | evaluation of both imports; orders stored and read back give the same curve |
| C108 | `UICurve.yzABS`, `UICurve.byPair` | bounds of `floor`, real powers of ten |
| C109 | `p0`, `p0Raw`, `kappaBar`, `leverage`, `widthr`, `widthpc` | everything in terms of the fourth root of the price ratio |
| C110, C111 | `AG.price`, `AG.priceUnits`, `AG.pricetable` | any routine returning a shortest path; breadth-first search shown to be one, so the assumption can be met |
| C112 | `Amt` | cases on the tokens; induction on lists |
| C113 | `Tracked` | induction on sequences of changes |
| C114 | `AG.nodeStatistics`, `AG.transport` | sums over filtered edges; effect of a transport from C46 |
| C115 | `AG.inDegree`, `AG.outDegree`, `AG.degree` | permutations between arcs and neighbours; double counting |
| C116 | `Bench.Ref.*`, `Bench.decodeOrder` | algebra of the two curves; C03, C04 for the contract |
| C117 | `Bench.execute`, `Bench.Ref.execute` | error bounds of the stored roots (`Stored`), monotonicity of the curve in the roots, C03, C04, C56 |
| C118 | `splitVersion`, `requireVersion` (`Helpers/Version.lean`) | decimal digits read back; lexicographic order of lists |
| C119, C120 | `SolTest.check`, `StdImports.iseq`, `.raises` (`Helpers/SolTest.lean`) | case analysis on the bounds; `Nat.size` and base-2 logarithm |
| C121 | `Shared.exec`, `.run` (`Helpers/SharedVar.lean`): names, a heap of objects, statements | invariants over all programs |
| C122 | `Data.window`, `.column`, `.tknpair` (`Helpers/DataTools.lean`) | filters of sorted lists |
| C123 | `Data.join`, `.unjoin`, `.createPairs`, `.pairsFields`, `.listdir` | induction over lists and texts |
| C124 | `Data.dr`, `.drr`, `.fromDct` | lookup in lists of fields |
| C125 | `Data.path`, `.times`, `.datetimes` | induction over the increments |
| C126 | `Floor.amtBySrc`, `.amtByTarget`, `.matchBySource`, `.matchByTarget` (`Carbon/FloorRouter.lean`): the fast router with floor division | comparison with the real curve; invariants over the loop |
| C127 | `Floor.entryOrder`, `.readJson`, `.readCsv` | induction over the file |
| C128, C129 | `Sim.trade`, `.ammBuys`, `.ammSells` (`Prop/TradeOutcome.lean`) | contract of the routers (C25, C69, C70), then the loop over the routes cannot fail |
| C130 | `nofees_optimizer` (`Tools/ConvexOpt.lean`, `Prop/ConvexOpt.lean`) | the constraints curve by curve and token by token; then C79, C80 |
| C131 | `pairs_analysis`, `make_symmetric`, `AF` (`Tools/CpcAnalysis.lean`, `Prop/CpcAnalysis.lean`) | dataframes as tables of cells that may be missing; groups of curves |
| C132 | `xystats`, `price_estimates` (same files) | C74 for each cell |
| C133 | `jacobian`, the Newton loop of `margp_optimizer` (`Tools/MargpLoop.lean`, `Prop/MargpLoop.lean`; residual and convergence in `Prop/MargpConverge.lean`, distance to the optimum in `Prop/MargpGap.lean`) | vectors as functions on the indices; `np.linalg.solve`/`lstsq` by specification, with a proof that a solution exists |
| C134 | starting prices and parameters of `margp_optimizer`, `price_estimates` (same files) | C132 and C133 |
| C135 | `edgedf` (`Tools/ArbTable.lean`, `Prop/ArbTable.lean`) | data frames as lists of lines; `groupby`, `pivot`-like merging by position and `nanmean` by specification |
| C136 | `run_arbitrage_cycles`, `run_arbitrage_cyclesf`, `RunArbCycleResult` (`Tools/ArbFormat.lean`, `Prop/ArbFormat.lean`) | C47 |
| C137 | `Adjacency`, `Laplacian`, `degree`, `is_weakly_connected` (`Tools/ArbFormat.lean`, `Prop/ArbMatrix.lean`) | networkx by specification; Mathlib's Laplacian of a simple graph |
| C138 | `simple_optimizer`, `SimpleOptimizerResult` (`Tools/SimpleResult.lean`, `Prop/SimpleResult.lean`) | exact arithmetic; number of Newton steps as a parameter |
| C139 | `to_df`, `to_format`, `dxdydf` (`Tools/TITable.lean`, `Prop/TITable.lean`) | data frames as index, columns and lines; `from_dict`, `fillna`, `sum`, `concat` by specification |
| C140 | `StartConditions` (`Helpers/StartCond.lean`, `Prop/StartCond.lean`) | exact arithmetic; dates as numbers |
| C141 | `Formulas` (`Helpers/Formulas.lean`, `Prop/Formulas.lean`) | items and their LaTeX code abstract; the default pattern of the filter by specification of `re.sub` |
| C142 | `Tags` (same files) | sets as lists without order |
| C143 | `query`, `_cache_xxx`, `cache_*`, `write_cache` (`Helpers/CryptoCompare.lean`, `Prop/CryptoCompare.lean`) | the service is a function of requests; the cache is a dictionary |
| C144 | `query_freqlypair`, `aggr_query`, `reformat_raw_df` (same files) | `pandas.concat` by specification; order of dates and of columns left open |
| C145 | requests for transactions of `carbonsdk0.py` (`Sdk/Requests.lean`, `Prop/SdkRequests.lean`) | every request is determined; a dictionary written in place is returned as what the caller holds afterwards |
| C146 | ERC20 methods, `result`, `addr`, `pairs`, `hasLiquidityByPair` (same files) | replies are arbitrary; the shape of the data is that the method expects |
| C147 | the curve functions of `carbon_order_ui.py` with a rounding after every operation (`Float/Rounding.lean`, `Carbon/OrderUIFloat.lean`, `Prop/OrderUIFloat.lean`) | standard model of rounding: relative error at most `u`; errors are counted as factors of `1 - u`; `double` rounds to 53 binary digits and evaluates in the kernel |
| C148 | the same functions and `selly`, `buyx`, `addliqy` with rounding (`Prop/OrderUIFloatOrder.lean`) | for monotone roundings every step is monotone; the invariant on holdings needs no assumption on the rounding; counterexamples are doubles |
| C149 | `from_prices`, `yfromp_f`, `dyfromp_f`, `tradeto` with rounded square roots (`Float/Root.lean`, `Carbon/OrderUIFloatPrice.lean`, `Prop/OrderUIFloatPrice.lean`) | a root with one rounding; that the root of the rounded square of a float is the float is proved for every precision of two or more digits |
| C150 | `CheckboxManager`, `PcSliderManager`, `DropdownManager` (`Helpers/Widgets.lean`, `Prop/Widgets.lean`) | the ipywidgets classes are modelled: a slider moves its value to the nearer bound and refuses bounds out of order, a drop-down list refuses values and positions that do not exist |
| C151 | `frmt`, `_trade`, `amm_buys`, `amm_sells` with rounded amounts (`Carbon/SimulatorRounded.lean`, `Prop/SimulatorRounded.lean`) | a rounding function applied to every reported amount; equal to the exact model for the identity (`C151_exact`); `frmt` is a double, the nearest 12 decimals, and a double again; the exactness of the routers' `Decimal` arithmetic is assumed |
| C152 | `CarbonOrderUI` objects: `set_id`, `set_linked`, `lid`, `addliqy`, `selly`, `buyx`, `==` (`Carbon/OrderUIHeap.lean`, `Prop/OrderUIHeap.lean`) | a heap of objects with references; equal to the model of one order and its linked order where these differ (`C152_sale`); induction over calls; the depth of the stack is a parameter of `==` |
| C153 | `CPCContainer` on shared curve objects: `__init__`, `add`, `curveix`, `in`, `bycid`, `copy`, `bypair`; `asdict`, `from_dict`, `asdicts`, `asdf`, `from_df`, `P` (`Tools/CpcHeap.lean`, `Prop/CpcHeap.lean`) | a heap of curve objects; invariant of the indices of a container under changes of ids by other containers; round trips by evaluation of the fields |
| C154 | `AlphaRouter` of `alpha_router_orig.py`: `match_by_target`, `match_by_src`, `match` (`Carbon/AlphaRouterOrig.lean`, `Prop/AlphaRouterOrig.lean`) | the sliding windows are windows of the ranking; the match within a window by the theorems about the exact router (C69, C70) |
| C155 | `ScaledVariable`, `NofeesOptimizerResult`, `ConvexOptimizerResult`, result of `nofees_optimizer` (`Tools/ConvexResult.lean`, `Prop/ConvexResult.lean`) | what the solver leaves is a parameter; values by induction over the curves; instructions from the optimality theorems of C130; witnesses with exact optima |
| C156 | `matchExact` and the settlement of its actions (`Prop/ExactSplit.lean`, `Prop/ExactRouter.lean`) | the router's split is characterised by a price: strict convexity of each order's charge makes amounts at a price unique and comparable; amounts at a price on top of amounts at a price are again at a price, and the total then determines them |
| C157 | `simulateAll`, `simulateTrades`, `OrderBook.make`, `margPrices`, `prices`, `obLiquidity` (`Carbon/Analytics.lean`, `Prop/SimDepth.lean`, instances in `Witness/Depth.lean`) | the simulated amounts are the optimal payments and receipts of C156 at the size, by the trade outcome (C129) and the log (C104); their strict convexity gives the order of the prices |
| C158 | `tradeBySourceAmount`, `tradeByTargetAmount` in sequence (`Bench/Trade.lean`, `Prop/TradeSequence.lean`) | the curves of payment and payout are adjoint and additive under settlement, so bounds per quote add up by induction over the sequence |
| C159 | `matchWith`, `matchBySrc`, `matchByTarget` (`Carbon/ExactUnchecked.lean`, `Prop/ExactUnchecked.lean`) | the distribution of C69 decides the amounts the orders hold or lack; an induction over the inner loop shows where amounts that are not negative end |
| C160 | `join`, `fsave`, `fload` (`Helpers/Fls.lean`, `Prop/Fls.lean`) | evaluation over an arbitrary disk and any library whose codecs undo themselves |
| C161 | `matchFast`, `matchBest` with both pairs of entries (`Bench/Match.lean`, `Prop/MatchCompare.lean`, `Prop/MatchClearing.lean`) | invariants of the scan, the bisection and the two corrections; the violations are evaluated |
| C162 | `matchBest`, `getLimit`, `equalizeByTargetAmount` (`Bench/Match.lean`, `Prop/MatchOptimal.lean`) | the difference of two prices on a curve is the difference of the amounts over the product of the roots of the marginal rates; shares are antitone in the limit, so that limits with one total have one set of shares |
| C163 | `filterfn`, `funcn`, `process_code` and the loop of `ConvertNBTest.py` (`Helpers/NbConvert.lean`, `Prop/NbConvert.lean`) | induction over the lines and over the files; each line is of one of four kinds |
| C164 | `dy_f`, `dx_f` of `CarbonCurves.py` on `dyfromp_f`, `dxfromdy_f` (`Carbon/CurveBook.lean`, `Prop/CurveBook.lean`) | release and receipt in terms of the root of the marginal price, which is clamped between the root of the end price and the present one; a supporting line at the price; the intermediate value theorem; the fundamental theorem of calculus |
| C165 | `CarbonCalculations.py`, `Formulas.add` (`Helpers/Paper.lean`, `Spec/Paper.lean`, `Prop/PaperLemmas.lean`, `Prop/Paper.lean`) | the formulas are trees with real values and substitution is done on the trees; the observations on the curve (derivatives, limits) determine all symbols in terms of three parameters and the state; every formula then is an identity of rational functions |
| C166 | `XEq` of `sympyx.py` (`Helpers/Paper.lean`, `Prop/XEq.lean`) | induction on expressions |
| C167 | attributes and `_f` methods of `CarbonOrderUI` against `CarbonCalculations.py` (`Carbon/OrderUI.lean`, `Helpers/Paper.lean`, `Prop/PaperOrder.lean`) | the pool is built by C165_exists from the order's B, S and yint; the rest are identities |
| C168 | `assertAlmostEqual`, `run` of `test_trade.py` (`Bench/Compare.lean`, `Prop/BenchCompare.lean`) | cases; induction on the file; acceptance from the error bounds of C117 |
| C169 | `import_orders`, `calc_new_buckets`, `sellDepthByBuckets`, `sellDepthByTick`, `decumulate` of the order book demo (`Carbon/SellDepth.lean`, `Prop/SellDepth.lean`) | the release of C164 in terms of the prices of the file, a telescoping sum over the grid, integer division for the grid |
| C170 | `matchBest`, `equalizeBySourceAmount`, `rateBySourceAmount` of the benchmark (`Prop/MatchOptimalSource.lean`) | the bound of C162 for the price, turned around with the payout as the inverse of the price; the payments are compared with those at the clearing limit only, as they are not monotone in the limit for sold out orders |
| C171 | `run` of `test_match.py`, `execute` of the matches (`Bench/CompareMatch.lean`, `Prop/BenchMatch.lean`) | induction on the file; the single checks from C08, C09, C58, C59 |
| C172 | `matchBest`, `equalizeByTargetAmount` (`Prop/MatchAnyAmount.lean`) | the scan and the bisection end at a limit whose total is within two steps of the amount; the correction moves the shares in one direction only, so that C162's bound on the difference of two prices bounds what it costs |
| C173 | `to_desmos` (`Helpers/Desmos.lean`, `Prop/Desmos.lean`) | replacements of single characters as one map over the text; a decoder |
| C174 | `pickle`, `unpickle` of the optimizers (`Tools/Pickle.lean`, `Prop/Pickle.lean`) | the names differ in length or in the digits of the time |
| C175 | requests about matches of `carbonsdk0.py` (`Sdk/MatchRequests.lean`, `Prop/SdkMatch.lean`) | every request is determined for both interfaces; what is asked is read off the parameters |
| C176 | units and data of the charts of `OrderBook` (`Carbon/Charts.lean`, `Prop/Charts.lean`) | every operation on floats commutes with a change of units |
| C177 | `matchExact` (`Prop/ExactListing.lean`) | amounts at a price in one book are amounts at a price in a rearranged or rescaled book, and the total determines them (C156) |
| C178 | `addStrategy`, `trade` with the three routers (`Prop/AddingOrder.lean`, `Prop/AddingOrderFast.lean`, `Prop/AddingOrderAlpha.lean`, instances in `Witness/Adding.lean`, `Witness/AddingFast.lean`) | what a strategy adds does not depend on the book except for the numbers, so the curves of two books are rearranged; then C177, or for the fast and alpha routers that quotes sort one way when equal ones have equal curves |
| C179 | `addStrategy`, `deleteOrder`, `trade` (`Prop/DeletedStrategy.lean`, `Prop/DeletedCosts.lean`, instance in `Witness/Deleted.lean`) | adding appends two orders with fresh numbers, deleting filters them out; trades commute with a change of the next number, and amounts depend on the list of curves only |
| C56 | same functions as C03/C04 | error propagation through the rescaling factor |
| C57 | `encodeOrder`, `encodeRate` | integer square root and truncation bounds |
| C58, C59 | `matchFast`, `matchBest` | list induction with a loop invariant |
| C60, C61 | ISO names and decimals of `CarbonPair` | list-of-char reasoning; negations with witnesses |
| C62, C66 | `from_prices`, `from_Qxy` over ℝ | square-root algebra |
| C63 | percentage part of `liquidity_approx` | clamp algebra |
| C64 | `buyx` | from C16 and C17 |
| C65 | `xasym`, `yasym`, `kappa` over ℝ | algebra in the fourth root of the price ratio |
| C68 | `Order.__post_init__` | branch by branch, square roots over ℝ |
| C69, C70 | both loops of the exact router's `match` | water-filling invariant (dropped orders stay dropped, exhausted ones stay exhausted), then a supporting-line argument against every alternative |
| C71 | alpha router's `match_by_target`, `match_by_src` | C27 and C69/C70; by source the counted value is a lower bound of the real capacity |
| C67 | `selly` with linked curve over request histories | induction over an inductive history relation |

## 4. Trusted base

* Lean 4.33.0 kernel and Mathlib's definitions of the number systems.
* Axioms: only `propext`, `Classical.choice`, `Quot.sound` (the standard three). No own axioms, no `sorry`, no
  `native_decide`.
* The correspondence between the Lean definitions and the Python text, which was made by reading. Nothing was
  executed: there is no Python dependency set in the sandbox.
* For prices in arbitrage graphs: that networkx returns a path with as few steps as possible or raises if there is none (a hypothesis
  of the theorems, `ShortestPaths`, which breadth-first search is proved to satisfy).
* For C147-C149: that a sum, difference, product or quotient of floats, `**2` and `math.sqrt` are the exact results rounded to the nearest of 53
  binary digits, ties to even (`Rounding.double`, `Rounding.doubleRoot`); the error bounds only use a relative error of at most `u`. Exponents
  are unbounded.
* Section 2's abstractions, in particular exact arithmetic in place of Decimal/float.

## 5. Where the code disagrees with the property

Each is a theorem with a concrete witness (name in brackets) unless marked *(by reading)*.

* Best matching can route far more than requested: 3637978807091 for a request of 10^11 (`C11_violated`).
* `limit_is_met` ignores its `reverse` argument (`C14_reverse_has_no_effect`).
* A token whose name contains a slash makes a pair that cannot be rebuilt from its slashpair (`C15_slash_in_name`).
* ISO names: ETH in "ETHBETH" is ambiguous and resolved wrongly; names of different pairs coincide (`C60_violated`,
  `C60_not_injective`).
* `from_slashpair` drops the decimals (`C61_from_slashpair_violated`).
* `selly` with a negative amount on a linked curve raises after it has changed the curve (`C21_violated`).
* `selly` in a dry run credits the linked curve (`C22_violated`).
* `tradeto` on a flat curve (both prices equal) raises `ZeroDivisionError` (`C23_flat_violated`); on a curve of
  capacity zero it changes the capacity even in a dry run (`C23_capacity_changed`).
* `Order.x0`/`y0` use `max(y_int, 1)`, so orders with capacity below one are quoted wrongly by the exact router
  (`C24_small_capacity_violated`).
* An order may be built with a marginal price above its range; its holdings then exceed its capacity
  (`C68_marginal_above_range_violated`).
* `from_prices` with a lower-case base token gives a curve with reciprocal prices (`C62_lower_case_violated`).
* Alpha router: `match_by_src` has no default for `threshold_orders` and raises `TypeError` without it
  (`C71_no_default_violated`); it counts orders at the geometric mean price, which understates partly sold orders, and can
  fail although the permitted number of orders suffices (`C71_by_source_violated`).
* `delete_order` of an order linked to order 0 leaves order 0 behind; with the first strategy of a fresh simulator this
  always happens (`C30_violated`, `C30_first_strategy_violated`).
* `add_strategy` is not atomic: with an incomplete buy side the first order stays in the book (`C31_violated`).
* The simulator accepts negative amounts, a marginal price outside of the range and a marginal price without a range; the
  order then has negative holdings or more than its capacity (`C33_negative_violated`, `C33_marginal_violated`,
  `C33_disabled_violated`).
* Alpha router with `support_partial` in a book holding less than 1e-10: the correction by 1e-10 flips the sign of the
  amount and the order ends up with negative holdings (`C33_dust_violated`).
* Pairs with the same ISO name (`A/BA` and `AB/A`) share their orders: a trade on one changes the other's orders and
  reports a token that was never received (`C32_violated`, `C36_name_violated`).
* A negative amount is delegated to the opposite call without `use_positions`: forbidden positions are traded
  (`C36_positions_violated`).
* Sales by the fast router compare the reciprocal price with the limit (`C35_violated`).
* `ConstantProductCurve.execute` checks only the side of the trade that is given: the other available reserve can become
  negative (`C37_violated`).
* `from_pkpp` accepts a price outside of the range; the available reserves are then negative (`C39_outside_violated`).
* The inverted view of a curve without price bounds raises `TypeError` for its bounds (`C41_violated`).
* Orders with a single price cannot be converted into curves: `as_cpc` and `from_carbon` divide by zero, or the range is
  silently widened (`C42_flat_violated`, `C42_from_carbon_violated`, `C42_widened_violated`).
* `from_univ3` passes its own name as constructor, but `from_pkpp` records "pkpp" *(by reading)*.
* Selecting curves by ids follows the order of the ids given, with repetitions; selecting by an undirected pair does not keep the order
  of the container and doubles curves of a token against itself (`C43_order_violated`, `C43_bypair_violated`).
* The position that a container gives as id can be the explicit id of another curve, which is then not found any more (`C72_violated`).
* The estimated prices of a pair in its two directions are not reciprocal (`C74_reciprocal_violated`).
* Arbitrage graph: `add_node` for a token that has a node hides that node; adding a node object twice breaks its index
  (`C45_found_violated`, `C45_index_violated`). A recorded transport that fails is not undone (`C46_atomic_violated`); the first recorded
  transport out of a node fails unless its balance has been set by hand, as balances start at zero; transport of an `Amount` raises
  `AttributeError` *(by reading)*.
* `run_arbitrage_cycle` reports a negative profit for profitable cycles of connection edges and ignores capacity that has been used up
  (`C47_connection_violated`, `C47_remaining_violated`); it reports a start index of zero whatever the entry point *(by reading)*.
* `Cycle.pairs_s` ignores its start (`C48_names_violated`); `is_subcycle_of` tries the first visit of a repeated node only
  (`C78_repeated_violated`).
* `add_edge_dxdy` silently leaves out a trade with one side zero, whatever the other side (`C49_zero_side_violated`).
* The goal seek of the optimizer ignores a root at the lower end, does nothing if the ends are reversed and returns a bare number
  without the attributes of a result after an exact hit; that of the orders stops after one round if the lower end is negative and
  divides by zero if it is zero (`C50_lower_root_violated`, `C50_reversed_violated`, `C50_ui_negative_violated`, `C50_ui_zero_violated`).
* `simple_optimizer` raises `AttributeError` after an exact hit of the goal seek, in exact arithmetic always on a single curve
  (`C82_single_violated`), and goes to the upper end of its bracket if no pool has quote tokens (`C82_balance_violated`).
* `Params.set_default` is ignored the first time, unless an unknown name has been read before (`C51_set_default_violated`,
  `C51_read_before_violated`); `add` is not atomic, `construct` from an object forgets its defaults, parameters named like a method cannot
  be read as attributes (`C51_add_violated`, `C51_replicate_violated`, `C51_attribute_violated`).
* `TokenContainer` accepts double tickers if there are as many double addresses (`C52_duplicates_violated`); `restore` is a class method
  and never finds a token (`C52_restore_violated`); `containsall` depends on the letter case (`C52_containsall_violated`). A token
  without decimals is documented to have 18 but cannot be converted (`C85_default_violated`).
* `CarbonFloatInt64.from_int` allows the exponent 256, one more than `max` (`C53_exponent_violated`); beyond it the message of the
  assertion raises `NameError`. The digits are counted with a float logarithm, which is too small just above large powers of two, for
  example for 2^50 + 1; the significant then has 41 bits *(by reading; `C53_estimate` bounds the effect)*.
* `strategy`: the first `__post_init__` is overwritten, so marginal prices and `y_int` are accepted together; a typo leaves a risk amount
  of zero as it is (`C87_seed_violated`), whereas rescaling turns a cash amount of zero into 1e-10 (`C54_cash_violated`); widths above 1
  are refused, zeros among two widths raise `TypeError` (`C55_wide_violated`, `C55_zero_width_violated`); `from_u3` can have negative buy
  prices (`C87_negative_violated`).
* Alpha router: a threshold of 0 orders means all orders *(by reading)*. `partial` is always reported as true by target *(by reading)*.
* An order UI with equal prices and a different marginal price raises `NameError` after both were stored *(by reading)*.
* `EncodedOrder.encode` with a marginal price inside the range stores a negative capacity, and the marginal price of the result is not
  implemented (`C95_marginal_violated`); a range in the wrong order is encoded but cannot be read (`C95_order_violated`); `encode_yzAB`
  is documented to take floats and refuses them (`C95_floats_violated`).
* `run_sim` skips zero prices only if the path begins with one; later ones raise `ZeroDivisionError` (`C96_zero_violated`). Rescaling multiplies the
  capacity of the buy range but not the cash in it, so that a strategy which sets this capacity cannot be simulated from a lower price
  (`C96_capacity_violated`).
* `Univ3Calculator.tkn0reserve`, `tkn1reserve`, `tvl` scale raw liquidity with the wrong power of ten; they are right exactly if the second
  token has three times the decimals of the first (`C92_reserves_violated`). A pool exactly at the lower end of its range gives no curve
  (`C92_boundary_violated`). Addresses are replaced by names only if the first one is known (`C92_names_violated`).
* The address given to the SDK client has no effect (`C98_address_violated`); clients that are synchronous by default lose the data of calls
  without explicit choice (`C98_default_violated`). `mCreateStrategy` creates the strategy on ETH/USDC whatever the pair
  (`C100_pair_violated`). Trades in tokens that are not in the module's table are refused although the client knows them
  (`C100_table_violated`). One strategy whose base token is not the first token of its orders hides all strategies of the user (`C100_base`). A market with
  bids only raises `ZeroDivisionError` if the missing rates are zero (`C99_one_sided_violated`); `inverted` of a range is set exactly where
  the rates are not inverted (`C99_flag_violated`); a zero in a list of asks raises `TypeError` instead of the intended error (`C99_depths_violated`).
  `roundsd` keeps one digit too many for large values and does not round negative ones (`C97_round_digits_violated`); `join` removes one slash
  only (`C97_join_violated`); `s2c` does not invert `c2s` on names with digits (`C97_digits_violated`).
* SDK *(by reading)*: `signsubmittx` builds its parameters with the key `sign` unquoted; `updateStrategy` ignores its marginal price arguments;
  the dictionary of overrides given by the caller is modified.
* Interpolated paths drop points that are followed by another one within less than a period (`C101_dropped_violated`), bridges have one point
  less than documented (`C101_length_violated`), and large draws give negative prices (`C101_positive_violated`).
* `OrderBook` attributes the prices after a gap in the amounts to wrong amounts (`C102_gap_violated`), gives NaN areas for equal neighbouring
  marginal prices (`C102_area_violated`), and the grid of amounts does not rise for small maxima (`C102_grid_violated`).
* `liquidity_approx` ignores how far an order has been traded (`C103_traded_violated`).
* The `partial` flag of the trade log is set for every sale (`C104_flag_violated`).
* `effective_price` refuses the documented constants (`C106_constants_violated`), raises `AttributeError` without a pair
  (`C106_default_pair_violated`), and `simulate_trades` ignores the simulator it is given if there is no pair (`C106_simulator_violated`).
* `from_SDK` looks token addresses up as tickers, so that strategies for different tokens are imported into the pair `TKNB/TKNQ`
  (`C107_address_violated`), and raises `ZeroDivisionError` for strategies with an unfunded side or without sell prices
  (`C107_unfunded_violated`, `C107_no_prices_violated`).
* `yzABS` does not round holdings and capacity (`C108_integers_violated`); its default exponent loses all prices of tokens with fewer decimals
  (`C108_default_scale_violated`).
* By reading only: `_from_SDK0` passes an unknown keyword and always raises `TypeError`.
* `price(with_units=True)` of a token in terms of itself raises `AttributeError` (`C110_units_violated`); `sum` of a list of `Amount`s
  raises (`C112_sum_violated`); `TrackedStateFloat.set()` without a value does not clear the history as described
  (`C113_set_none_violated`).
* `edgedf` puts the lines of the pairs in the primary direction and those in the opposite direction side by side by position: if some pair
  is connected one way only, lines of different pairs are mixed (`C135_oneway_violated`); an empty selection of edges raises (`C135_empty`).
* `run_arbitrage_cycles` raises `TypeError` for every format but the tuple and the generator, or `KeyError` without cycles; the default format of
  `run_arbitrage_cyclesf` is a misspelt attribute (`C136_formats_violated`, `C136_none`). The documented list of tokens, one for each cycle,
  is ignored (`C136_tokens_violated`).
* `degree(as_matrix=True)` refers to an undefined name (`C137_unavailable`). The documentation of `is_weakly_connected` claims that all cycles of a
  weakly connected graph are subcycles of a single one, which is wrong (`C137_cycles_violated`); it is true of strongly connected
  graphs (`C137_cycles_partial`).
* By reading only, in `arbgraphs.py`: `Node.reset_state` ignores its argument; `TrackedStateFloat.incr` is documented but
  missing; `pricetable(exclude=...)` compares nodes by identity, so that token names have no effect; `transport` with an `Amount` uses a
  missing attribute `token`.
* `simple_optimizer` documents the maximum of `dx*p + dy` and maximizes `dx + dy/p` (`C138_objective_violated`); its Newton search can run away from
  the maximum (`C138_search_violated`). The result for a failed search can never be returned: the error value is converted to a float
  before it is tested. `status` of the result is a method where the base class has a property.
* `TradeInstruction.to_df` overwrites the columns `cid`, `pair`, `pairp`, `tknin`, `tknout` by the amounts of a token of such a name
  (`C139_names_violated`); `dxdydf(inclk=True)` adds up the products of the reserves and their quotients over the curves in the line of the
  totals (`C139_total_violated`). `to_format` returns an empty table for no instructions even if the format is unknown (`C139_formats`).
* `StartConditions.strategy_carbon` gives a strategy that is marked for rescaling, so that the simulation multiplies its boundaries by the first price
  over 100 (`C140_ranges_violated`); without cash it gets a seed amount on top of the valuation (`C140_seed_violated`); a chart of one price
  raises `ZeroDivisionError` (`C140_single_violated`).
* `Formulas.add` with aliases and a namespace raises `KeyError` after storing the item, because `alias` puts the namespace in front of the key once
  more (`C141_aliases_violated`); the constructor ignores `defaultns` (`C141_default_violated`); `isalias` is documented the wrong way round
  (`C141_isalias_violated`); keys with two periods give triples (`C141_nskey_violated`) and are not listed for their namespace
  (`C141_keys_violated`); items taken over into a namespace count as aliases (`C141_moved_violated`).
* `Tags.fromstr("")` has the empty tag (`C142_text_violated`).
* `CryptoCompare.query` asks a failed reply for `status` (the attribute is `status_code`), so `AttributeError` is raised (`C143_failed_violated`).
  `cache_allexchanges`, `cache_coinlist` and `cache_indexlist` do not pass on their arguments (`C143_flags_violated`); with `raiseonerror=False` a cache
  miss gives `None` and nothing is read (`C143_miss_violated`).
* `query_freqlypair(aspandas=False)` calls the decoded reply like a function (`C144_raw_violated`); an empty history raises `KeyError` even with
  `raiseonerror=False` (`C144_empty_violated`). `aggr_query` ignores its keyword arguments (`C144_passed_violated`).
* `CarbonSDK0.signsubmittx` uses the value of `sign` as the key of the field (`{"tx": tx, sign: bool(sign)}`), so the server receives `"true": true`
  and never a field `sign` (`C145_sign_violated`). `updateStrategy` ignores its arguments `buyMarginalPrice` and `sellMarginalPrice`
  (`C145_marginal_violated`). All transactions write a gas limit into the overrides of the caller and replace a gas limit of zero
  (`C145_caller_violated`).
* `getERC20Balance`, `getERC20Decimals` and `getERC20Symbol` drop tokens silently if the reply is short or tickers coincide
  (`C146_short_violated`, `C146_ticker_violated`). `result` returns `True` for a running call, which is also a possible result
  (`C146_ambiguous_violated`); it reports an unreachable server as `KeyError`, and its handler names variables that are not set
  (`C146_error_violated`). `pairs` uses the table of the module instead of that of the client (`C146_own_violated`), and its text raises
  `AttributeError` for tokens outside the table (`C146_text_violated`). `hasLiquidityByPair()` asks about tokens called `None`
  (`C146_nothing_violated`).
* In floating point `CarbonOrderUI.dxfromdy_f` subtracts nearly equal numbers: with a range of prices wider than about 2^104 the payment for all
  holdings is wrong by a large factor or `ZeroDivisionError` is raised (`C147_dx_violated`); the error grows with the square root of the ratio of
  the prices (`C147_dx_partial`). `p_eff_f` of a trade too small to change `y` raises `ZeroDivisionError` (`C147_effective_violated`).
* In floating point the marginal price of a full curve can lie above the start of its range, because `S*y/yint` is not `S` for `y = yint`
  (`C148_start_violated`). Paying more can buy less, by a rounding (`C148_dy_violated`). `buyx(dxfromdy_f(y))` can be refused, because the
  tolerance of 1e-10 is absolute and holdings of millions have coarser roundings (`C148_everything_violated`).
* In floating point an order selling the base token can refuse to be traded to the end of its range: ten thousand ETH for sale between 1040 and
  1050 USDC, `tradeto(1100)` raises `ValueError`, because `1/(1/B**2)` is less than `B**2` and the computed amount exceeds the holdings by more
  than the absolute tolerance (`C149_end_violated`). Curves selling the quote token are sold out exactly (`C149_end`, `C149_empties`).
* `yfromp_f` divides a difference of roots by `S`: on a range one step wide the result is wrong by a third of the capacity
  (`C149_target_violated`). `yfromp_f(p_marg)` of a full curve can be `None` (`C149_start_violated`).
* `CheckboxManager` keys its dictionary by the text of the choices: of two choices with the same text only the last one is reported
  (`C150_checked_violated`). `PcSliderManager` catches its own exception about a wrong number of ranges and fails later with another one
  (`C150_ranges_violated`), refuses one negative number for signed sliders although the documentation allows it (`C150_signed_violated`), and
  leaves an exhausted generator as `range` (`C150_exhausted_violated`). `DropdownManager` never finds a default that is not a text, because the
  options were turned into texts (`C150_dropdown_value_violated`); `not ix >= 0 and ix < n` lets positions past the end through
  (`C150_dropdown_index_violated`); missing labels drop options (`C150_labels_violated`).
* Routers report, and the simulator books, amounts rounded to 12 decimals (`frmt`). An order that sells everything is left with a small negative
  amount if it holds more decimals (`C151_overdrawn_violated`); an order for 4e-13 of a token is paid for and delivers nothing, and a smaller one
  fails with `ZeroDivisionError` (`C151_nothing_violated`); the records of the routes need not add up to the aggregate record
  (`C151_totals_violated`). The flag `partial` compares a `Decimal` made from the text of the amount with a float: a sale of 0.1 is flagged as
  partial although it is filled (`C151_flag_violated`).
* An order that is linked to itself adds what it receives to what it sells, although these are different tokens (`C152_self_violated`); the
  documentation of `_add_replace_single_order` says that the tokens disappear.
* `==` on `CarbonOrderUI` objects follows the links: two readings of the same two linked orders cannot be compared, `RecursionError`
  (`C152_eq_violated`).
* A curve without id gets its position in the container being made, while curves that have an id from another container keep it: two curves of
  one container can have the id 0, and the first cannot be found by it (`C153_cids_violated`).
* Making a container sets the scale of its curves, also for other containers that have them; `add` does not set it, but copying the container
  later does (`C153_scale_violated`). The scale is not in the dictionaries.
* `cc.add(cc)` does not end: the list being iterated over grows (`C153_self_violated`).
* `P("a:b", default)` raises `TypeError` if `a` is a text or number (`C153_P_violated`).
* A table of curves of which some have a fee and others have none turns the missing fees into NaN; a container without curves has no table,
  `KeyError` (`C153_table_violated`).
* `bytknxs(None)` and `bytknys(None)` return the container's own list, so that changing the result changes the container.
* `alpha_router_orig.py` puts the liquidity, in the order of the ranking, beside the positions in their original order (lines 100-116): it takes
  an order for one that holds another's tokens, and fails with an `AssertionError` although a permitted order holds the amount
  (`C154_target_violated`). With fewer orders than `threshold_orders`, 10 by default, it always fails with an `IndexError`
  (`C154_few_violated`). The module is not imported anywhere.
* `NofeesOptimizerResult.trade_instructions` and `dxdydf` do not look at the status: for a solution that the solver has not confirmed `is_error` is true and `curves_new` raises, but the instructions are returned (`C155_unchecked_violated`). At a confirmed optimum the instructions may be refused with a `ValueError`: pools that do not trade the optimized token may be left above their curves, and one may receive both tokens; `curves_new` then shows less than is reported (`C155_refused_violated`).
* C159: with the exact router `match(..., check_sufficient_liquidity=False)` accepts an amount by target that is less than 5% above what the orders hold: it sells everything, which is less than asked for, and returns no error (from 5% on it raises `RuntimeError`). A positive amount by target, with or without the check, is not refused: orders receive the token they sell and pay for it. The simulator calls the router with negative amounts only.
* C160: `fload` with `compressed=True` returns bytes where `fsave` was given a text (the text is encoded on saving and not decoded on loading); with a `wrapper` both functions wrap, so that what is loaded is wrapped twice; texts with carriage returns are changed. `fsave` opens the file before it knows whether the data can be written: an object without `json`, bytes without `binary`, or `json` with `binary` raise `TypeError` and leave an empty file in place of the old one. Bytes can not be saved with `compressed`.
* C161: the best match assumes that the orders, which are sorted by their average rate for the amount, are also sorted by their marginal rate. An order of ten units from a marginal rate of almost 4 down to almost nothing, quoted last, stops the scan at its own marginal rate: orders before it with a lower marginal rate get a negative amount, for which the trade function falls back to the largest number, and the search ends. The match then pays out 9334 units for 600000, where the fast match, and the best match without the small order, pay out 1001561. For an empty book the best match raises `UnboundLocalError`.
* C163: in the converter of notebooks to tests the option `NOTEST_DEFAULT` of one notebook remains in force for all that follow; a misspelt option ends the whole conversion; `NBTest_1.py` and `NBTest_1_.py` are written to the same file; sections whose titles differ in case only (or in blanks against underscores) become functions of one name of which only the last is run; titles with other characters, and sections without code, make the file unreadable for Python; the lines of a text over several lines are indented as well; and the line on the target path shows the source path.
* C164: for an order with a single price (`S = 0`) `dyfromp_f`, and with it the sum over a list of orders, raises a division by zero at exactly this price.
* C165: in the exported collection the swap equation `SE` and the swap equations `BSSE`, `BSRSE` use opposite signs for the same symbol, so that only the trade of nothing satisfies both. The key `YiPE` reads the equation `XiPE`; the equation for `yint` is not exported. `YMPE` is the first of two solutions, and the one with the negative root is never the amount of a pool. With `r = x/x0` and `rho = x0/x`, as the comments say, the ratio equations hold only at the reference point. `Q` is not the fourth root of the width, it is the inverse of its square root.
* C166: `__rtruediv__` and `__rpow__` with an equation compute with the operands exchanged, which is reached by dividing a plain SymPy equation by an extended one. The module function `subs` uses an undefined name.
* C168: `assertAlmostEqual` divides by the expected value without its absolute value: a negative expected value makes the relative error negative, which is within every tolerance. If zero is expected, any other result raises a division by zero, though it may be within the absolute tolerance.
* C169: `sellDepthByBuckets` with one bucket, and `sellDepthByTick` with a negative tick size no smaller than the range of prices, return a single price; `decumulate` then gives one row with nothing, and the check of the total that would notice (line 129) is commented out. The functions take a simulator but read the orders, the pair and the bounds of the prices from global variables, so that another simulator gives the same table. The column `tickStart` has the higher price of each tick.
* C172: by target, too, the sort by the rate for the amount leaves orders with a good marginal rate but a poor rate for the whole amount unmatched: for a million units of a book of three orders the best match pays 3657143, while the first and the third order give them for 3461313 (`C172_order_needed`).
* C171: the benchmark of the matches takes the `max` of an empty list for printing and so raises a `ValueError` for each test in which nothing is matched, such as one of the amount 0, before any assertion is checked. It also fails for two units from two equal orders (`C171_rounding_violated`) and for a large payment for which the fast match charges more than the order takes (`C171_charged_violated`).
* C174: `pickle` adds the time to the name by default, but `unpickle` looks for the name without the time: it raises a `FileNotFoundError`, or returns an older optimizer. The notebook test (`NBTest_064`) saves both ways before it reads.
* C175: `getMatchActions`, `getMatchParams` and `getTradeDataFromActions` pass `sync=None` on, so that they meet the defect of C98 for clients that are synchronous by default; `bool(tradeByTargetAmount)` of the text `"False"` is true.
* C176: `OrderBook.ob_liquidity` divides amounts of the target token by differences of prices, so it is an amount of the source token, but `ob_liquidity_u`, the label of the chart and the column of the data frame say it is in the target token. Doubling the value of the target token leaves the numbers as they are.
* C177: because of `max(y_int, 1)` in `x0` and `y0`, the exact router charges for an order with a capacity below one, counted in units `l` times smaller, strictly less than `l` times what it charges in the original units (`C177_units_violated`; the cause is that of C24).
* C178: the fast router takes orders with equal quotes in the order of their numbers. Two strategies that ask 60 USDC for all of their 10 ETH, between 4 and 9 and between 1 and 36: 15 ETH cost 480/7 or 84 USDC with the order in which they were added. The alpha router ranks a strategy with 9 ETH between 1/9 and 9 and one with 128 ETH between 1/16 and 81/16 alike for 9 ETH, though they ask 9 and 3/5 USDC; limited to one order it uses the one added first.
* C179: the first strategy, deleted by the number of its second order, leaves its first order in the book (C30). A purchase of 5 ETH from it takes the 5 ETH from the order and raises a `KeyError`; if the strategy had never been added it would be refused.
* `benchmark/core/trade/impl.py::encodeOrder` rounds the capacity of a partly filled order down, which raises the marginal rate; the
  order can then pay out more than the reference (`C117_partly_filled_violated`: 1 instead of 254/255). The effect is at most one
  part in the liquidity on the root of the rate (`C117_source_bound`).
* `soltest.SolTest` without a raise level returns numbers of more than 256 bits unchanged and negative numbers as zero
  (`C119_default_violated`); with the log level it raises `KeyError` for good numbers (`C119_log`).
* `stdimports.iseq` compares only the first of several numbers (`C120_rest_violated`); `raises` returns the message, so an exception
  without a message is taken for none (`C120_raises_violated`).
* `x += y` on two `SharedVar`s stores an object in `x` (`C121_number_violated`).
* `unjoin(join([]))` is `[""]` (`C123_join_violated`).
* `strategym.dr` loses fields that become `None` (`C124_restore_violated`); `drr` refers to an undefined name and always raises
  (`C124_series_violated`).
* The fast router on integers can take a source amount from the trader at its last order and give nothing
  (`C126_nothing_violated`).
* `make_orders_from_file`: zero curves reads all (`C127_none_violated`); tables raise, as `_y` is missing (`C127_csv_violated`);
  integer mode cuts root prices to whole numbers before scaling, so that prices below one become zero
  (`C127_scaled_violated`).
* `matchFast` by source charges the whole remaining amount to an order whose first quote overflowed, although the order
  pays the same for a small part of it (`C58_source_violated`).
* `_trade` changes the orders route by route and is not undone when it fails: with a dangling link (C30) the sale is taken from
  the order and then a `KeyError` is raised (`C128_link_violated`); for a token outside of the pair, on a pair with the same name,
  the trade is executed and then a `TypeError` is raised (`C128_token_violated`).
* `nofees_optimizer("TKN")` and `nofees_optimizer(O.arb("TKN"))` have no self-financing constraints: `SelfFinancingConstraints.arb` knows only
  the target token, and the loop over the constraints visits known tokens only. The optimizer then drains the target token from all pools
  and pays whatever that costs in the other tokens (`C130_named_violated`). `margp_optimizer` with the same argument finds the arbitrage.
* `CPCContainer.add` does not set the token scale of the added curve; the convex optimizer then adds amounts in different units
  (`C130_add_violated`).
* The comment in `nofees_optimizer` that the curve constraints are always binding fails for pools that cannot be reached from the optimized
  token (`C130_boundary_violated`).
* `CPCContainer.make_symmetric` adds a table to its transpose while the missing cells are still NaN, and a sum with a NaN is a NaN, later
  replaced by zero. The targets `pivotbqs` and `pivotxys` of `pairs_analysis` therefore show zero for every pair with a token that is never a
  base token or never a quote token; for pools against one common quote token the whole table is zero (`C131_symmetric_violated`,
  `C131_symmetric_empty`).
* `margp_optimizer` reports that it did not converge if it converges in the last permitted iteration; with `maxiter` 1 it always fails
  (`C133_budget`, `C133_single`, `C133_last_violated`). It reports starting prices outside of the ranges of all pools as the solution,
  although the other tokens do not balance: the Jacobian is zero there, the least squares step is zero, and a small step is taken for
  convergence (`C133_flat`, `C133_balanced_violated`). A negative `maxiter` raises `UnboundLocalError` (`C134_negative`).
* `ArbGraph.duplicate` without consolidation passes `inverse` in the place of the index, so the quotation is lost; with consolidation it
  drops self-loops and identifiers (`C89_quotation_violated`, `C89_loops_violated`). Edges with opposite quotations add up to different
  quoted prices in different orders (`C88_order_violated`). Without raised errors edges can be overdrawn and the utilization exceeds one
  (`C91_utilization_violated`).
* `filter_edges()` without filter returns the internal list of edges *(by reading)*.
* `bytknxs(None)`, `bytknys(None)` return the list of curves instead of a container *(by reading)*.

## 6. Modelled and not modelled

Modelled, function by function: `benchmark/core/trade` and `match` (all functions); `carbon/pair.py` (constructor, names,
decimals, conversion, prices, limits); `carbon/carbon_order_ui.py` (constructors, prices, point and trade
functions, `addliqy`, `selly`, `buyx`, `tradeto`, liquidity percentage, asymptotes); `carbon/order.py` (constructor and
derived quantities); `carbon/routers/fast_router.py`; `carbon/routers/exact_base_router.py` and
`exact_router_x0y0n.py`; `carbon/routers/alpha_router.py` (without floor division); `carbon/simulators/carbon_simulator.py`
(adding, deleting, trading, reading the state); `carbon/tools/cpc.py` (`Pair`, `ConstantProductCurve` without fees,
descriptions and token scales, `CPCInverter`, `CPCContainer` without result formats, `AF.herfindahl`);
`carbon/tools/arbgraphs.py` (`Node`, `Edge`, `Cycle`, `ArbGraph` without plots, with the search for cycles by specification); `carbon/tools/optimizer.py`
(`OptimizerBase`, `TradeInstruction` without formats, `SelfFinancingConstraints`, `simple_optimizer` for a target
token, `margp_optimizer` with its search, `nofees_optimizer` by the meaning of its program, `adjust_curves`); the analysis of containers in
`cpc.py` and `simplepair.py`; `carbon/tools/params.py`;
`carbon/sdk/sdktoken.py`; `carbon/helpers/floatint.py`; `carbon/helpers/strategym.py` (without data frames);
`carbon/tools/univ3calc.py`; `carbon/tools/tokenscale.py`; `carbon/sdk/sdkbase.py`; `carbon/sdk/carbonsdk.py` (without descriptions); `carbon/sdk/carbonsdk0.py` (except the four test calls and `version`); `run_sim` of
`carbon/helpers/simulation.py`; `carbon/helpers/pathinterpolation.py`, `pathgenerator.py` (for given increments), `version.py`, `soltest.py`, `sharedvar.py`; windows of
`pdread.py`; lists and pairs of `cryptocompare.py`; `iseq` and `raises` of `stdimports.py`;
`carbon/simulators/sim_analytics.py`.

Not modelled anywhere: printing, plotting, dataframes, notebooks, web3/chain access, file IO, Decimal context,
float rounding outside `carbon_order_ui.py` and the amounts of trades, overflow and underflow, warnings.
