{"id": "C01", "title": "Rate encoding never rounds up and loses at most one part in 2^47", "statement": "Encoding a non-negative integer rate with encodeFloat and decoding it with decodeFloat gives a value that is never larger than the original, that equals the original whenever the original is below 2^48, and whose shortfall is below 2^-47 of the original.", "quantifier": "every non-negative integer value", "why_tests_cant": "the domain is unbounded and the error bound must hold at every exponent boundary", "anchors": ["benchmark/core/trade/impl.py::encodeFloat", "benchmark/core/trade/impl.py::decodeFloat", "benchmark/core/trade/impl.py::bitLength"]}
{"id": "C02", "title": "Rate encoding is order preserving and idempotent", "statement": "If one rate is at most another then so are their decoded encodings, and re-encoding a decoded value reproduces the same encoded word.", "quantifier": "every pair of non-negative integers", "why_tests_cant": "order preservation fails only at rare boundary pairs if at all; no sample covers all of them", "anchors": ["benchmark/core/trade/impl.py::encodeFloat", "benchmark/core/trade/impl.py::decodeFloat"]}
{"id": "C03", "title": "A trade by source amount never pays out more than the curve", "statement": "For every amount and every order, the integer amount returned by tradeBySourceAmount is at most the exact rational value of the bonding-curve formula x(Ay+Bz)^2/(Ax(Ay+Bz)+z^2) in the decoded parameters, so rounding is always in favour of the order.", "quantifier": "every source amount and every encoded order (y, z, A, B), including those that need rescaling to 256 bits", "why_tests_cant": "the rescaling by the overflow factor changes regime at astronomically large values and the rounding error must be safe in all regimes", "anchors": ["benchmark/core/trade/impl.py::tradeBySourceAmountFunc", "benchmark/core/trade/impl.py::tradeBySourceAmount"]}
{"id": "C04", "title": "A trade by target amount never charges less than the curve", "statement": "For every target amount and order, the amount charged by tradeByTargetAmount is at least the exact rational value xz^2/((Ay+Bz)(Ay+Bz-Ax)) in the decoded parameters, whenever a quote other than the maximal fallback is returned.", "quantifier": "every target amount and every encoded order", "why_tests_cant": "same as for source trades; under-charging by one unit at one magnitude is an exploit that random tests miss", "anchors": ["benchmark/core/trade/impl.py::tradeByTargetAmountFunc", "benchmark/core/trade/impl.py::tradeByTargetAmount"]}
{"id": "C05", "title": "Quotes are total and stay in the unsigned 128 bit range", "statement": "tradeBySourceAmount and tradeByTargetAmount return for every input an integer between 0 and 2^128-1, never raising; when any intermediate value leaves the unsigned 256 bit range the trader-worst answer (0 out, respectively the maximal amount in) is returned.", "quantifier": "every integer amount, also negative, and every order", "why_tests_cant": "requires all overflow combinations of eight checked operations", "anchors": ["benchmark/core/trade/impl.py::check", "benchmark/core/trade/impl.py::tradeFunc"]}
{"id": "C06", "title": "Quotes are exact when no rescaling is needed", "statement": "When the squared capacity term and the cross term fit into 256 bits, a source trade returns exactly the floor of the exact curve value and a target trade exactly the ceiling.", "quantifier": "every amount and order in the non-rescaled regime", "why_tests_cant": "a claim about every integer in a 2^256 sized range", "anchors": ["benchmark/core/trade/impl.py::tradeBySourceAmountFunc", "benchmark/core/trade/impl.py::tradeByTargetAmountFunc"]}
{"id": "C07", "title": "No profit from a round trip through the same order", "statement": "In the non-rescaled regime, if x source units buy d target units then buying d target units by target amount costs at most x, and it is never possible to receive by source amount more than d for what buying d costs when d is on the curve boundary: source(target(d)-1) < d for d > 0.", "quantifier": "every amount and order in the non-rescaled regime", "why_tests_cant": "relates two differently rounded formulas for all inputs", "anchors": ["benchmark/core/trade/impl.py::tradeBySourceAmount", "benchmark/core/trade/impl.py::tradeByTargetAmount"]}
{"id": "C08", "title": "Fast matching never routes more than requested and touches each order at most once", "statement": "The actions produced by matchFast have input amounts that sum to at most the requested amount, are pairwise for different orders, and every action passes the caller's filter.", "quantifier": "every amount, order book, sort outcome and filter", "why_tests_cant": "order books of every length and every interleaving of the three loop branches", "anchors": ["benchmark/core/match/impl.py::matchFast", "benchmark/core/match/impl.py::matchBySourceAmount", "benchmark/core/match/impl.py::matchByTargetAmount"]}
{"id": "C09", "title": "Matching never takes more out of an order than it holds", "statement": "Every action of a fast match has a target-token amount that does not exceed the liquidity of its order: the output for matches by source and the input for matches by target.", "quantifier": "every amount and every order book", "why_tests_cant": "the bound relies on a correction loop over integers that only rarely runs", "anchors": ["benchmark/core/match/impl.py::rateBySourceAmount", "benchmark/core/match/impl.py::rateByTargetAmount", "benchmark/core/match/impl.py::matchFast"]}
{"id": "C10", "title": "Fast matching by target fills the request or drains the book", "statement": "For a positive target amount, the inputs of the fast match by target sum to the smaller of the requested amount and the total liquidity of the book, provided every order with liquidity quotes a positive price.", "quantifier": "every amount and every order book", "why_tests_cant": "needs induction over the order book", "anchors": ["benchmark/core/match/impl.py::matchFast", "benchmark/core/match/impl.py::matchByTargetAmount"]}
{"id": "C11", "title": "Best matching routes at most the requested amount", "statement": "The actions of matchBest have input amounts summing to at most the requested amount.", "quantifier": "every amount and every order book", "why_tests_cant": "the final correction loop interacts with rounding only for extreme scales", "anchors": ["benchmark/core/match/impl.py::matchBest"]}
{"id": "C12", "title": "Converting an amount to the other token and back is the identity", "statement": "For a pair, a token of the pair and a non-zero price, converting an amount into the other token and the result back returns the original amount; converting a token outside the pair returns None.", "quantifier": "every pair, token, amount and non-zero price", "why_tests_cant": "unbounded numeric domain and both directions", "anchors": ["carbon/pair.py::CarbonPair.convert", "carbon/pair.py::CarbonPair.other"]}
{"id": "C13", "title": "Price conversion is an involution and reversal swaps roles", "statement": "convert_price with the base token inverts the price and with the quote token leaves it alone, doing it twice is the identity, and the reversed pair gives the swapped answers; reversing twice gives back the pair names.", "quantifier": "every pair, token and non-zero price", "why_tests_cant": "a law over all inputs", "anchors": ["carbon/pair.py::CarbonPair.convert_price", "carbon/pair.py::CarbonPair.reverse"]}
{"id": "C14", "title": "Limit prices are honoured in the right direction", "statement": "limit_is_met answers True exactly when the current price is at least as good as the limit for the party described: buying the base token needs current <= limit, selling it needs current >= limit, and the opposite for the quote token; at equality it is always met.", "quantifier": "every pair, token, direction and prices", "why_tests_cant": "sign errors show only in one of four quadrants and with an equality edge", "anchors": ["carbon/pair.py::CarbonPair.limit_is_met"]}
{"id": "C15", "title": "Pair construction normalises and never loses the tokens", "statement": "A pair built from a slashpair or two names exposes upper-case token names whose slash-joined form is the upper-cased input; rebuilding a pair from its slashpair gives the same tokens; malformed slashpairs are rejected.", "quantifier": "every string", "why_tests_cant": "string domain is infinite", "anchors": ["carbon/pair.py::CarbonPair.__init__", "carbon/pair.py::CarbonPair.from_slashpair"]}
{"id": "C16", "title": "Buying and selling on a curve are mutually inverse", "statement": "For a curve with positive capacity and an amount within liquidity, the input computed for an output and the output computed for an input are inverse functions of each other.", "quantifier": "every curve and every amount within liquidity", "why_tests_cant": "continuous domain", "anchors": ["carbon/carbon_order_ui.py::CarbonOrderUI.dyfromdx_f", "carbon/carbon_order_ui.py::CarbonOrderUI.dxfromdy_f"]}
{"id": "C17", "title": "Trades stay on the curve", "statement": "The two explicit curve equations (x from y, y from x) are mutually inverse, and executing a trade moves the curve point along them: the x coordinate changes by exactly the input and the y coordinate by exactly the output.", "quantifier": "every curve and amount", "why_tests_cant": "continuous domain", "anchors": ["carbon/carbon_order_ui.py::CarbonOrderUI.xfromy_f", "carbon/carbon_order_ui.py::CarbonOrderUI.yfromx_f", "carbon/carbon_order_ui.py::CarbonOrderUI.dxfromdy_f"]}
{"id": "C18", "title": "Splitting a trade does not change what is paid", "statement": "Selling an amount in any number of consecutive pieces costs in total exactly the same as selling it at once.", "quantifier": "every curve and every finite sequence of partial trades within liquidity", "why_tests_cant": "any number of pieces: needs induction", "anchors": ["carbon/carbon_order_ui.py::CarbonOrderUI.selly", "carbon/carbon_order_ui.py::CarbonOrderUI.dxfromdy_f"]}
{"id": "C19", "title": "Prices stay within the range the user set", "statement": "For every fill level the marginal price lies between the range's two price bounds, and the effective price of any trade lies between the marginal price after and before the trade.", "quantifier": "every curve, fill level and trade size", "why_tests_cant": "continuous domain", "anchors": ["carbon/carbon_order_ui.py::CarbonOrderUI.p_marg_f", "carbon/carbon_order_ui.py::CarbonOrderUI.p_eff_f"]}
{"id": "C20", "title": "Larger trades are never cheaper per unit", "statement": "The input needed grows strictly with the output taken, and the price per unit gets monotonically worse with the size of the trade.", "quantifier": "every curve and every pair of trade sizes", "why_tests_cant": "monotonicity ranges over pairs of reals", "anchors": ["carbon/carbon_order_ui.py::CarbonOrderUI.dxfromdy_f", "carbon/carbon_order_ui.py::CarbonOrderUI.dyfromdx_f"]}
{"id": "C21", "title": "Executing a sale cannot overdraw the curve", "statement": "selly either raises and changes nothing or leaves the curve with holdings between zero and what it had, reduced by exactly the amount sold.", "quantifier": "every curve state and every sale amount", "why_tests_cant": "all amounts including negative and beyond liquidity", "anchors": ["carbon/carbon_order_ui.py::CarbonOrderUI.selly"]}
{"id": "C22", "title": "A simulated sale does not change any curve", "statement": "Calling selly with execute=False leaves both the curve and a linked curve unchanged.", "quantifier": "every curve pair and amount", "why_tests_cant": "must hold for every call", "anchors": ["carbon/carbon_order_ui.py::CarbonOrderUI.selly", "carbon/carbon_order_ui.py::CarbonOrderUI.tradeto"]}
{"id": "C23", "title": "Trading a curve to a price ends at that price", "statement": "tradeto with a price inside the range leaves the curve with exactly that marginal price; a price outside leaves it empty or unchanged according to the side.", "quantifier": "every curve and every target price", "why_tests_cant": "continuous domain", "anchors": ["carbon/carbon_order_ui.py::CarbonOrderUI.tradeto", "carbon/carbon_order_ui.py::CarbonOrderUI.yfromp_f"]}
{"id": "C24", "title": "The three curve parametrisations agree", "statement": "The order's (x0, y0, n) hyperbola, the contract's (y, z, A, B) formula and the order UI's (y, yint, B, S) formula quote the same input for the same output, for orders with capacity at least one.", "quantifier": "every order with capacity >= 1, every fill level and trade amount", "why_tests_cant": "equality of three rational functions", "anchors": ["carbon/order.py::Order.x0", "carbon/routers/exact_base_router.py::ExactBaseRouter.dxdy", "carbon/routers/fast_router.py::FastRouter.amt_by_src", "carbon/carbon_order_ui.py::CarbonOrderUI.dxfromdy_f"]}
{"id": "C25", "title": "Fast router: totals reconcile", "statement": "For a fast-router match, the reported per-order amounts sum to the reported totals, the total input does not exceed the request, each order appears at most once, and no order is asked for more than it holds.", "quantifier": "every set of orders, amounts and sort outcomes", "why_tests_cant": "needs induction over the order list", "anchors": ["carbon/routers/fast_router.py::FastRouter.match"]}
{"id": "C26", "title": "Exact router: the split equalises marginal prices and adds up", "statement": "The amounts the exact router assigns to a set of orders by target sum to the requested amount and leave all of those orders at the same marginal price.", "quantifier": "every finite set of orders with positive parameters and every amount", "why_tests_cant": "sets of every size", "anchors": ["carbon/routers/exact_router_x0y0n.py::ExactRouterX0Y0N.amt_by_target", "carbon/routers/exact_base_router.py::ExactBaseRouter.match"]}
{"id": "C27", "title": "Alpha selector: one-order threshold windows are correct", "statement": "When the alpha router restricts a match to a number of orders, the chosen orders jointly reach the requested amount if any choice of that many orders does.", "quantifier": "every list of liquidities, threshold and count", "why_tests_cant": "combinatorial over all subsets", "anchors": ["carbon/routers/alpha_router.py::AlphaRouter.gen_one_order_selector"]}
{"id": "C28", "title": "Order ids are unique and never reused", "statement": "Over any sequence of add, trade and delete calls no two orders ever receive the same id, and every order stored in the book is stored under its own id.", "quantifier": "every history of operations", "why_tests_cant": "histories are unbounded", "anchors": ["carbon/simulators/carbon_simulator.py::CarbonSimulatorUI.add_strategy", "carbon/simulators/carbon_simulator.py::CarbonSimulatorUI.delete_order"]}
{"id": "C29", "title": "The two orders of a strategy point at each other", "statement": "After any history of successful strategy additions and executed trades, every order's link leads to an existing order on the same pair that links back to it.", "quantifier": "every history of add and trade operations", "why_tests_cant": "histories are unbounded", "anchors": ["carbon/simulators/carbon_simulator.py::CarbonSimulatorUI.add_strategy", "carbon/simulators/carbon_simulator.py::CarbonSimulatorUI._trade"]}
{"id": "C30", "title": "Deleting an order removes its whole strategy and nothing else", "statement": "delete_order removes exactly the named order and the order linked to it, and leaves all other orders untouched.", "quantifier": "every reachable book and every order id", "why_tests_cant": "the property must hold for each id, including the first ones handed out", "anchors": ["carbon/simulators/carbon_simulator.py::CarbonSimulatorUI.delete_order"]}
{"id": "C31", "title": "Adding a strategy is all or nothing", "statement": "A call to add_strategy either reports success and adds exactly two linked orders, or reports failure and leaves the set of orders unchanged.", "quantifier": "every state and every combination of arguments", "why_tests_cant": "the failing argument combinations are many and interact", "anchors": ["carbon/simulators/carbon_simulator.py::CarbonSimulatorUI.add_strategy", "carbon/simulators/carbon_simulator.py::CarbonSimulatorUI._add_order_sell_tkn"]}
{"id": "C32", "title": "Tokens are conserved by trades", "statement": "An executed trade lowers the total holdings of the token sold by exactly the reported total amount and, when every order is linked to another, raises the holdings of the other token by exactly the reported total amount received.", "quantifier": "every state and every routing result", "why_tests_cant": "must hold for any number of routes in one trade and any history", "anchors": ["carbon/simulators/carbon_simulator.py::CarbonSimulatorUI._trade", "carbon/simulators/carbon_simulator.py::CarbonSimulatorUI.liquidity"]}
{"id": "C33", "title": "Balances never become negative and never exceed capacity", "statement": "Over any history of additions and trades, every order's holdings stay at or above zero and at or below its capacity.", "quantifier": "every history of operations", "why_tests_cant": "histories are unbounded", "anchors": ["carbon/simulators/carbon_simulator.py::CarbonSimulatorUI._trade"]}
{"id": "C34", "title": "Dry runs do not change the book", "statement": "A trade with execute=False leaves every order exactly as it was.", "quantifier": "every state and every trade request", "why_tests_cant": "for every input", "anchors": ["carbon/simulators/carbon_simulator.py::CarbonSimulatorUI._trade", "carbon/simulators/carbon_simulator.py::CarbonSimulatorUI.amm_buys", "carbon/simulators/carbon_simulator.py::CarbonSimulatorUI.amm_sells"]}
{"id": "C35", "title": "A limit price protects the trader", "statement": "If a limit price is given, any trade that is executed has an effective price that meets the limit; otherwise the book is unchanged.", "quantifier": "every state, amount and limit", "why_tests_cant": "for every input", "anchors": ["carbon/simulators/carbon_simulator.py::CarbonSimulatorUI._trade"]}
{"id": "C36", "title": "Trades only touch eligible positions", "statement": "A trade only changes orders on the requested pair that sell the requested token, are enabled, non-empty and among the positions the caller allowed, plus the orders linked to them.", "quantifier": "every state and every request, including negative amounts", "why_tests_cant": "for every input", "anchors": ["carbon/simulators/carbon_simulator.py::CarbonSimulatorUI._trade"]}
{"id": "C37", "title": "Executing a trade preserves the constant-product invariant", "statement": "execute returns a curve with the same invariant k, positive reserves, and available reserves shifted by exactly the amounts traded, and refuses trades beyond the available reserves.", "quantifier": "every curve and every dx or dy", "why_tests_cant": "continuous domain", "anchors": ["carbon/tools/cpc.py::ConstantProductCurve.execute"]}
{"id": "C38", "title": "Equivalent constructors build the same curve", "statement": "Building a curve from (k,x), (k,y), (x,y), (p,k), (p,x) or (p,y) of the same pool yields the same k, x, y and price.", "quantifier": "every pool with positive reserves", "why_tests_cant": "continuous domain", "anchors": ["carbon/tools/cpc.py::ConstantProductCurve.from_kx", "carbon/tools/cpc.py::ConstantProductCurve.from_xy"]}
{"id": "C39", "title": "Curve bounds are consistent", "statement": "For a levered curve, the minimal and maximal reserves and prices bracket the current ones and correspond to each other through the invariant.", "quantifier": "every curve", "why_tests_cant": "continuous domain", "anchors": ["carbon/tools/cpc.py::ConstantProductCurve.x_min", "carbon/tools/cpc.py::ConstantProductCurve.p_max"]}
{"id": "C40", "title": "Trading a curve to a market price never loses to the trader", "statement": "For every target price the dx, dy that move a curve to that price have non-positive total value at that price, with equality only if the curve is already there, and no other trade on the curve within its range extracts more value at that price.", "quantifier": "every curve and every price", "why_tests_cant": "optimality quantifies over all other trades", "anchors": ["carbon/tools/cpc.py::ConstantProductCurve.dxdyfromp_f"]}
{"id": "C41", "title": "Inverting a curve mirrors it faithfully", "statement": "The inverted view of a curve swaps tokens and reserves, has reciprocal price and the same invariant, inverting twice is the identity, and executing on the inverted view is executing on the original.", "quantifier": "every curve", "why_tests_cant": "continuous domain", "anchors": ["carbon/tools/cpc.py::CPCInverter"]}
{"id": "C42", "title": "A Carbon order converted to a curve trades identically", "statement": "Converting a Carbon order into a constant-product curve gives a curve whose payout for every input within range equals the order's own quote.", "quantifier": "every order and amount within range", "why_tests_cant": "continuous domain", "anchors": ["carbon/tools/cpc.py::ConstantProductCurve.from_carbon", "carbon/carbon_order_ui.py::CarbonOrderUI.as_cpc"]}
{"id": "C43", "title": "Container selection is sound and complete", "statement": "Selecting curves by ids, by pair or by token returns exactly the curves of the container that satisfy the selection, in order, with exclusion winning over inclusion.", "quantifier": "every container and selection", "why_tests_cant": "containers of every size", "anchors": ["carbon/tools/cpc.py::CPCContainer.bycids", "carbon/tools/cpc.py::CPCContainer.bypairs"]}
{"id": "C44", "title": "Primary pair naming is canonical", "statement": "A pair and its reverse have the same primary name, exactly one of the two representations is primary when the tokens differ, and primary price of the reverse at the reciprocal price is the same.", "quantifier": "every pair of token names and every non-zero price", "why_tests_cant": "infinite string domain", "anchors": ["carbon/tools/cpc.py::Pair.isprimary", "carbon/tools/simplepair.py::SimplePair.isprimary"]}
{"id": "C45", "title": "Graph indices are consistent", "statement": "After any sequence of node and edge additions every node and edge is stored at the position given by its index, the token lookup finds exactly the nodes present, and all edges are of one type.", "quantifier": "every sequence of additions", "why_tests_cant": "histories are unbounded", "anchors": ["carbon/tools/arbgraphs.py::ArbGraph.add_node_obj", "carbon/tools/arbgraphs.py::ArbGraph.add_edge_obj"]}
{"id": "C46", "title": "Transport conserves amounts", "statement": "Transporting an amount pro rata through the edges between two tokens sends exactly that amount in, produces the capacity-weighted output, never exceeds the remaining capacity when it succeeds, and updates both node balances by exactly those amounts.", "quantifier": "every set of parallel edges, capacities and amounts", "why_tests_cant": "edge sets of every size", "anchors": ["carbon/tools/arbgraphs.py::ArbGraph.transport", "carbon/tools/arbgraphs.py::Edge.transport"]}
{"id": "C47", "title": "Running an arbitrage cycle respects capacities and reports the true profit", "statement": "The amounts pushed along a cycle never exceed any step's capacity, the reported profit equals output minus input, and output over input equals the product of the steps' prices.", "quantifier": "every cycle and every set of edges", "why_tests_cant": "cycles of every length", "anchors": ["carbon/tools/arbgraphs.py::ArbGraph.run_arbitrage_cycle"]}
{"id": "C48", "title": "Cycle iteration visits every node once and closes", "statement": "Iterating a cycle from any entry point yields each node exactly once followed by the entry point again, and its pairs are the edges of the closed walk.", "quantifier": "every cycle and start index", "why_tests_cant": "cycles of every length", "anchors": ["carbon/tools/arbgraphs.py::Cycle.items", "carbon/tools/arbgraphs.py::Cycle.pairs"]}
{"id": "C49", "title": "Signed trades become well-formed instructions", "statement": "A trade given by two signed amounts becomes an instruction (or edge) with the positive amount going in and the negative one coming out, whichever order the tokens were given in; same-sign amounts are rejected unless negligible.", "quantifier": "every pair of signed amounts", "why_tests_cant": "continuous domain with sign case analysis", "anchors": ["carbon/tools/optimizer.py::TradeInstruction.new", "carbon/tools/arbgraphs.py::ArbGraph.add_edge_dxdy"]}
{"id": "C50", "title": "Bisection goal seek brackets a root", "statement": "The goal seek never leaves the initial interval, keeps a sign change inside the bracket, and on return the interval is shorter than the tolerance.", "quantifier": "every function with a sign change and every interval", "why_tests_cant": "arbitrary functions", "anchors": ["carbon/tools/optimizer.py::OptimizerBase.goalseek", "carbon/carbon_order_ui.py::CarbonOrderUI.goalseek"]}
{"id": "C51", "title": "Parameter objects: explicit values win over defaults and cannot be overwritten by item assignment", "statement": "Reading a parameter returns the explicit value if there is one, else the default, else None (by item) or an error (by attribute); item assignment to an existing name raises and changes nothing; set_default makes its values available.", "quantifier": "every sequence of operations", "why_tests_cant": "histories are unbounded", "anchors": ["carbon/tools/params.py::Params"]}
{"id": "C52", "title": "Token lookup is consistent", "statement": "In a token container a lookup by ticker or address returns the token registered under that key regardless of letter case, and an unknown key yields an error or the null token as configured.", "quantifier": "every list of tokens and every key", "why_tests_cant": "infinite key domain", "anchors": ["carbon/sdk/sdktoken.py::TokenContainer"]}
{"id": "C53", "title": "Compact float-int storage never rounds up", "statement": "Storing a non-negative integer in the compact significant/exponent form gives back a value that is at most the original, exact when it has at most 40 bits, with relative error below 2^-39.", "quantifier": "every non-negative integer in range", "why_tests_cant": "unbounded domain", "anchors": ["carbon/helpers/floatint.py::CarbonFloatInt64.from_int", "carbon/helpers/floatint.py::CarbonFloatInt64.asint"]}
{"id": "C54", "title": "Strategy rescaling composes", "statement": "Rescaling a strategy to a new spot price multiplies every price by the ratio, keeps amounts, and never rescales a strategy twice unless forced.", "quantifier": "every strategy and spot prices", "why_tests_cant": "continuous domain", "anchors": ["carbon/helpers/strategym.py::strategy.rescale_strat"]}
{"id": "C55", "title": "Range constructors order their prices", "statement": "A strategy built from middle, gap and width has buy end < buy start < middle < sell start < sell end for positive gap and width; a strategy built from two ranges has its ranges sorted and rejects overlaps.", "quantifier": "every set of parameters", "why_tests_cant": "continuous domain", "anchors": ["carbon/helpers/strategym.py::strategy.from_mgw", "carbon/helpers/strategym.py::strategy.from_sb"]}
{"id": "C56", "title": "Rounding loss of a quote is bounded in every regime", "statement": "A source trade that the order can fill and that receives a non-zero quote is at most four units plus one part in 2^48 times the top square-root rate below the exact curve; a target trade that receives a real quote is at most four units above it.", "quantifier": "every amount and every encoded order, in particular those large enough to be rescaled", "why_tests_cant": "the loss depends on the magnitude of five numbers of up to 256 bits", "anchors": ["benchmark/core/trade/impl.py::tradeBySourceAmountFunc", "benchmark/core/trade/impl.py::tradeByTargetAmountFunc"]}
{"id": "C57", "title": "An encoded order never offers better rates than requested", "statement": "Encoding an order stores the largest representable square-root rates whose squares do not exceed the requested rates: the lowest and highest decoded rates are at most the requested ones, and the capacity is at least the liquidity.", "quantifier": "every rational rate and liquidity", "why_tests_cant": "unbounded domain of rates", "anchors": ["benchmark/core/trade/impl.py::encodeOrder", "benchmark/core/trade/impl.py::encodeRate"]}
{"id": "C58", "title": "Actions of a fast match are the orders' own quotes", "statement": "The two amounts of every action agree with what the order itself quotes: by target the source amount is the order's charge for the target amount, by source the target amount is the order's payout for the source amount.", "quantifier": "every amount and order book", "why_tests_cant": "the partial fill of the last order recomputes one side only", "anchors": ["benchmark/core/match/impl.py::matchFast"]}
{"id": "C59", "title": "Best matching respects the book", "statement": "Every action of matchBest belongs to a different order of the book, passes the filter, does not exceed the liquidity of its order and carries the order's own quote.", "quantifier": "every amount and order book", "why_tests_cant": "scan, bisection and correction loops interact", "anchors": ["benchmark/core/match/impl.py::matchBest"]}
{"id": "C60", "title": "Pair names without a separator can be taken apart again", "statement": "Building a pair from a name without separator plus one of its tokens recovers the pair with that token as base or quote.", "quantifier": "every pair of token names", "why_tests_cant": "infinite string domain; prefix/suffix overlaps between token names", "anchors": ["carbon/pair.py::CarbonPair.from_isopair_and_tkn", "carbon/pair.py::CarbonPair.from_isopair"]}
{"id": "C61", "title": "Token decimals of a pair are kept", "statement": "Decimals given for the two tokens of a pair are returned by name, and their difference is used for raw-price conversion, irrespective of how the pair was constructed.", "quantifier": "every pair and decimals", "why_tests_cant": "several constructors", "anchors": ["carbon/pair.py::CarbonPair.set_decimals", "carbon/pair.py::CarbonPair.from_slashpair"]}
{"id": "C62", "title": "A curve built from prices has those prices", "statement": "A curve constructed from two positive prices (in any order) for one of the pair's tokens has exactly this price range, starts at the end cheapest for its buyer and is in a valid state; invalid holdings are rejected.", "quantifier": "every pair, token, positive prices and amounts", "why_tests_cant": "continuous domain", "anchors": ["carbon/carbon_order_ui.py::CarbonOrderUI.from_prices"]}
{"id": "C63", "title": "Liquidity share of a price window is a distribution", "statement": "The share of an order's liquidity in a price window is in [0,1], symmetric in the end points, additive over adjacent windows, one for a covering window and zero for a disjoint one.", "quantifier": "every curve and every window", "why_tests_cant": "continuous domain with many boundary cases", "anchors": ["carbon/carbon_order_ui.py::CarbonOrderUI.liquidity_approx"]}
{"id": "C64", "title": "Buying a source amount delivers exactly that amount", "statement": "Executing a trade specified by the amount paid in charges exactly this amount and gives the amount on the curve; amounts the curve cannot absorb change nothing.", "quantifier": "every curve and amount", "why_tests_cant": "continuous domain", "anchors": ["carbon/carbon_order_ui.py::CarbonOrderUI.buyx"]}
{"id": "C65", "title": "Order curves are shifted constant-product curves", "statement": "Every reachable point (x,y) of an order curve with a proper price range satisfies (x-xasym)(y-yasym)=kappa with the reported asymptotes and constant, both asymptotes negative.", "quantifier": "every curve and every point on it", "why_tests_cant": "continuous domain", "anchors": ["carbon/carbon_order_ui.py::CarbonOrderUI.xasym", "carbon/carbon_order_ui.py::CarbonOrderUI.yasym", "carbon/carbon_order_ui.py::CarbonOrderUI.kappa", "carbon/carbon_order_ui.py::CarbonOrderUI.xfromy_f"]}
{"id": "C66", "title": "A curve built from convexity and intercepts has those parameters", "statement": "A curve constructed from convexity Q in (0,1] and the two axis intercepts reports exactly this Q and these intercepts.", "quantifier": "every Q in (0,1] and positive intercepts", "why_tests_cant": "continuous domain", "anchors": ["carbon/carbon_order_ui.py::CarbonOrderUI.from_Qxy"]}
{"id": "C67", "title": "Linked curves conserve both tokens over any history", "statement": "Over any sequence of executed, dust-sized or rejected sales on two mutually linked curves both stay valid, shapes do not change, capacities never shrink, and holdings equal the initial ones plus the net reported flows.", "quantifier": "every history of requests on two linked curves", "why_tests_cant": "histories are unbounded", "anchors": ["carbon/carbon_order_ui.py::CarbonOrderUI.selly", "carbon/carbon_order_ui.py::CarbonOrderUI.addliqy"]}
{"id": "C68", "title": "The order constructor produces a consistent curve", "statement": "An order built from two positive prices (in either order) and holdings has exactly that price range, capacity equal to the holdings unless given, and when a marginal price inside the range is given its capacity is such that the order's marginal price is the given one.", "quantifier": "every pair of prices, holdings, capacity and marginal price", "why_tests_cant": "continuous domain, several branches", "anchors": ["carbon/order.py::Order.__post_init__"]}
{"id": "C69", "title": "Exact router by target: complete, executable and cheapest", "statement": "When the orders hold enough, matching a target amount with the exact router succeeds, uses every position at most once and never beyond its holdings, sells exactly the amount, and no other way of selling that amount from the same orders costs less; with too little liquidity it fails, or sells everything if partial fills are allowed.", "quantifier": "every list of well-formed orders, every amount and every alternative split", "why_tests_cant": "optimality quantifies over all alternative splits", "anchors": ["carbon/routers/exact_base_router.py::ExactBase.match", "carbon/routers/exact_router_x0y0n.py::ExactRouterX0Y0N"]}
{"id": "C70", "title": "Exact router by source: spends the amount for the greatest output", "statement": "When the orders' holdings are worth at least the amount, matching a source amount with the exact router spends exactly that amount, is executable, and no other trade on the same orders that spends at most as much buys more; otherwise it fails, or buys everything if partial fills are allowed.", "quantifier": "every list of well-formed orders, every amount and every alternative trade", "why_tests_cant": "optimality quantifies over all alternative trades", "anchors": ["carbon/routers/exact_base_router.py::ExactBase.match", "carbon/routers/exact_router_x0y0n.py::ExactRouterX0Y0N"]}
{"id": "C71", "title": "Alpha router: succeeds within its number of orders whenever possible, optimally", "statement": "Matching by target with the alpha router succeeds whenever some choice of at most the permitted number of orders holds the amount; it then uses at most that many orders, delivers the amount exactly, is the cheapest within the orders it selected, and selects the best priced orders if these suffice. The same by source, with the most received.", "quantifier": "every list of well-formed orders, every amount and number of orders", "why_tests_cant": "combinatorial over all choices of orders and continuous in the amounts", "anchors": ["carbon/routers/alpha_router.py::AlphaRouter.match_by_target", "carbon/routers/alpha_router.py::AlphaRouter.match_by_src"]}
{"id": "C72", "title": "Every curve of a container can be looked up by its id", "statement": "Curves without id are numbered by their position, all ids in a container differ, and each curve is found under its id, after any sequence of additions.", "quantifier": "every list of curves, with and without ids, and every sequence of additions", "why_tests_cant": "depends on the whole history and on the ids chosen", "anchors": ["carbon/tools/cpc.py::CPCContainer.__post_init__", "carbon/tools/cpc.py::CPCContainer.add"]}
{"id": "C73", "title": "The price of a pair is canonical and within the quoted prices", "statement": "The container's price of a pair exists exactly if a curve trades the two tokens in either direction, lies between the smallest and largest price these curves quote in the direction asked for, and is the reciprocal of the price in the other direction.", "quantifier": "every container of valid curves and every pair of different tokens", "why_tests_cant": "the curves, their number and directions are arbitrary", "anchors": ["carbon/tools/cpc.py::CPCContainer.price"]}
{"id": "C74", "title": "The estimated price is a weighted mean of the quoted prices", "statement": "A price estimate exists exactly if a curve that is not at the boundary of its range trades the pair, lies between the smallest and largest price of these curves in the direction asked for, equals their common price if they agree, and the estimate in the other direction is its reciprocal.", "quantifier": "every container of valid curves and every pair of different tokens", "why_tests_cant": "the curves and weights are arbitrary reals", "anchors": ["carbon/tools/cpc.py::CPCContainer.price_estimate"]}
{"id": "C75", "title": "The concentration index is within its bounds", "statement": "The Herfindahl index of non-negative amounts lies between one over their number and one, is one exactly if a single amount is not zero, and does not depend on the scale; its reciprocal lies between one and the number of amounts.", "quantifier": "every list of non-negative amounts", "why_tests_cant": "an inequality over lists of any length", "anchors": ["carbon/tools/cpc.py::AF.herfindahl", "carbon/tools/cpc.py::AF.herfindahlN"]}
{"id": "C76", "title": "Filtering pairs returns exactly those that meet the conditions", "statement": "Filtering pairs by conditions returns exactly the pairs that satisfy all (or any, if so chosen) of the conditions, a condition may be given several times with differentiators, and an unknown condition is refused.", "quantifier": "every set of pairs and every list of conditions", "why_tests_cant": "combinations of conditions are unbounded", "anchors": ["carbon/tools/cpc.py::CPCContainer.filter_pairs"]}
{"id": "C77", "title": "The token table lists every curve once on each side", "statement": "The table of tokens lists for each token exactly the positions of the curves on which it is base token and on which it is quote token; every curve appears for exactly one token on each side.", "quantifier": "every container", "why_tests_cant": "containers are unbounded", "anchors": ["carbon/tools/cpc.py::CPCContainer.tokentable"]}
{"id": "C78", "title": "Subcycles are recognised wherever the cycles begin", "statement": "A cycle of nodes is a subcycle of another one exactly if all of its nodes occur in it in the same cyclic order, independently of where either is written to begin; the relation is transitive.", "quantifier": "every pair of cycles of any length", "why_tests_cant": "cyclic order over lists of any length", "anchors": ["carbon/tools/arbgraphs.py::Cycle.is_subcycle_of"]}
{"id": "C79", "title": "The marginal price optimizer's amounts balance", "statement": "At the prices the optimizer ends with, every curve gets one trade that its pool accepts and that leaves the pool on its curve; the net amount reported for each token is the sum of these trades, the result is the net amount of the target token, and there is one trade instruction per curve that trades, with amounts that add up to the reported net amounts.", "quantifier": "every container of valid curves, every target token and all positive prices", "why_tests_cant": "any number of curves and tokens, continuous prices", "anchors": ["carbon/tools/optimizer.py::CPCArbOptimizer.margp_optimizer", "carbon/tools/optimizer.py::CPCArbOptimizer.MargpOptimizerResult.trade_instructions"]}
{"id": "C80", "title": "The marginal price optimizer is optimal", "statement": "No other choice of trades that the pools accept and that asks for at most the same net amounts of the other tokens gets more of the target token out of the pools, and only the optimizer's choice gets as much; if the pools take no other token on balance, the result is a profit unless there is nothing to trade.", "quantifier": "every container of valid curves, all positive prices and every alternative choice of trades", "why_tests_cant": "optimality quantifies over all alternative trades", "anchors": ["carbon/tools/optimizer.py::CPCArbOptimizer.margp_optimizer"]}
{"id": "C81", "title": "No arbitrage is left after the optimizer's trades", "statement": "The adjusted curves are valid curves of the same pairs, the optimizer finds nothing more to trade on them at the same prices, and no choice of trades that the adjusted pools accept and that pays in no token on balance trades anything.", "quantifier": "every container of valid curves, all positive prices and every alternative choice of trades", "why_tests_cant": "quantifies over all trades with all curves", "anchors": ["carbon/tools/optimizer.py::CPCArbOptimizer.MargpOptimizerResult.curves_new", "carbon/tools/optimizer.py::CPCArbOptimizer.adjust_curves"]}
{"id": "C82", "title": "The optimizer for one pair finds the price at which the other token balances", "statement": "For valid curves of one pair the goal seek never refuses its bracket, the price found lies within one percent of the range of the curves' prices and within the tolerance of a price at which the curves' net amount of the other token is zero, and the result is at most the tolerance away from optimal trades, which no others beat.", "quantifier": "every list of valid curves of one pair, in either direction", "why_tests_cant": "any number of curves, continuous reserves", "anchors": ["carbon/tools/optimizer.py::CPCArbOptimizer.simple_optimizer"]}
{"id": "C83", "title": "Self-financing constraints have exactly one optimization variable", "statement": "Constraints can be built exactly if one token is the optimization variable; reading a token gives its constraint and zero if it has none, every token is either the optimization variable or a constraint, and the constraints describe an arbitrage exactly if all others are zero.", "quantifier": "every list of constraints", "why_tests_cant": "lists of any length and amounts of any value", "anchors": ["carbon/tools/optimizer.py::SelfFinancingConstraints"]}
{"id": "C84", "title": "Numerical derivatives and Newton steps are exact on quadratics", "statement": "The numerical first and second derivative are exact for quadratic functions, a Newton step from anywhere lands on the extremum of a quadratic and stays there, gradient descent converges to the minimum for small rates, and the positive and negative parts of a vector add up to it.", "quantifier": "every quadratic function, starting point and number of steps", "why_tests_cant": "infinitely many functions", "anchors": ["carbon/tools/optimizer.py::OptimizerBase.deriv", "carbon/tools/optimizer.py::OptimizerBase.deriv2", "carbon/tools/optimizer.py::OptimizerBase.findminmax_nr", "carbon/tools/optimizer.py::OptimizerBase.findmin_gd"]}
{"id": "C85", "title": "Wei amounts convert exactly and token amounts lose less than a wei", "statement": "Converting a wei amount to tokens and back gives the amount; converting a token amount to wei and back changes it by less than one wei and always towards zero; a token without explicit decimals has 18.", "quantifier": "every token, decimals and amount", "why_tests_cant": "unbounded amounts and decimals", "anchors": ["carbon/sdk/sdktoken.py::SDKToken.w2t", "carbon/sdk/sdktoken.py::SDKToken.t2w"]}
{"id": "C86", "title": "Seeding a strategy by value splits the value", "statement": "Seeding a strategy by value gives the requested share of cash and amounts that together are worth the value at the spot price; it leaves strategies that have an amount alone and commutes with rescaling.", "quantifier": "every strategy, spot price, share and value", "why_tests_cant": "continuous domain", "anchors": ["carbon/helpers/strategym.py::strategy.set_tvl"]}
{"id": "C87", "title": "A strategy equivalent to a Uniswap v3 position covers its range on both sides", "statement": "The sell range and the buy range are the range of the position moved apart by the fee, the two starting amounts have the same value at the geometric mean, the strategy is never rescaled unless forced, is never seeded with zero, and has positive prices.", "quantifier": "every range, fee and value", "why_tests_cant": "continuous domain", "anchors": ["carbon/helpers/strategym.py::strategy.from_u3"]}
{"id": "C88", "title": "Edges between the same nodes add up", "statement": "Two edges can be added exactly if they have the same type, start and end; sums add both amounts, the price of a sum lies between the prices of its parts, a positive multiple keeps the prices, a reversed edge quotes the same price for swapped ends, and reversing twice gives the edge back.", "quantifier": "every list of edges, all amounts and multiples", "why_tests_cant": "lists of any length and continuous amounts", "anchors": ["carbon/tools/arbgraphs.py::Edge.__add__", "carbon/tools/arbgraphs.py::Edge.__mul__", "carbon/tools/arbgraphs.py::Edge.reverse", "carbon/tools/arbgraphs.py::Edge.price"]}
{"id": "C89", "title": "A duplicate of a graph trades the same", "statement": "A duplicate has the same tokens. Without consolidation its edges are those of the original in the same order with the same amounts, identifiers and quotation. With consolidation there is exactly one edge for every ordered pair of tokens that had edges, whose amounts are the sums of their amounts.", "quantifier": "every graph that can be built", "why_tests_cant": "graphs of any size", "anchors": ["carbon/tools/arbgraphs.py::ArbGraph.duplicate", "carbon/tools/arbgraphs.py::Edge._replace_nodes"]}
{"id": "C90", "title": "Symmetric connections have reciprocal prices", "statement": "A symmetric connection, and every curve added to a graph, adds two opposite edges with reciprocal prices. Transporting prices along a path multiplies the average prices of its steps, and going there and back multiplies by at least one, and by exactly one only if all prices between the two tokens agree.", "quantifier": "every list of curves and every pair of tokens", "why_tests_cant": "any number of curves with continuous prices; the bound is an inequality of means", "anchors": ["carbon/tools/arbgraphs.py::ArbGraph.add_edge_connectiontype", "carbon/tools/arbgraphs.py::ArbGraph.add_edges_cpc", "carbon/tools/arbgraphs.py::ArbGraph.ptransport"]}
{"id": "C91", "title": "Edge statistics describe the edges between two tokens", "statement": "The statistics of the edges from one token to another count them, add up their amounts and what is left of them, and give the average price and the used share of the capacity, which is between zero and one; a recorded transport lowers what is left by exactly the amount and changes nothing else; capacity is reported exactly if some edge has more than the tolerance left; filters by pair or node return exactly the edges concerned.", "quantifier": "every graph that can be built and every transport", "why_tests_cant": "graphs of any size and histories of any length", "anchors": ["carbon/tools/arbgraphs.py::ArbGraph.edge_statistics", "carbon/tools/arbgraphs.py::ArbGraph.has_capacity", "carbon/tools/arbgraphs.py::ArbGraph.filter_edges"]}
{"id": "C92", "title": "A Uniswap v3 pool is read as the curve of its active tick range", "statement": "The active range is the one multiple of the tick size that contains the tick; its prices, the pool price and their inverses are consistent; a pool whose price is inside the active range gives a curve with that range, price and fee whose reserves are those of Uniswap v3, which are also the reserves and the value the calculator reports; known addresses become names.", "quantifier": "every tick, price, liquidity, fee level and token decimals", "why_tests_cant": "unbounded integers and continuous prices", "anchors": ["carbon/tools/univ3calc.py::Univ3Calculator", "carbon/tools/univ3calc.py::Univ3Calculator.tickab", "carbon/tools/univ3calc.py::Univ3Calculator.papb_tkn1_per_tkn0", "carbon/tools/univ3calc.py::Univ3Calculator.tkn0reserve", "carbon/tools/univ3calc.py::Univ3Calculator.tkn1reserve", "carbon/tools/univ3calc.py::Univ3Calculator.tvl", "carbon/tools/univ3calc.py::Univ3Calculator.cpc_params", "carbon/tools/cpc.py::ConstantProductCurve.from_univ3"]}
{"id": "C93", "title": "The value locked in a curve", "statement": "The value locked in a curve is its reserves valued at its price, in units of either token; without leverage half of it is in each token; after a trade it is never more than the old reserves are worth at the new price; a curve is reported at an end of its range exactly if the range ends there and (up to one millionth) nothing of the token is left.", "quantifier": "every valid curve and every position on it", "why_tests_cant": "continuous domain", "anchors": ["carbon/tools/cpc.py::ConstantProductCurve.tvl", "carbon/tools/cpc.py::ConstantProductCurve.at_xmin", "carbon/tools/cpc.py::ConstantProductCurve.at_xmax", "carbon/tools/cpc.py::ConstantProductCurve.at_boundary"]}
{"id": "C94", "title": "Token scales are those added last", "statement": "The scale of a token is the one added last for it, for any history of additions; other tokens keep their scale, and tokens without one have the default scale.", "quantifier": "every history of additions", "why_tests_cant": "unbounded histories", "anchors": ["carbon/tools/tokenscale.py::TokenScale", "carbon/tools/tokenscale.py::TokenScaleBase.scale"]}
{"id": "C95", "title": "The prices of an encoded order never exceed the requested ones", "statement": "Encoding a range of prices gives an order whose start and end price are not above the requested ones and lose at most the precision of the 48 bit encoding; rates are stored as by the benchmark implementation of the contract; an order given without marginal price and capacity is full and is at its start price; an order at a marginal price inside its range has a capacity of at least its liquidity.", "quantifier": "every range of non-negative prices and every amount", "why_tests_cant": "infinitely many prices, bit level rounding", "anchors": ["carbon/sdk/carbonsdk.py::EncodedOrder.encode", "carbon/sdk/carbonsdk.py::EncodedOrder.encodeRate", "carbon/sdk/carbonsdk.py::EncodedOrder.encodeFloat", "carbon/sdk/carbonsdk.py::EncodedOrder.decode", "carbon/sdk/carbonsdk.py::EncodedOrder.p_start", "carbon/sdk/carbonsdk.py::EncodedOrder.p_end", "carbon/sdk/carbonsdk.py::EncodedOrder.p_marg", "carbon/sdk/carbonsdk.py::EncodedOrder.encode_yzAB"]}
{"id": "C96", "title": "A simulated strategy never beats the price it trades at and never loses against its own middle", "statement": "run_sim over strategies of one pair with proper ranges and positive prices always returns, with one entry per price in every series, the value being that of the two amounts at the price and the comparison that of holding the first amounts. At every price the new amounts are worth at most what the previous amounts are worth there; a price above all buy ranges only sells, one below all sell ranges only buys, and between the ranges nothing changes. Valued at any fixed price between all buy and all sell ranges the holdings never fall, so whenever the price is there the strategies are worth at least the held position. Amounts are never negative.", "quantifier": "every number of strategies, every path length and every sequence of positive prices", "why_tests_cant": "the statement is about whole executions over arbitrary paths; tests run a handful of paths and compare printed series", "anchors": ["carbon/helpers/simulation.py::run_sim", "carbon/helpers/strategym.py::rescale_strat", "carbon/carbon_order_ui.py::tradeto"]}
{"id": "C97", "title": "Numbers and names survive the way to the SDK server and back", "statement": "Every integer becomes a big number and a text that read back as the same integer, entry by entry in dictionaries; rounding to n significant digits leaves at most n digits, changes a value by at most half a unit of the last one and keeps order and signs; names in camel case come back from their form with underscores and vice versa; joining an address and a path puts one slash between them and is associative.", "quantifier": "every integer, number, name and path", "why_tests_cant": "unbounded integers, continuous numbers, texts of any length", "anchors": ["carbon/sdk/sdkbase.py::SDKBase.bn2int", "carbon/sdk/sdkbase.py::SDKBase.int2bn", "carbon/sdk/sdkbase.py::SDKBase.int2str", "carbon/sdk/sdkbase.py::SDKBase.roundsd", "carbon/sdk/sdkbase.py::SDKBase.c2s", "carbon/sdk/sdkbase.py::SDKBase.s2c", "carbon/sdk/sdkbase.py::SDKBase.join"]}
{"id": "C98", "title": "A call reaches the server that was configured and returns its data", "statement": "A wrapped call posts its parameters once, to the address of the client and under its own name, and returns the data of a successful reply; every other reply and an unreachable server raise. A call without choice uses the interface that is the default of the client; an asynchronous call returns the number of the request exactly if it was accepted.", "quantifier": "every server behaviour, address, name and parameter", "why_tests_cant": "the servers are arbitrary functions; tests would need a network", "anchors": ["carbon/sdk/sdkbase.py::SDKBase.__init__", "carbon/sdk/sdkbase.py::SDKBase.req0", "carbon/sdk/sdkbase.py::SDKBase.req", "carbon/sdk/sdkbase.py::SDKBase.call", "carbon/sdk/sdkbase.py::SDKBase.callapi0", "carbon/sdk/carbonsdk0.py::CarbonSDK0._checkresult"]}
{"id": "C99", "title": "The market of a pair is seen the same from both sides", "statement": "Bids are the rates at which the base token is taken, asks the reciprocals of those at which the quote token is taken, liquidity is that of the token given out; the market of the reversed pair has the reciprocals; bids fall from best to last and asks rise; depths are asked at the rates of the server and lists of rates or pairs rate by rate and pair by pair; interpolation runs between best and last; tokens that are not in the pair are refused; a market with one side only is reported as such.", "quantifier": "every pair, container of tokens and server", "why_tests_cant": "the server is an arbitrary function, rates are continuous", "anchors": ["carbon/sdk/carbonsdk.py::CarbonSDK.mGetMarketByPair", "carbon/sdk/carbonsdk.py::CarbonSDK.mGetRangeByPair", "carbon/sdk/carbonsdk.py::CarbonSDK.mGetLiquidityByPair", "carbon/sdk/carbonsdk.py::CarbonSDK.mGetRateLiquidityDepthByPair", "carbon/sdk/carbonsdk.py::CarbonSDK.mHasLiquidityByPairs", "carbon/sdk/carbonsdk.py::MarketByPair"]}
{"id": "C100", "title": "Strategies and trades reach the server as they were meant", "statement": "A strategy is created on the tokens of the pair, with its ranges in order and its bids below its asks; the strategies of a user are listed one for one with exact integers and prices within the rounding; who buys a token receives it and fixes what they receive, who sells it gives it and fixes what they give, for every pair of tokens that the client knows; the transaction limits what is paid from above and what is received from below by the quote and a tolerance.", "quantifier": "every container of tokens, pair, price, amount and server", "why_tests_cant": "the server is an arbitrary function, prices are continuous", "anchors": ["carbon/sdk/carbonsdk.py::CarbonSDK.mCreateStrategy", "carbon/sdk/carbonsdk.py::CarbonSDK.mGetUserStrategies", "carbon/sdk/carbonsdk.py::CarbonSDK.mPrepareTrade", "carbon/sdk/carbonsdk.py::CarbonSDK.mComposeTradeTransaction", "carbon/sdk/carbonsdk.py::Strategy"]}
{"id": "C101", "title": "An interpolated price path goes through the points of the path", "statement": "A bridge starts and ends at the given values whatever the random draws, is the straight line without volatility and has the announced number of points. An interpolated path has one value per time stamp, passes through the points of the original path, and has positive prices if the original path has. The volatility that is estimated does not depend on the unit of the price and is zero exactly for constant growth.", "quantifier": "every path, period, volatility and sequence of random draws", "why_tests_cant": "the draws are random and the values continuous", "anchors": ["carbon/helpers/pathinterpolation.py::PathInterpolation.gaussian_bridge", "carbon/helpers/pathinterpolation.py::PathInterpolation.interpolate_segment", "carbon/helpers/pathinterpolation.py::PathInterpolation.interpolate", "carbon/helpers/pathinterpolation.py::PathInterpolation.estimate_vol_np"]}
{"id": "C102", "title": "Order books built from simulated trades have consistent prices", "statement": "For a list of source and target amounts, the order book drops exactly the amounts that could not be traded, reports for each amount the ratio as effective price and the ratio of increments as marginal price; marginal prices that rise make effective prices rise and stay below them. The reported liquidity is not negative, lies at prices between neighbouring marginal prices, and its area is the amount that changes hands between the first and the last midpoint. The grid of amounts rises from the starting value to the maximum.", "quantifier": "every list of amounts and every pair of prices", "why_tests_cant": "continuous amounts; a test sees one book", "anchors": ["carbon/simulators/sim_analytics.py::OrderBook.__init__", "carbon/simulators/sim_analytics.py::OrderBook.prices", "carbon/simulators/sim_analytics.py::OrderBook.marg_prices", "carbon/simulators/sim_analytics.py::OrderBook.ob_liquidity", "carbon/simulators/sim_analytics.py::Analytics.truncate", "carbon/simulators/sim_analytics.py::Analytics.linspace0"]}
{"id": "C103", "title": "Liquidity by price window counts what the orders offer in the window", "statement": "The liquidity approximation of a simulator has one entry per window, side and pair, sums what the curves of that pair offer between the two prices of the window (converted if required), reports nothing exactly for windows in which no curve offers anything, is never negative, and is not affected by curves of other pairs. Amounts already sold are not liquidity any more.", "quantifier": "every set of orders and every list of windows", "why_tests_cant": "continuous prices; any number of orders", "anchors": ["carbon/simulators/sim_analytics.py::OrderBook.calc_liquidity_approx", "carbon/carbon_order_ui.py::CarbonOrderUI.liquidity_approx"]}
{"id": "C104", "title": "The trade log is append-only, numbered and adds up", "statement": "Trades and previews never change earlier records of the log. Each executed or previewed trade appends one record per route followed by one aggregated record, all under one number, and numbers increase by one per trade. The aggregated record's amounts are the sums of its routes and its price their quotient. The partial flag is set exactly if the requested amount was not reached.", "quantifier": "every simulator state reachable by any sequence of trades", "why_tests_cant": "any number of trades and any arguments", "anchors": ["carbon/simulators/carbon_simulator.py::CarbonSimulatorUI._trade", "carbon/simulators/carbon_simulator.py::CarbonSimulatorUI.amm_buys", "carbon/simulators/carbon_simulator.py::CarbonSimulatorUI.amm_sells"]}
{"id": "C105", "title": "A preview reports what the executed trade does", "statement": "Calling a trade with execute=False gives the same records as executing it in the same state, up to the execution mark, and the same errors.", "quantifier": "every reachable simulator state and every trade", "why_tests_cant": "any state and any arguments", "anchors": ["carbon/simulators/carbon_simulator.py::CarbonSimulatorUI._trade", "carbon/simulators/carbon_simulator.py::CarbonSimulatorUI.amm_buys", "carbon/simulators/carbon_simulator.py::CarbonSimulatorUI.amm_sells"]}
{"id": "C106", "title": "Effective prices come from a preview and do not change the book", "statement": "The effective price of a size is the price of the aggregated record of the preview of the trade, zero if the trade is impossible; simulating trades gives the amount of that record. The documented constants select the side and a missing pair is replaced by the pair of the simulator; neither changes the orders.", "quantifier": "every simulator, size and side", "why_tests_cant": "any state and continuous sizes", "anchors": ["carbon/simulators/sim_analytics.py::Analytics.effective_price", "carbon/simulators/sim_analytics.py::Analytics.simulate_trades"]}
{"id": "C107", "title": "Strategies from the SDK are imported with their tokens, prices, capacities and fill levels", "statement": "Importing an SDK strategy gives one curve that sells the base token over the sell prices and one that sells the quote token over the buy prices, both of the strategy's pair, with the budgets as capacities, filled to the same fraction as the encoded orders; the marginal prices depend only on prices and fractions. It does not matter which encoded order comes first; tokens that do not match the encoded ones are refused. Adding the strategy to a simulator stores two new linked orders that read back as exactly these curves, and changes nothing else. Registered tokens are recognized and strategies with an unfunded side can be imported.", "quantifier": "every strategy and every token registry", "why_tests_cant": "continuous prices and budgets, any registry, any simulator state", "anchors": ["carbon/carbon_order_ui.py::CarbonOrderUI.from_SDK", "carbon/simulators/carbon_simulator.py::CarbonSimulatorUI.add_fromsdk", "carbon/simulators/carbon_simulator.py::CarbonSimulatorUI.add_strategy"]}
{"id": "C108", "title": "Contract parameters represent the curve up to the scaling factor; curves are sorted by pair and side", "statement": "The parameters for the smart contract are integers; holdings and capacity are scaled by the decimals of the token, and the start and end price recovered from the parameters are never above the real ones and below them by at most one or two units of the scaling factor in the root. Missing decimals are an error. Sorting curves by pair puts each curve under its pair exactly once, as ask exactly if it sells the base token.", "quantifier": "every curve, all decimals and all scaling exponents", "why_tests_cant": "continuous parameters and arbitrary decimals", "anchors": ["carbon/carbon_order_ui.py::CarbonOrderUI.yzABS", "carbon/carbon_order_ui.py::yzABSdata", "carbon/carbon_order_ui.py::CarbonOrderUI.curves_by_pair_bidask"]}
{"id": "C109", "title": "Alternative curve parameters are consistent with each other and with the curve", "statement": "The point (x0, y0) lies on the curve; the marginal price there is p0, the geometric mean of the range, and y0/x0 is its raw form. Intercepts and asymptotes relate to x0 and y0 by factors that depend on Gamma only, Gamma and Q determine each other, kappa_bar is the root of kappa and the leverage times the root of x0*y0, the widths are functions of Q. For a range of one price leverage and kappa_bar raise.", "quantifier": "every curve with positive prices and capacity", "why_tests_cant": "identities over continuous parameters", "anchors": ["carbon/carbon_order_ui.py::CarbonOrderUI.p0", "carbon/carbon_order_ui.py::CarbonOrderUI.p0_raw", "carbon/carbon_order_ui.py::CarbonOrderUI.x0", "carbon/carbon_order_ui.py::CarbonOrderUI.y0", "carbon/carbon_order_ui.py::CarbonOrderUI.kappa_bar", "carbon/carbon_order_ui.py::CarbonOrderUI.leverage_fctr", "carbon/carbon_order_ui.py::CarbonOrderUI.widthr", "carbon/carbon_order_ui.py::CarbonOrderUI.widthpc", "carbon/carbon_order_ui.py::CarbonOrderUI.int_over_0", "carbon/carbon_order_ui.py::CarbonOrderUI.asym_over_0", "carbon/carbon_order_ui.py::CarbonOrderUI.Q_from_Gamma", "carbon/carbon_order_ui.py::CarbonOrderUI.Gamma_from_Q"]}
{"id": "C110", "title": "The price between two tokens is the product of the average prices along a shortest chain", "statement": "In a graph of connections the price of one token in terms of another is the product, along a chain of edges with as few steps as possible, of the average price of the edges of each step; asking for it raises exactly if there is no such chain, a token is unknown or the graph carries amounts. A direct connection settles the price; a token is worth one of itself. If all edges agree with a value for each token, every price is the ratio of the values whichever chain is used. For curves the prices there and back multiply to at least one, and to one only if all curves agree. With units the price comes with its description.", "quantifier": "every reachable graph, all pairs of tokens and every shortest-path routine", "why_tests_cant": "any number of tokens and edges, and any choice among shortest chains", "anchors": ["carbon/tools/arbgraphs.py::ArbGraph.price", "carbon/tools/arbgraphs.py::ArbGraph.shortest_path"]}
{"id": "C111", "title": "The price table lists the price of each token in terms of each other", "statement": "The price table has one row and one column for each token, ones on the diagonal, and in all other cells the price of the row token in terms of the column token; it exists exactly if all of these prices do. If the edges agree with a value for each token, its rows are proportional to each other.", "quantifier": "every reachable graph", "why_tests_cant": "any number of tokens", "anchors": ["carbon/tools/arbgraphs.py::ArbGraph.pricetable"]}
{"id": "C112", "title": "Amounts of different tokens never mix", "statement": "Adding, subtracting and comparing amounts of one token acts on the numbers; for amounts of different tokens or for amounts and plain numbers all of these raise, in either order. Subtraction undoes addition, addition is associative and commutative also in when it raises, the ratio of two amounts of one token is the number that scales one to the other, products of amounts raise. A list of amounts adds up exactly if all are of the same token.", "quantifier": "all amounts, numbers and lists of amounts", "why_tests_cant": "continuous amounts and lists of any length", "anchors": ["carbon/tools/arbgraphs.py::Amount"]}
{"id": "C113", "title": "Tracked values record their history", "statement": "Whatever is done to a tracked value, the last entry of its history is its current value; setting it repeatedly records all values in order; resetting it keeps the current value only, the given one or the previous one. Setting without a value clears the history.", "quantifier": "every initial value and every sequence of changes", "why_tests_cant": "arbitrarily long sequences of changes", "anchors": ["carbon/tools/arbgraphs.py::TrackedStateFloat"]}
{"id": "C114", "title": "Node statistics add up the edges of the node and follow transports", "statement": "The statistics of a token add up the amounts of the edges that end and that start at it, list each token at the other end once, and over all tokens count every edge once as incoming and once as outgoing. A recorded transport lowers what is left of the edges out of the source by exactly the amount and does not affect what is left for other tokens. Unknown tokens and connections raise.", "quantifier": "every reachable graph and every transport", "why_tests_cant": "any number of edges, any sequence of transports before", "anchors": ["carbon/tools/arbgraphs.py::ArbGraph.node_statistics", "carbon/tools/arbgraphs.py::ArbGraph.transport"]}
{"id": "C115", "title": "Degrees count the neighbours of each token", "statement": "The incoming degree of a token is the number of tokens with an edge to it, the outgoing degree the number of tokens that it has an edge to, the degree the number of tokens with an edge in either direction with loops counted once more, however many edges there are between two tokens. The sums of incoming and outgoing degrees are equal; in a graph of curves the two agree for each token.", "quantifier": "every reachable graph", "why_tests_cant": "any number of tokens and edges", "anchors": ["carbon/tools/arbgraphs.py::ArbGraph.in_degree", "carbon/tools/arbgraphs.py::ArbGraph.out_degree", "carbon/tools/arbgraphs.py::ArbGraph.degree"]}
{"id": "C116", "title": "The reference trade functions invert each other and the contract never beats them on a stored order", "statement": "An order survives being encoded and decoded by the reference functions, which raise for negative rates. What the reference pays for a source amount costs, by the reference, exactly that source amount, and the average rate is between the lowest and the marginal rate as long as the order has the liquidity. For every stored order the contract pays at most what the reference pays for the rates it is read back with, and charges, unless it refuses, at least what the reference charges.", "quantifier": "all orders and amounts, all encoded words", "why_tests_cant": "continuous rates and amounts, 2^48 words per parameter", "anchors": ["benchmark/core/trade/spec.py::execute", "benchmark/core/trade/spec.py::encodeOrder", "benchmark/core/trade/spec.py::decodeOrder", "benchmark/core/trade/impl.py::decodeOrder", "benchmark/core/trade/impl.py::execute"]}
{"id": "C117", "title": "The contract agrees with the reference on the order as requested, in favour of the order", "statement": "For an order requested with rational rates and an integer liquidity, the contract pays out at most what the reference pays out for the request, and charges at least what the reference charges unless it refuses, as long as the order has the liquidity. In the other direction it pays at most four units less and charges at most four units more, apart from a part in 2^44 of the amount and a part in 2^44 divided by the root of the rate. The benchmark asserts this for some samples.", "quantifier": "all rational rates, liquidities and amounts", "why_tests_cant": "sampled by the benchmark files; the number of rates and amounts is infinite", "anchors": ["benchmark/core/trade/impl.py::execute", "benchmark/core/trade/spec.py::execute", "benchmark/core/trade/impl.py::encodeOrder"]}
{"id": "C118", "title": "Version requirements compare versions number by number", "statement": "A version text gives the numbers between its dots, whatever blanks precede and whatever text follows. The check of a required version accepts exactly the versions that are not below it in lexicographic order of the numbers, which is a total order; without an actual version that of the package is used. The raising form raises exactly if the other form answers no. Texts that do not start with a number, or with a dot that is not followed by one, raise.", "quantifier": "all version texts", "why_tests_cant": "any number of parts and arbitrarily large numbers", "anchors": ["carbon/helpers/version.py::require_version", "carbon/helpers/version.py::split_version_str"]}
{"id": "C119", "title": "The integer checker accepts exactly the integers far enough from both limits", "statement": "Numbers are truncated towards zero and returned unchanged exactly if they are integers from 100 to 2^256 - 1 at the level for errors, and from 10^4 to 2^256/10^4 at the level for warnings; otherwise the exception names the side and the level. What is printed depends on the print level in the same way. The number of binary digits reported is that of the integer. Without a level nothing outside 256 bits is returned.", "quantifier": "all rational numbers and all levels", "why_tests_cant": "numbers of hundreds of bits; all boundaries", "anchors": ["carbon/helpers/soltest.py::SolTestBase"]}
{"id": "C120", "title": "The comparison helpers of the tests say yes exactly if the values agree", "statement": "Comparing a number with others says yes exactly if all of them are within the tolerance, relative to it or absolute if it is zero; comparing a text exactly if all are equal to it. The helper for exceptions is true exactly if the function raises.", "quantifier": "all values, tolerances and functions", "why_tests_cant": "used by the tests themselves", "anchors": ["carbon/helpers/stdimports.py::iseq", "carbon/helpers/stdimports.py::raises"]}
{"id": "C121", "title": "Shared variables show the same number under all their names and no other", "statement": "In every program of assignments, in-place operations and operations, two names of one shared variable always show the same number until one of them is assigned again; an operation on a name changes no name that does not share its variable; in-place operations and operations compute the operation on the numbers; assigning another name shares, creating or assigning a number does not. What is stored is a number.", "quantifier": "all programs and states", "why_tests_cant": "aliasing depends on whole histories", "anchors": ["carbon/helpers/sharedvar.py::SharedVar"]}
{"id": "C122", "title": "Windows of a time series are its rows in an interval", "statement": "Reading a series with a start and a period, in days or as fractions of the whole, selects exactly the rows from the start to its end in their order; without limits everything is selected; the first fraction and the rest overlap only where they meet. A start before the data is replaced by the first time stamp. Contradictory options and empty data raise. The inverted series has the inverse values at the same times and the tokens of the pair exchanged. The time covered is never negative and not increased by selecting.", "quantifier": "all series and windows", "why_tests_cant": "continuous time and any number of rows", "anchors": ["carbon/helpers/pdread.py::pdread", "carbon/helpers/pdread.py::pdcols", "carbon/helpers/pdread.py::pathtime_days"]}
{"id": "C123", "title": "Lists and pairs of tokens survive being written and read", "statement": "A list of names that is joined and separated again is the same list. A pair is recovered from its text with a slash and the reverse; other texts raise. The pairs created from lists of coins are all combinations of different coins, once each. The pairs and fields of a table are those of its columns. A directory listing is sorted and contains the names that are files with the extension, in any case of letters.", "quantifier": "all lists of names", "why_tests_cant": "lists and names of any length", "anchors": ["carbon/helpers/cryptocompare.py::CryptoCompare.join", "carbon/helpers/cryptocompare.py::CryptoCompare.unjoin", "carbon/helpers/cryptocompare.py::CryptoCompare.pt_from_pair", "carbon/helpers/cryptocompare.py::CryptoCompare.create_pairs", "carbon/helpers/helpers.py::listdir"]}
{"id": "C124", "title": "Scenario records are read faithfully and their differences restore them", "statement": "A description of a scenario gives the strategy that its type and fields stand for; with errors switched off a description that cannot be read gives nothing instead of an exception. The differences between two records are the fields with a new value, and applied to the base they restore the record. Missing fields raise. The differences of a series of records are those to its first.", "quantifier": "all records and descriptions", "why_tests_cant": "records with any fields and values", "anchors": ["carbon/helpers/strategym.py::strategy.from_dct", "carbon/helpers/strategym.py::strategy.dr", "carbon/helpers/strategym.py::strategy.drr"]}
{"id": "C125", "title": "Generated paths follow their increments", "statement": "A generated path starts at the start value, has one more value than there are increments, as many as times and dates, and each value is the previous one times the increment. It is positive for positive increments and proportional to the start value. The times are equally spaced from zero to the length of the path. Without steps an exception is raised.", "quantifier": "all increments, start values and numbers of steps", "why_tests_cant": "the increments are random", "anchors": ["carbon/helpers/pathgenerator.py::PathGenerator.path", "carbon/helpers/pathgenerator.py::PathGenerator._datetime_r"]}
{"id": "C126", "title": "The fast router on integers rounds in favour of the orders", "statement": "With integer arithmetic all amounts are integers. A trade by source amount gives at most what the curve gives and charges the price of what it gives rounded up, at most the source amount. A trade by target amount gives the requested amount, or all there is, and costs the price of the curve rounded up, less than one unit more. Matching succeeds whenever an order holds something, routes at most the requested amount, takes each order at most once and no more than it holds. No order takes an amount without giving something.", "quantifier": "all books of integer orders and all integer amounts", "why_tests_cant": "rounding errors depend on the amounts of every order", "anchors": ["carbon/routers/fast_router.py::FastRouter.mul_div_f", "carbon/routers/fast_router.py::FastRouter.mul_div_c", "carbon/routers/fast_router.py::FastRouter.amt_by_src", "carbon/routers/fast_router.py::FastRouter.amt_by_target", "carbon/routers/fast_router.py::FastRouter.match_by_src", "carbon/routers/fast_router.py::FastRouter.match_by_target"]}
{"id": "C127", "title": "Orders read from files are those of the file", "statement": "Reading a file gives the first orders of the file, as many as asked for, in order, with the amounts, capacities and prices that the file states; entries without a capacity start at it. Integer mode gives the same orders scaled. Reading tables works as well.", "quantifier": "all files and numbers of orders", "why_tests_cant": "files of any length and contents", "anchors": ["carbon/routers/base_router.py::BaseRouter.make_orders_from_file"]}
{"id": "C128", "title": "A refused trade changes nothing", "statement": "If a buy or a sale raises, or is reported as failed, then the orders, the log of trades and the number of the next trade are exactly what they were before the call.", "quantifier": "all reachable simulators, all routers, all arguments", "why_tests_cant": "the failure may occur after any number of routes have been executed, for reasons that lie in other orders", "anchors": ["carbon/simulators/carbon_simulator.py::CarbonSimulatorUI.amm_buys", "carbon/simulators/carbon_simulator.py::CarbonSimulatorUI.amm_sells", "carbon/simulators/carbon_simulator.py::CarbonSimulatorUI._trade"]}
{"id": "C129", "title": "A trade succeeds exactly if the book can serve it", "statement": "A sale of a positive amount without limits succeeds with the exact router exactly if the enabled orders on the pair that sell the token and may be used hold the amount together, and then it sells exactly the amount; with partial matching it sells what there is. With the fast router it succeeds exactly if there is such an order, and sells the smaller of the amount and what they hold. Purchases are the same with what the orders charge for all they hold. The amount zero is refused. The aggregate record states the amounts, whether or not the trade is executed.", "quantifier": "all books, amounts, pairs and positions", "why_tests_cant": "success depends on the whole book", "anchors": ["carbon/simulators/carbon_simulator.py::CarbonSimulatorUI.amm_buys", "carbon/simulators/carbon_simulator.py::CarbonSimulatorUI.amm_sells", "carbon/simulators/carbon_simulator.py::CarbonSimulatorUI._trade", "carbon/routers/exact_base_router.py::ExactBase.match", "carbon/routers/fast_router.py::FastRouter.match"]}
{"id": "C130", "title": "The convex optimizer's program means what it should and has the marginal price optimizer's solution", "statement": "Values of the variables, reported in token units, satisfy the constraints exactly if every pool accepts its trade and the trades bring the required net amount of every token that is not optimized; an optimal point reports trades that get as much as possible of the optimized token out of the pools, all such trades are reported for one, and the token scale does not matter. If the marginal price optimizer's prices bring the required amounts, its trades are the only solution, with or without the maximum constraints. Pools with all of their curve need no range constraints; pools that trade the optimized token and keep some of it end on their curves.", "quantifier": "all containers, token scales, constraints, and values of the variables", "why_tests_cant": "optimality quantifies over all trades; a numerical solver only returns one approximate point", "anchors": ["carbon/tools/optimizer.py::CPCArbOptimizer.nofees_optimizer", "carbon/tools/optimizer.py::ScaledVariable.value", "carbon/tools/optimizer.py::CPCArbOptimizer.SelfFinancingConstraints.arb", "carbon/tools/cpc.py::CPCContainer.add"]}
{"id": "C131", "title": "The analysis of a container counts, prices and sums up every curve once", "statement": "Without a choice of pairs the analysis covers all curves, otherwise those of the pairs in either direction. The table of pairs holds the number of curves per base and quote token and adds up to the number of curves; the symmetric table holds the number of curves between two tokens. The price tables hold prices that occur, with the average in between, and zero where there is no curve; the list of prices shows each curve's price. The table of volumes adds up the reserves of the curves per token, and a token's leverage lies between those of its curves.", "quantifier": "all containers with curves of positive reserves, and all pairs of tokens", "why_tests_cant": "aggregates over arbitrarily many curves, labels and missing cells", "anchors": ["carbon/tools/cpc.py::CPCContainer.pairs_analysis", "carbon/tools/cpc.py::CPCContainer.make_symmetric", "carbon/tools/cpc.py::CPCContainer._record", "carbon/tools/cpc.py::AF"]}
{"id": "C132", "title": "Statistics of reserves and the matrix of price estimates", "statement": "The statistics of the reserves raise unless all curves have the same base and the same quote token, and otherwise give the smallest and largest reserve, the mean in between, and a standard deviation that is zero exactly if all are equal. The matrix of price estimates has a row per quote and a column per base token, each cell the estimate of that pair, one for equal tokens; a missing estimate raises exactly if that is asked for; curves that agree on the values of the tokens give consistent prices.", "quantifier": "all lists of curves, all lists of tokens and options", "why_tests_cant": "all lists and all combinations of options", "anchors": ["carbon/tools/cpc.py::CPCContainer.xystats", "carbon/tools/cpc.py::CPCContainer.price_estimates", "carbon/tools/cpc.py::CPCContainer.price_estimate"]}
{"id": "C133", "title": "The price search of the marginal price optimizer", "statement": "The numerical Jacobian consists of difference quotients, is exact for affine functions and tends to the partial derivatives. A search from positive prices never raises: it reports failure or positive prices together with the amounts traded at these prices, which no other acceptable trades beat. Prices are reported only after a step below the precision; starting prices that balance all other tokens are reported at once and unchanged; the number of permitted iterations decides only whether the search is cut off. Reported prices balance all tokens but the target token, up to a share of the holdings of the pools that the precision bounds. The result then differs from the best possible one by at most such a share of their value. For pools of a single pair without bounds the balancing price is unique, and a search from a price near to it finds it.", "quantifier": "all containers of valid curves, target tokens, positive starting prices, precisions and numbers of iterations", "why_tests_cant": "iteration over real prices with arbitrarily many tokens and curves", "anchors": ["carbon/tools/optimizer.py::CPCArbOptimizer.margp_optimizer", "carbon/tools/optimizer.py::CPCArbOptimizer.jacobian"]}
{"id": "C134", "title": "The starting prices of the marginal price optimizer", "statement": "Starting prices given by the caller must cover every token but the target token, further ones change nothing, and the estimates that the optimizer reports can be given back to it with the same result. Without starting prices every other token needs a usable pool with the target token, otherwise an error asks for starting prices. If all pools agree on the values of the tokens, the optimizer reports these values, trades nothing and gains nothing. For pools of a single pair with prices near to each other it finds the balancing price without starting prices.", "quantifier": "all containers of valid curves, target tokens, dictionaries of prices and parameters", "why_tests_cant": "all dictionaries and all consistent markets", "anchors": ["carbon/tools/optimizer.py::CPCArbOptimizer.margp_optimizer", "carbon/tools/optimizer.py::CPCArbOptimizer.price_estimates"]}
{"id": "C135", "title": "The table of the edges of an arbitrage graph", "statement": "The consolidated table of a graph has one line for each connected pair of tokens, in the order of the names: for amounts one line per direction with the sums of the amounts, for connections the primary name, the number of connections in each direction and the mean price in the primary direction. Without consolidation there is one line per edge. The graph of a list of curves lists every traded pair once with the mean of the prices of its curves.", "quantifier": "all reachable graphs, selections of edges and lists of curves", "why_tests_cant": "grouping and alignment of arbitrarily many lines", "anchors": ["carbon/tools/arbgraphs.py::ArbGraph.edgedf"]}
{"id": "C136", "title": "Returns of cycles and formats of the results", "statement": "The return of a cycle is the product of the average prices along it minus one, whatever token it is entered at; the profit is the return times the amount put in, and it is positive exactly if the product of the prices exceeds one. Profits and returns per step times the number of steps are the totals. Running several cycles gives the results of running each, in order, in each of the documented formats, and with a list of tokens each cycle is entered at its token.", "quantifier": "all graphs, cycles along tradable edges, tokens and formats", "why_tests_cant": "every cycle, entry token and format", "anchors": ["carbon/tools/arbgraphs.py::ArbGraph.run_arbitrage_cycles", "carbon/tools/arbgraphs.py::ArbGraph.run_arbitrage_cyclesf", "carbon/tools/arbgraphs.py::ArbGraph.RunArbCycleResult"]}
{"id": "C137", "title": "Matrices and connectedness of an arbitrage graph", "statement": "The adjacency matrix tells for any two tokens whether there is an edge from the one to the other; its rows and columns sum to the outgoing and incoming degrees. The undirected Laplacian is that of the graph of the tokens: its rows sum to zero, it is symmetric and positive semidefinite, and the dimension of its kernel is the number of separate parts of the graph, which is reported as connected exactly if this is one. In a connected graph all cycles are subcycles of a single cycle.", "quantifier": "all reachable graphs", "why_tests_cant": "a statement about the spectrum and all cycles of every graph", "anchors": ["carbon/tools/arbgraphs.py::ArbGraph.Adjacency", "carbon/tools/arbgraphs.py::ArbGraph.Laplacian", "carbon/tools/arbgraphs.py::ArbGraph.is_weakly_connected", "carbon/tools/arbgraphs.py::ArbGraph.degree"]}
{"id": "C138", "title": "The optimizer for one pair and its results", "statement": "For curves of one pair the optimizer returns the requested functions of the price, the price found, or a result. The result of the global optimization reports the value, in the first token, of the trades of all curves to the price found; no trades that the curves accept and that do not need the second token leave less of the first. Where the trades balance in one token the value is greatest in the other; where the search comes to rest a balancing price is close. The instructions are the trades of the curves, one for each curve that trades, and add up to the reported sums. Asking without a target, or with a target and the global result, is refused, as are curves of several pairs.", "quantifier": "all lists of sound curves of one pair in either direction, prices, requests and numbers of steps", "why_tests_cant": "a bound over all trades and all curves", "anchors": ["carbon/tools/optimizer.py::CPCArbOptimizer.simple_optimizer", "carbon/tools/optimizer.py::CPCArbOptimizer.SimpleOptimizerResult"]}
{"id": "C139", "title": "Tables of trade instructions", "statement": "The raw table of trade instructions has one line per instruction and one column per token that occurs, in the order of first occurrence, holding the amount of the token or nothing. The aggregated table has the same amounts, followed by what the curves receive of each token, what they pay out, and the sum of both; for a marginal price optimization these sums are the changes of the tokens which the optimization reports. The pretty table leaves empty text where there is no amount. Unknown formats are refused. The table of the trades of a convex optimization ends with the sum of the amounts of each token.", "quantifier": "all lists of instructions between different tokens, all formats, all curves and trades", "why_tests_cant": "arbitrary numbers of instructions and tokens", "anchors": ["carbon/tools/optimizer.py::CPCArbOptimizer.TradeInstruction.to_df", "carbon/tools/optimizer.py::CPCArbOptimizer.TradeInstruction.to_format", "carbon/tools/optimizer.py::CPCArbOptimizer.NofeesOptimizerResult.dxdydf"]}
{"id": "C140", "title": "Start conditions of a simulation", "statement": "Start conditions with a price chart, a valuation, two weights, four boundaries and two marginal prices give a strategy with these boundaries and marginal prices, whose amounts are worth the valuation at the first price of the chart, in the ratio of the weights; incomplete conditions give none. The path has the prices of the chart at equally spaced dates from the start to the end. The simulation of the strategy along the chart starts with a portfolio worth the valuation.", "quantifier": "all charts, valuations, weights, boundaries and prices", "why_tests_cant": "charts of arbitrary length and all real amounts", "anchors": ["carbon/helpers/simulation.py::StartConditions"]}
{"id": "C141", "title": "The container of formulas: keys, namespaces, aliases and text replacement", "statement": "An item that is added is found under its key, with the namespace in front if there is one, and nothing else changes; every way of reading gives the same item, and missing keys raise or give nothing as configured. An alias gives the item of its key. The listed keys are those that exist, of the kind and namespace asked for. Adding all items of another container gives each under its key, with the namespace in front if the key had none. The text filter replaces each reference to a formula by its LaTeX code, unknown references by an error text, and leaves all other text as it is.", "quantifier": "all sequences of operations, keys, namespaces and texts", "why_tests_cant": "arbitrary containers and texts", "anchors": ["resources/whitepaper/formulalib.py::Formulas"]}
{"id": "C142", "title": "Tags", "statement": "A tag is found in a set of tags if and only if it is among them, regardless of case and outer spaces; the text of a set of tags, read again, gives the same set.", "quantifier": "all texts and sets of tags", "why_tests_cant": "arbitrary texts", "anchors": ["resources/whitepaper/taglib.py::Tags"]}
{"id": "C143", "title": "Requests to the data service and cached access", "statement": "A query sends one request to its endpoint, with the parameters that are not none and with the key of the client unless it is used without one; other methods are refused without a request. A failed request raises the documented exception, or gives none where no exceptions are asked for. Data in the cache is given without a request. Data not in the cache is read from the service if the arguments say so, is stored if they say so, and is then given without a request.", "quantifier": "all clients, services, caches, parameters and arguments", "why_tests_cant": "arbitrary replies and states of the cache", "anchors": ["carbon/helpers/cryptocompare.py::CryptoCompare.query", "carbon/helpers/cryptocompare.py::CryptoCompare.cache_coinlist", "carbon/helpers/cryptocompare.py::CryptoCompare.write_cache"]}
{"id": "C144", "title": "Tables of prices from the data service", "statement": "A history is asked for with one request that has the frequency, symbols, exchange, limit and last date given; the table has one line per record with its date and the six values. An aggregated query asks once for each pair in order; the table of a field has a column for each pair with data, whose value at each date is that of the history, and the dates of all histories; the other tables of the result agree with it. Unknown frequencies and fields are refused. Arguments are passed on, and failures are reported as configured.", "quantifier": "all clients, services, pairs, fields, frequencies and histories", "why_tests_cant": "arbitrary numbers of pairs with different dates", "anchors": ["carbon/helpers/cryptocompare.py::CryptoCompare.query_freqlypair", "carbon/helpers/cryptocompare.py::CryptoCompare.aggr_query", "carbon/helpers/cryptocompare.py::CryptoCompare.reformat_raw_df"]}
{"id": "C145", "title": "Transactions asked of the SDK server carry what the caller gave", "statement": "A request for a trade, a new strategy, an update or a deletion is posted once, with the tokens, amounts, limits and overrides the caller gave; numbers become texts that read back as the same numbers; a missing deadline, input limit or minimum return is the loosest value, and a missing gas limit is a fixed positive one. An update names exactly the values that are set, and the marginal prices given. A transaction is submitted unchanged, with a field that says whether to sign it. The arguments of the caller are left as they were.", "quantifier": "all clients, servers, tokens, actions, limits, overrides and updates", "why_tests_cant": "arbitrary servers and dictionaries; a test would need a network", "anchors": ["carbon/sdk/carbonsdk0.py::CarbonSDK0.composeTradeByTargetTransaction", "carbon/sdk/carbonsdk0.py::CarbonSDK0.composeTradeBySourceTransaction", "carbon/sdk/carbonsdk0.py::CarbonSDK0.createBuySellStrategy", "carbon/sdk/carbonsdk0.py::CarbonSDK0.updateStrategy", "carbon/sdk/carbonsdk0.py::CarbonSDK0.StrategyUpdate.asdict", "carbon/sdk/carbonsdk0.py::CarbonSDK0.deleteStrategy", "carbon/sdk/carbonsdk0.py::CarbonSDK0.signsubmittx"]}
{"id": "C146", "title": "Balances, symbols, pairs and results are those that were asked for", "statement": "Balances, decimals and symbols are asked for once for all tokens; every token has the entry of the reply at its own place, balances in units of the token, and an incomplete reply is an error. The result of an asynchronous call is returned exactly if the server has it, and can be told from a call that still runs or is unknown. The pairs are those of the reply, with the tokens of the table of the client, and their text names them one by one. A question about liquidity names either pairs or two tokens; anything else is refused.", "quantifier": "all clients, servers, lists of tokens, addresses and replies", "why_tests_cant": "arbitrary replies and lists of tokens; a test would need a network", "anchors": ["carbon/sdk/carbonsdk0.py::CarbonSDK0.getERC20Balance", "carbon/sdk/carbonsdk0.py::CarbonSDK0.getERC20Decimals", "carbon/sdk/carbonsdk0.py::CarbonSDK0.getERC20Symbol", "carbon/sdk/carbonsdk0.py::CarbonSDK0.result", "carbon/sdk/carbonsdk0.py::CarbonSDK0.addr", "carbon/sdk/carbonsdk0.py::CarbonSDK0.pairs", "carbon/sdk/carbonsdk0.py::CarbonSDK0.hasLiquidityByPair"]}
{"id": "C147", "title": "Computed curve values agree with the exact curve up to rounding", "statement": "Where every operation is rounded with a relative error u, the amount sold for a payment, the marginal price, the x coordinate and the x intercept of an order curve differ from their exact values by a relative error of at most 12, 10, 8 and 3 times u (to first order), whatever the curve; so do the payment for a sale and a round trip of the two, and the effective price of a trade is defined however small the trade. Without rounding there is no difference.", "quantifier": "all order curves with positive end price, all amounts within the holdings, all roundings (in particular double precision without overflow)", "why_tests_cant": "an error bound is a statement about all floating-point inputs", "anchors": ["carbon/carbon_order_ui.py::CarbonOrderUI.dyfromdx_f", "carbon/carbon_order_ui.py::CarbonOrderUI.dxfromdy_f", "carbon/carbon_order_ui.py::CarbonOrderUI.p_marg_f", "carbon/carbon_order_ui.py::CarbonOrderUI.p_eff_f", "carbon/carbon_order_ui.py::CarbonOrderUI.xfromy_f", "carbon/carbon_order_ui.py::CarbonOrderUI.xint"]}
{"id": "C148", "title": "Rounding preserves the order of prices and amounts and the bounds on holdings", "statement": "In floating-point arithmetic, selling more never improves the computed marginal price, which stays within the computed price range; more holdings never raise the computed x coordinate; a larger sale never costs less, and a larger payment never buys less. Whatever sequence of sales, purchases and deposits is made, the holdings of a curve and of its linked curve stay between zero and the capacity, and after a sale they differ from the exact remainder by at most one rounding or the tolerance of 1e-10. The quoted payment for all holdings can be traded.", "quantifier": "all order curves, amounts, flags and sequences of actions; all monotone roundings (in particular double precision without overflow)", "why_tests_cant": "monotonicity and invariants in floating point concern all pairs of inputs and all histories", "anchors": ["carbon/carbon_order_ui.py::CarbonOrderUI.p_marg_f", "carbon/carbon_order_ui.py::CarbonOrderUI.xfromy_f", "carbon/carbon_order_ui.py::CarbonOrderUI.dxfromdy_f", "carbon/carbon_order_ui.py::CarbonOrderUI.dyfromdx_f", "carbon/carbon_order_ui.py::CarbonOrderUI.selly", "carbon/carbon_order_ui.py::CarbonOrderUI.buyx", "carbon/carbon_order_ui.py::CarbonOrderUI.addliqy"]}
{"id": "C149", "title": "Curves made from prices and trades to a price are right up to rounding", "statement": "In floating-point arithmetic a curve made from two prices has a non-negative slope, the holdings given, and a range whose ends differ from the prices given by a relative error of at most 9 and 5 times u. The amount to be sold to reach a price is never negative and never more than the holdings; it is larger the further the price is to move; trading to the end of the range or beyond sells everything and leaves exactly nothing; the holdings at which a price is reached are right up to a small part of the capacity; and a curve is found at its own marginal price.", "quantifier": "all order curves, prices and amounts; all monotone roundings whose root undoes the rounded square (in particular double precision without overflow)", "why_tests_cant": "the statements are about all floating-point prices and curves, and the failures hide in the last digit", "anchors": ["carbon/carbon_order_ui.py::CarbonOrderUI.from_prices", "carbon/carbon_order_ui.py::CarbonOrderUI.yfromp_f", "carbon/carbon_order_ui.py::CarbonOrderUI.dyfromp_f", "carbon/carbon_order_ui.py::CarbonOrderUI.tradeto", "carbon/carbon_order_ui.py::CarbonOrderUI.selly"]}
{"id": "C150", "title": "Widgets report what was set and clicked", "statement": "A group of check boxes has one box for every choice, with the text, the initial value and the state asked for; after any clicks every box reports the last one on it, the checked and unchecked ids are those of the boxes in that state, and every object is returned for exactly one of the two states. Sliders show the fractions asked for, and after any moves a value between their bounds. A drop-down list shows the option asked for with its label, and then whatever was last chosen. Lists of the wrong length, and defaults that do not exist, raise ValueError.", "quantifier": "all choices, values, labels, objects and bounds, and all sequences of clicks and moves", "why_tests_cant": "tests would need a browser, and the failures need repeated ids, values that are not texts or lists of the wrong length", "anchors": ["carbon/helpers/widgets.py::CheckboxManager", "carbon/helpers/widgets.py::PcSliderManager", "carbon/helpers/widgets.py::DropdownManager"]}
{"id": "C151", "title": "Trades book what the router reports, up to the twelfth decimal", "statement": "With the amounts rounded as the routers report them, floats with 12 decimals, along any history every order's holdings stay at or below its capacity and at or above minus half a unit of the twelfth decimal and two roundings of the capacity; an executed trade changes the total holdings of every token by exactly the sums of the amounts recorded for its routes, and these sums differ from the aggregate record by no more than the rounding errors of the amounts. The price recorded is the quotient of the amounts recorded, in the convention of the pair and up to two roundings, and an executed trade with a limit price has a recorded price within the limit. Without rounding the trades are those of the exact model.", "quantifier": "all histories, routers, arguments and all roundings with a given absolute and relative error", "why_tests_cant": "tests use round amounts, compare with tolerances and end long before an order is exactly used up", "anchors": ["carbon/routers/base_router.py::BaseRouter.frmt", "carbon/routers/exact_base_router.py::ExactBase.match", "carbon/routers/fast_router.py::FastRouter.match", "carbon/simulators/carbon_simulator.py::CarbonSimulatorUI._trade"]}
{"id": "C152", "title": "Linked orders as objects: who is changed by a trade", "statement": "Whatever is called on whichever order objects, and however these are linked: no object changes but the one called and the one it is linked to, identifiers and links once set never change, tokens and price ranges never change, capacities never shrink, and valid orders stay valid. In a group of orders each of which is linked to another one of the group that sells another token, along any sequence of sales the group's holdings of every token are the initial ones plus the net inflow reported. An order that is linked to itself holds after a sale what the report says; comparing two orders by == has a result, which is true just for orders with the same contents.", "quantifier": "all graphs of links, including shared linked orders, cycles and self-links, all sequences of calls and arguments", "why_tests_cant": "tests link two orders to each other and sell once", "anchors": ["carbon/carbon_order_ui.py::CarbonOrderUI.selly", "carbon/carbon_order_ui.py::CarbonOrderUI.buyx", "carbon/carbon_order_ui.py::CarbonOrderUI.addliqy", "carbon/carbon_order_ui.py::CarbonOrderUI.set_linked", "carbon/carbon_order_ui.py::CarbonOrderUI.set_id", "carbon/carbon_order_ui.py::CarbonOrderUI.lid"]}
{"id": "C153", "title": "Curves shared between containers, and their dictionaries", "statement": "Whatever containers are made of the same curve objects, added to and selected from: a curve changes in nothing but that it may get an id, which it then keeps, and in its scale; containers not called do not change. In every container a curve is in it just if an equal one was put in, the position found is that of the last equal one, the curve found by an id has this id, and an id that a curve of it has finds one. Different curves without id are numbered by position and found by it. The curves of a container have its scale. Curves made from the dictionary of a curve, and containers made from the dictionaries or the table of a container, have the same curves. Looking up a parameter gives its value or the default.", "quantifier": "all heaps of curve objects, equal and identical ones, all sequences of calls", "why_tests_cant": "tests make one container of fresh curves", "anchors": ["carbon/tools/cpc.py::CPCContainer.__init__", "carbon/tools/cpc.py::CPCContainer.add", "carbon/tools/cpc.py::CPCContainer.curveix", "carbon/tools/cpc.py::CPCContainer.bycid", "carbon/tools/cpc.py::CPCContainer.asdicts", "carbon/tools/cpc.py::CPCContainer.asdf", "carbon/tools/cpc.py::CPCContainer.from_df", "carbon/tools/cpc.py::ConstantProductCurve.asdict", "carbon/tools/cpc.py::ConstantProductCurve.from_dict", "carbon/tools/cpc.py::ConstantProductCurve.P", "carbon/tools/cpc.py::ConstantProductCurve.setcid"]}
{"id": "C154", "title": "The previous alpha router", "statement": "Matching with the previous alpha router succeeds whenever some choice of at most the permitted number of orders can fill the amount; it then trades the amount exactly, with orders that are next to each other in the ranking by price, the best priced ones if these suffice, and at the best total for these orders.", "quantifier": "every list of well-formed orders, every amount and number of orders", "why_tests_cant": "combinatorial over all choices of orders and continuous in the amounts", "anchors": ["carbon/routers/alpha_router_orig.py::AlphaRouter.match_by_target", "carbon/routers/alpha_router_orig.py::AlphaRouter.match_by_src", "carbon/routers/alpha_router_orig.py::AlphaRouter.match"]}
{"id": "C155", "title": "What the result of the convex optimizer reports after the solver has returned", "statement": "The reported trades are the solver's values converted to token units, one per curve; a result is an error unless the solver has confirmed an optimum and has not raised, and then gives no adjusted curves, no trade instructions and no table; at a confirmed optimum there is one instruction per pool that trades, the instructions bring the required net amount of every constrained token and the objective's value of the optimized one, and the adjusted curves hold what the reported trades leave.", "quantifier": "for all containers, constraints, token scales and whatever the solver leaves behind (status, value, message, variable values)", "why_tests_cant": "the solver is an external program with several optima to choose from; a test sees the one point that the installed solver happens to return for a few pools", "anchors": ["carbon/tools/optimizer.py::CPCArbOptimizer.NofeesOptimizerResult", "carbon/tools/optimizer.py::CPCArbOptimizer.ConvexOptimizerResult", "carbon/tools/optimizer.py::ScaledVariable", "carbon/tools/optimizer.py::CPCArbOptimizer.nofees_optimizer", "carbon/tools/optimizer.py::CPCArbOptimizer.adjust_curves"]}
{"id": "C156", "title": "A trade through the exact router can be split, reversed into a payment, and enlarged consistently", "statement": "A request that the exact router can fill leaves the orders it may use at one common price. So buying an amount at once, or a part of it and then the rest from the orders as the first purchase left them, costs the same in total and leaves every order with the same holdings; the same holds for paying an amount at once or in two parts; paying what a purchase cost brings exactly that purchase, from the same orders. A larger purchase takes no less from any order and costs no less per unit; a larger payment brings no less in total and no more per unit paid. Each further part of a purchase costs strictly more per unit than the part before it, and each further part of a payment brings strictly less per unit.", "quantifier": "all books of well-formed orders, all choices of usable positions, all pairs of amounts within the liquidity (by target) or within what all holdings cost (by source)", "why_tests_cant": "equality of two execution paths over every split and every book is a statement about the optimum of the router, which a test can sample only at single splits and with a float tolerance", "anchors": ["carbon/routers/exact_base_router.py::ExactBase.match", "carbon/routers/exact_router_x0y0n.py::ExactRouterX0Y0N"]}
{"id": "C157", "title": "The order book shown for a simulator with the exact method has rising asks, falling bids and no negative liquidity", "statement": "Simulate trades of increasing sizes of the base token on a simulator with the exact method, one after another, and make an order book of the sizes and the amounts reported. None of the simulated trades fails or changes an order; a size that the book cannot serve is reported as missing. The order book then has exactly the sizes that can be served, each with its own amount. On the ask side the marginal prices strictly rise, and the effective prices rise and stay below the marginal price of the last part; on the bid side the marginal prices strictly fall, and the effective prices fall and stay above it. The liquidity is never negative and is shown at prices strictly between neighbouring marginal prices.", "quantifier": "all simulators that a sequence of calls can reach with well-formed linked orders, all pairs, all strictly increasing positive sizes of which at least two can be served, any number beyond what can be served", "why_tests_cant": "the shape of the book follows from convexity of the optimal routing over arbitrary order sets and from the order of the simulated calls leaving no trace; a test shows it for one book and one grid of sizes", "anchors": ["carbon/simulators/sim_analytics.py::Analytics.simulate_trades", "carbon/simulators/sim_analytics.py::OrderBook.__init__", "carbon/simulators/sim_analytics.py::OrderBook.marg_prices", "carbon/simulators/sim_analytics.py::OrderBook.ob_liquidity"]}
{"id": "C158", "title": "However a trader splits trades with an encoded order into payments and purchases, they never beat the exact curve or the trade at once, and splitting costs a few units per part", "statement": "Trade with one encoded order in any sequence of payments (the order quotes what it gives) and purchases (the order quotes what is to be paid), each quoted on the order as the trades before have left it. In total the trader pays at least what the exact curve of the order asks for all they have received, and receives at most what the curve gives for all they have paid; the order never gives more than it holds. A purchase of the total at once costs no more than the purchases one by one, and a payment of the total at once brings no less than the payments one by one, if the numbers fit without losing precision. The other way round, purchases one by one cost at most four units per part more than the exact curve and than the purchase at once, and payments one by one bring at most one unit per further part less than the payment at once.", "quantifier": "all encoded orders, all sequences of payments and purchases that the order quotes, of any length, in every regime of the size of the numbers for the first claim", "why_tests_cant": "rounding can favour the trader in one quote and not in another; whether any split of any length can accumulate it is not settled by trying splits", "anchors": ["benchmark/core/trade/impl.py::tradeBySourceAmount", "benchmark/core/trade/impl.py::tradeByTargetAmount"]}
{"id": "C159", "title": "The exact router fills an amount in full or refuses it, with or without its check of the liquidity", "statement": "Matching an amount by target with the exact router either sells exactly the amount or raises. With the check of the liquidity switched off, amounts that the orders hold are matched as with it, at the least cost; matching by source does not depend on the check; matching nothing raises; amounts of the wrong sign are refused.", "quantifier": "all lists of well-formed orders, all positions, all amounts of either sign, with and without the check and partial fills", "why_tests_cant": "the amounts at which a match is accepted though it is short, and the amounts of the wrong sign, are regions of the input that the tests of the router do not visit", "anchors": ["carbon/routers/exact_base_router.py::ExactBase.match", "carbon/routers/exact_base_router.py::ExactBase.match_by_src", "carbon/routers/exact_base_router.py::ExactBase.match_by_target"]}
{"id": "C160", "title": "What is saved to a file is what is loaded from it", "statement": "Loading a file with the options it was saved with gives the data saved, for texts, bytes and objects, compressed or not and with or without a wrapper. A save changes no other file, and a save that raises leaves the file as it was.", "quantifier": "all data, file names, directories, options and contents of the disk", "why_tests_cant": "texts with foreign newlines, the combinations of the options, and the state of the disk after an error are not in the examples of the tests", "anchors": ["carbon/helpers/fls.py::fsave", "carbon/helpers/fls.py::fload", "carbon/helpers/fls.py::join"]}
{"id": "C161", "title": "The best match is never worse than the fast one", "statement": "For every book and amount the best match by source pays out at least what the fast match pays out for no more input, and the best match by target charges at most what the fast match charges for no less. The benchmark asserts this for its samples.", "quantifier": "all books of encoded orders and all amounts, by source and by target", "why_tests_cant": "the assertion of the benchmark runs over four files of sample books; the books for which it fails need an order that is small, starts at a good rate and ends at a bad one", "anchors": ["benchmark/core/match/impl.py::matchBest", "benchmark/core/match/impl.py::matchFast", "benchmark/core/match/impl.py::matchBySourceAmount", "benchmark/core/match/impl.py::matchByTargetAmount", "benchmark/test_match.py::run"]}
{"id": "C162", "title": "The best match by target clears the orders at one rate, and no other match costs less", "statement": "Take an amount such that at some marginal rate the orders above the rate, each sold down to it or sold out, together give the amount, and let these orders be quoted before the others. Then the best match by target takes exactly these shares and the amount in full, and every other way to take at least the amount from the orders is charged no less, up to four units and the price of one unit per order.", "quantifier": "all books of encoded orders with a price range, all quote orders, all amounts for which there is a clearing rate, and all other distributions of at least the amount that the orders quote", "why_tests_cant": "the claim compares the match with every other distribution over the orders; a test can compare it with the fast match only", "anchors": ["benchmark/core/match/impl.py::matchBest", "benchmark/core/match/impl.py::equalizeByTargetAmount", "benchmark/core/match/impl.py::getLimit", "benchmark/core/match/impl.py::matchByTargetAmount"]}
{"id": "C163", "title": "Notebooks become test files with one function for each section", "statement": "Converting a notebook to a test file keeps the code before the first section and makes one function of each section, in the order of the notebook, with exactly the lines of the section, indented; a section is run as a test exactly if its title does not end in [NOTEST], and ends in [TEST] or the setting of the notebook says so. No test is lost: different notebooks are written to different files, different sections become different functions, every function can be run, and what one notebook says does not change what another becomes.", "quantifier": "all file names, notebooks, titles, settings, paths and sequences of files", "why_tests_cant": "the converter produces the tests themselves, so that a test it loses is not noticed by running the tests; the claims range over all texts", "anchors": ["resources/NBTest/ConvertNBTest.py::filterfn", "resources/NBTest/ConvertNBTest.py::funcn", "resources/NBTest/ConvertNBTest.py::process_code"]}
{"id": "C164", "title": "What a list of orders releases when the market moves to a price is rising, cheapest and complete", "statement": "Take orders on one side of a pair and add up what each releases, and receives, when the market moves to a price. At every price both sums are defined and within the holdings; they rise as the market moves on, at a rate between the prices; the effective price rises and stays on the near side of the market price, and for one order is the average of its marginal prices. Nobody can take at least as much from the orders for less, however the amount is distributed, and every amount up to the holdings is released at some price.", "quantifier": "all lists of orders on one side of a pair, all positive prices, all amounts and all other distributions of an amount over the orders", "why_tests_cant": "the claims compare all prices with each other and the release with every other distribution; the plots of the notebook show one list on a grid of prices", "anchors": ["CarbonCurves.py::dy_f", "CarbonCurves.py::dx_f", "carbon/carbon_order_ui.py::CarbonOrderUI.dyfromp_f", "carbon/carbon_order_ui.py::CarbonOrderUI.dxfromdy_f", "carbon/carbon_order_ui.py::CarbonOrderUI.p_marg_f"]}
{"id": "C165", "title": "Every exported formula of the whitepaper calculations holds for every pool, and the equations of the pool describe one curve", "statement": "Take a pool: a constant-product curve with leverage, of which the excess over the reference point is virtual, and read everything else off this curve: its intercepts, slopes and asymptotes, the marginal price, and the changes of the reserves in a trade. Then every equation of the exported collection holds, under the key it is given. The equations of the pool, in all parameterizations, are satisfied by exactly the reserves on the curve; the swap equations hold for exactly the trades that stay on it; what is isolated from an equation is equivalent to it; and a reference price satisfies the equation of constant marginal price exactly if the pool shows that price.", "quantifier": "all pools, all states of their range, all trades and all keys of the collection", "why_tests_cant": "an identity between formulas that contain roots must hold for all parameters; the notebook shows formulas to the eye and simplifies three differences to zero", "anchors": ["resources/whitepaper/CarbonCalculations.py::FORMULAS", "resources/whitepaper/CarbonCalculations.py::PIE", "resources/whitepaper/CarbonCalculations.py::BSSE", "resources/whitepaper/CarbonCalculations.py::YMPE", "resources/whitepaper/formulalib.py::Formulas.add"]}
{"id": "C166", "title": "Calculating with equations gives valid equations, and it is known which steps can be undone", "statement": "Every operation of the extended equations (sum, difference, product, quotient and power of equations or with an expression, inversion) takes equations that hold to one that holds. Adding or subtracting an expression, changing the sign, exchanging the sides, inverting and bringing all to one side lose nothing; multiplying and dividing lose nothing if the factor is not zero. Substituting an equation that holds does not change what an equation says, and substituting the definition of a symbol eliminates it.", "quantifier": "all equations, expressions and values of the symbols", "why_tests_cant": "the operations are meant for arbitrary formulas", "anchors": ["resources/whitepaper/sympyx.py::XEq", "resources/whitepaper/sympyx.py::XEq.subs_eq", "resources/whitepaper/sympyx.py::XEq.__rtruediv__", "resources/whitepaper/sympyx.py::XEq.invert"]}
{"id": "C167", "title": "Every order with a price range is a pool of the whitepaper, and trading with it follows the curve", "statement": "Take an order that has a price range. There is a pool in the sense of the whitepaper calculations, that is, a leveraged constant-product curve from which all symbols are read off, such that the attributes of the order (intercepts, B and S, Q, Gamma, kappa, reference point, asymptotes, bounding prices, marginal price) are the values of the symbols of the same name, and such that the order's holding and the amount computed from it are the state of the pool. What the order gives for a payment and what it asks for an amount move the pool along its curve, and what it keeps at a price solves the marginal price equation with the positive root.", "quantifier": "all orders with positive width of the range and any holding, all payments and amounts the order can give, all prices between the lower bound and the marginal price", "why_tests_cant": "order class and whitepaper formulas are written in different parameterizations; agreement is an identity of formulas with roots over a continuum", "anchors": ["carbon/carbon_order_ui.py::CarbonOrderUI", "carbon/carbon_order_ui.py::CarbonOrderUI.xfromy_f", "carbon/carbon_order_ui.py::CarbonOrderUI.dyfromdx_f", "carbon/carbon_order_ui.py::CarbonOrderUI.dxfromdy_f", "carbon/carbon_order_ui.py::CarbonOrderUI.yfromp_f", "resources/whitepaper/CarbonCalculations.py::FORMULAS"]}
{"id": "C168", "title": "What the benchmark of the trade functions accepts, and what a run of it leaves behind", "statement": "A result is accepted exactly if it is within the absolute or the relative tolerance of the expected value. A run of the benchmark on a file of trades ends without an error exactly if every trade is accepted; the file then has the same trades with the two results filled in, running again changes nothing, and a run that fails leaves the file as it was. Trades with full orders are accepted whenever the tolerance covers four units and a relative error that shrinks with the rate.", "quantifier": "all expected and actual values, all tolerances, all files of trades, all full orders and amounts", "why_tests_cant": "the benchmark is a test itself; which wrong results it would accept, and which right ones it would reject, is not seen on its samples", "anchors": ["benchmark/core/__init__.py::assertAlmostEqual", "benchmark/test_trade.py::run", "benchmark/util/__init__.py::write", "benchmark/core/trade/impl.py::execute", "benchmark/core/trade/spec.py::execute"]}
{"id": "C169", "title": "The table of amounts for sale per tick accounts for the whole of the orders", "statement": "For a file of sell orders that is accepted, the table of ticks starts at the lowest price of the orders, is spaced by the tick size, and ends above their highest price by at most a tick and one. Each row has the amount that the orders together sell while the price falls through the tick, which is never negative, and the rows add up to the amounts of the orders. The same holds for the table by number of buckets between the lowest and the highest price.", "quantifier": "all files of orders with positive prices and amounts, all positive tick sizes, all numbers of buckets from two", "why_tests_cant": "the demo shows one file and two settings; that nothing is lost or counted twice for any overlap of the orders and any remainder of the tick size is not seen from it", "anchors": ["resources/demo/CarbonSim-Demo-3-3-Big_Orderbook_NW.py::import_orders", "resources/demo/CarbonSim-Demo-3-3-Big_Orderbook_NW.py::calc_new_buckets", "resources/demo/CarbonSim-Demo-3-3-Big_Orderbook_NW.py::sellDepthByTick", "resources/demo/CarbonSim-Demo-3-3-Big_Orderbook_NW.py::sellDepthByBuckets", "resources/demo/CarbonSim-Demo-3-3-Big_Orderbook_NW.py::decumulate"]}
{"id": "C170", "title": "The best match by source clears the orders at one rate, and no other payment buys more", "statement": "Take an amount such that at some marginal rate the payments that bring the orders above the rate down to it sum to the amount, none of these orders being sold out, and let these orders be quoted before the others and in the order of their marginal rates. Then the best match by source makes exactly these payments and pays the amount in full. Every other way to pay at most the amount to the orders, within what they hold, buys no more than the match does, up to five units and what four units buy at the rate per order and the relative step of the stored rates.", "quantifier": "all books and amounts for which there is such a rate, all orders with a price range whose numbers fit the 256 bits without rescaling, all alternative payments", "why_tests_cant": "the benchmark compares the best match to the fast one for its samples; that no other split of the payment buys more is a claim about all splits", "anchors": ["benchmark/core/match/impl.py::matchBest", "benchmark/core/match/impl.py::equalizeBySourceAmount", "benchmark/core/match/impl.py::rateBySourceAmount", "benchmark/core/match/impl.py::getLimit"]}
{"id": "C171", "title": "The benchmark of the matches passes exactly the files whose best matches are no worse than the fast ones", "statement": "A run over a file of matches ends without an error exactly if for every test both matches have an action, neither takes more than the amount, every action is within what its order holds and at the order's own price, and the best match is no worse than the fast one in what it pays and in what it receives. Then the file has the same tests with the actions found, and another run leaves it as it is; otherwise the file is left as it was. By target the checks of the single actions cannot fail, nor can that of the total of the fast match; by source those of the best match cannot fail, and the totals follow. A test with one order passes whenever its quote is for positive amounts.", "quantifier": "all files, orders, amounts and both methods", "why_tests_cant": "the benchmark is itself a test: which of its assertions can fail at all, and for which books, is a statement about all books", "anchors": ["benchmark/test_match.py::run", "benchmark/core/match/impl.py::execute", "benchmark/core/match/impl.py::matchBy", "benchmark/util/__init__.py::write"]}
{"id": "C172", "title": "The best match by target takes every amount in full at nearly the least cost", "statement": "Let the orders be quoted in descending order of their marginal rates and hold at least the amount. Unless the correction of the rounding assigns a negative amount or an amount without a quote to an order, the best match by target takes exactly the amount, whether or not there is a rate at which the orders are cleared. Every other way to take at least the amount from the orders is charged no less, up to four units and the price of one unit per order and the price of what the orders give for two units of the last place of the rate, all at the lowest rate.", "quantifier": "all books of encoded orders with a price range, all amounts that they hold, and all other distributions of at least the amount that the orders quote", "why_tests_cant": "the search for the rate ends between two rates for almost all amounts and the rounding is then corrected order by order; the claim compares the result with every other distribution over the orders", "anchors": ["benchmark/core/match/impl.py::matchBest", "benchmark/core/match/impl.py::equalizeByTargetAmount", "benchmark/core/match/impl.py::getLimit", "benchmark/core/match/impl.py::matchByTargetAmount"]}
{"id": "C173", "title": "The text of a formula for the graphing calculator is unambiguous", "statement": "The text has no asterisk. A formula is converted part by part, wherever it is divided except between two asterisks, and parts without signs are kept. Different formulas have different texts, where blanks are written around a plus or minus between terms only. An equation gives the texts of its two sides; a key that is not in the container raises a KeyError even if the container is set not to raise.", "quantifier": "all texts of formulas, all equations, all containers and keys", "why_tests_cant": "five replacements act on each other's results, so that whether a sign is lost or doubled depends on what surrounds it", "anchors": ["resources/whitepaper/formulalib.py::to_desmos"]}
{"id": "C174", "title": "An optimizer that is saved to a file is read back", "statement": "An optimizer that was saved under a name is read back under this name, if it is of the class that is asked, and no other file changes. Optimizers saved with the time are read back under the name with the time, and are kept when others are saved later.", "quantifier": "all directories, names, objects, classes and times", "why_tests_cant": "the test of the repository saves with and without the time and reads one of the two back, so that it cannot tell which", "anchors": ["carbon/tools/optimizer.py::pickle", "carbon/tools/optimizer.py::unpickle"]}
{"id": "C175", "title": "Requests of the SDK about matches carry what the caller gave, at once or later", "statement": "A request for the actions of a match, for the parameters of a match or for the trade of given actions is posted once, to the interface the caller chose, with the tokens, the amount, the orders and the actions the caller gave; numbers that become texts can be read back. Two requests for the actions of a match that differ in the whole amount, the sense of the flag or the orders are different requests. If the server answers at once and later the same, then asking asynchronously and fetching the result gives what asking at once gives; if the choice is left to the client, its default decides.", "quantifier": "all clients, servers, amounts, flags, orders and actions", "why_tests_cant": "arbitrary servers and dictionaries; a test would need a network", "anchors": ["carbon/sdk/carbonsdk0.py::CarbonSDK0.getMatchActions", "carbon/sdk/carbonsdk0.py::CarbonSDK0.getMatchParams", "carbon/sdk/carbonsdk0.py::CarbonSDK0.getTradeDataFromActions"]}
{"id": "C176", "title": "The charts of an order book are in the units they state", "statement": "If all amounts of the source token are given in another unit, and all amounts of the target token too, then every series of the charts changes by the factor that its stated unit implies: amounts by the factor of their token, prices by the quotient, quoted either way, and the liquidity of the order book by the factor of the token it is stated in. The area under the order book is an amount of the target token. Series drawn against each other have the same number of points, and data frames hold the series under their names, filled up with NaN.", "quantifier": "all order books, tokens, positive factors and directions of quotation", "why_tests_cant": "a unit is a claim about all rescalings of the data; the charts in the repository are only looked at", "anchors": ["carbon/simulators/sim_analytics.py::OrderBook.data_tokenamount_chart", "carbon/simulators/sim_analytics.py::OrderBook.data_price_chart", "carbon/simulators/sim_analytics.py::OrderBook.data_orderbook_chart", "carbon/simulators/sim_analytics.py::OrderBook.ob_liquidity_u", "carbon/simulators/sim_analytics.py::OrderBook.pricesr_u"]}
{"id": "C177", "title": "The exact router does not depend on how the orders are listed, nor on the units", "statement": "If the same orders are listed in another order, at other positions, or named by another list of positions, the exact router takes the same amount from each of them and the total is the same, for purchases and for payments. Two orders with the same curve and the same holdings sell the same amount. If amounts of the two tokens are given in other units, the trades and totals are those in the other units.", "quantifier": "all lists of well-formed orders, rearrangements, lists of positions, positive factors and amounts", "why_tests_cant": "the number of arrangements of a book grows faster than any test suite, and the split is found by dropping orders one after the other, so its result could depend on the listing", "anchors": ["carbon/routers/exact_base_router.py::ExactBase.match", "carbon/routers/exact_router_x0y0n.py::ExactRouterX0Y0N", "carbon/order.py::Order.x0"]}
{"id": "C178", "title": "What a trade costs does not depend on the order in which the strategies were added", "statement": "If the same strategies are added to a simulator in two different orders, then a sale or purchase that the book can serve succeeds in both and states the same amounts. More generally, this holds for two simulators in which the orders that can serve the trade are the same up to their numbers and order.", "quantifier": "all simulators, lists of accepted strategies, rearrangements of them and amounts", "why_tests_cant": "the number of arrangements of strategies grows faster than any test suite, and only ties between orders show the difference", "anchors": ["carbon/simulators/carbon_simulator.py::CarbonSimulatorUI.add_strategy", "carbon/simulators/carbon_simulator.py::CarbonSimulatorUI.amm_sells", "carbon/simulators/carbon_simulator.py::CarbonSimulatorUI.amm_buys", "carbon/routers/exact_base_router.py::ExactBase.match", "carbon/routers/fast_router.py::FastRouter.match", "carbon/routers/alpha_router.py::AlphaRouter.match"]}
{"id": "C179", "title": "A strategy that is added and deleted again leaves no trace", "statement": "If a strategy is accepted after any history and then deleted by one of its order numbers, the deletion reports its two orders, and the orders, the trade log, the number of trades and the reported state are what they were before it was added. Every sequence of sales and purchases afterwards, executed or not, successful or not, is answered as if the strategy had never been added, and leaves the same orders and the same trade log. If further strategies were added before the deletion, trades are still answered with the same amounts as if the deleted strategy had never been added.", "quantifier": "all histories of a new simulator, accepted strategies, the two order numbers, and sequences of trades", "why_tests_cant": "histories before and sequences of trades after are unbounded, and the failing case occurs only for the first strategy of a simulator and only for one of its numbers", "anchors": ["carbon/simulators/carbon_simulator.py::CarbonSimulatorUI.add_strategy", "carbon/simulators/carbon_simulator.py::CarbonSimulatorUI.delete_order", "carbon/simulators/carbon_simulator.py::CarbonSimulatorUI.amm_sells", "carbon/simulators/carbon_simulator.py::CarbonSimulatorUI.amm_buys"]}
