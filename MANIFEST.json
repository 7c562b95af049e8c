{
 "claims": [
  {
   "property": "C01",
   "status": "proved",
   "theorems": [
    "Carbon.Prop.Trade.C01_roundtrip_greatest",
    "Carbon.Prop.Trade.C01_exact_below",
    "Carbon.Prop.Trade.C01_relative_loss"
   ],
   "note": ""
  },
  {
   "property": "C02",
   "status": "proved",
   "theorems": [
    "Carbon.Prop.Trade.C02_monotone",
    "Carbon.Prop.Trade.C02_representable_exact",
    "Carbon.Prop.Trade.C02_word_stable"
   ],
   "note": ""
  },
  {
   "property": "C03",
   "status": "proved",
   "theorems": [
    "Carbon.Prop.Trade.C03_payout_le_curve"
   ],
   "note": ""
  },
  {
   "property": "C04",
   "status": "proved",
   "theorems": [
    "Carbon.Prop.Trade.C04_cost_ge_curve"
   ],
   "note": ""
  },
  {
   "property": "C05",
   "status": "proved",
   "theorems": [
    "Carbon.Prop.Trade.C05_range",
    "Carbon.Prop.Trade.C05_nonpositive_source",
    "Carbon.Prop.Trade.C05_overflow_target"
   ],
   "note": ""
  },
  {
   "property": "C06",
   "status": "proved",
   "theorems": [
    "Carbon.Prop.Trade.C06_source_exact",
    "Carbon.Prop.Trade.C06_target_exact"
   ],
   "note": ""
  },
  {
   "property": "C07",
   "status": "proved",
   "theorems": [
    "Carbon.Prop.Trade.C07_galois",
    "Carbon.Prop.Trade.C07_target_of_source",
    "Carbon.Prop.Trade.C07_source_of_target",
    "Carbon.Prop.Trade.C07_underpaying"
   ],
   "note": ""
  },
  {
   "property": "C08",
   "status": "proved",
   "theorems": [
    "Carbon.Prop.Match.C08_total",
    "Carbon.Prop.Match.C08_total_input_le",
    "Carbon.Prop.Match.C08_each_order_once",
    "Carbon.Prop.Match.C08_filtered"
   ],
   "note": ""
  },
  {
   "property": "C09",
   "status": "proved",
   "theorems": [
    "Carbon.Prop.Match.C09_source",
    "Carbon.Prop.Match.C09_target"
   ],
   "note": ""
  },
  {
   "property": "C10",
   "status": "proved",
   "theorems": [
    "Carbon.Prop.Match.C10_fill"
   ],
   "note": ""
  },
  {
   "property": "C11",
   "status": "partial",
   "theorems": [
    "Carbon.Prop.Match.C11_generic_partial",
    "Carbon.Prop.Match.C11_target_partial",
    "Carbon.Prop.Match.C11_source_partial",
    "Carbon.Prop.Match.C11_violated",
    "Carbon.Prop.Match.C11_violated_end_to_end"
   ],
   "note": "False for the code as written: C11_violated exhibits a book on which a request of 1e11 is matched with 3.6e12. The _partial theorems show the sum is bounded before filtering."
  },
  {
   "property": "C12",
   "status": "proved",
   "theorems": [
    "Carbon.CarbonPair.C12_value",
    "Carbon.CarbonPair.C12_roundtrip",
    "Carbon.CarbonPair.C12_other",
    "Carbon.CarbonPair.C12_none_iff"
   ],
   "note": ""
  },
  {
   "property": "C13",
   "status": "proved",
   "theorems": [
    "Carbon.CarbonPair.C13_value",
    "Carbon.CarbonPair.C13_involution",
    "Carbon.CarbonPair.C13_none_iff",
    "Carbon.CarbonPair.C13_reverse_reverse",
    "Carbon.CarbonPair.C13_reverse_reciprocal",
    "Carbon.CarbonPair.C13_price"
   ],
   "note": ""
  },
  {
   "property": "C14",
   "status": "proved",
   "theorems": [
    "Carbon.CarbonPair.C14_buy",
    "Carbon.CarbonPair.C14_sell",
    "Carbon.CarbonPair.C14_foreign",
    "Carbon.CarbonPair.C14_reverse_has_no_effect"
   ],
   "note": ""
  },
  {
   "property": "C15",
   "status": "proved",
   "theorems": [
    "Carbon.CarbonPair.C15_accept_iff",
    "Carbon.CarbonPair.C15_reject",
    "Carbon.CarbonPair.C15_names",
    "Carbon.CarbonPair.C15_tokens",
    "Carbon.CarbonPair.C15_rebuild",
    "Carbon.CarbonPair.C15_ambiguous",
    "Carbon.CarbonPair.C15_slash_in_name"
   ],
   "note": ""
  },
  {
   "property": "C16",
   "status": "proved",
   "theorems": [
    "Carbon.UICurve.C16_dx_then_dy",
    "Carbon.UICurve.C16_dy_then_dx",
    "Carbon.UICurve.C16_iff"
   ],
   "note": ""
  },
  {
   "property": "C17",
   "status": "proved",
   "theorems": [
    "Carbon.UICurve.C17_x_then_y",
    "Carbon.UICurve.C17_execute"
   ],
   "note": ""
  },
  {
   "property": "C18",
   "status": "proved",
   "theorems": [
    "Carbon.UICurve.C18_two_pieces",
    "Carbon.UICurve.C18_split"
   ],
   "note": ""
  },
  {
   "property": "C19",
   "status": "proved",
   "theorems": [
    "Carbon.UICurve.C19_marginal_in_range",
    "Carbon.UICurve.C19_effective"
   ],
   "note": ""
  },
  {
   "property": "C20",
   "status": "proved",
   "theorems": [
    "Carbon.UICurve.C20_monotone",
    "Carbon.UICurve.C20_monotone_source"
   ],
   "note": ""
  },
  {
   "property": "C21",
   "status": "partial",
   "theorems": [
    "Carbon.UICurve.C21_never_overdrawn",
    "Carbon.UICurve.C21_all_or_nothing_partial",
    "Carbon.UICurve.C21_violated"
   ],
   "note": "Never overdrawn holds in full. All-or-nothing fails for negative amounts on linked curves (C21_violated); proved otherwise."
  },
  {
   "property": "C22",
   "status": "partial",
   "theorems": [
    "Carbon.UICurve.C22_self_unchanged",
    "Carbon.UICurve.C22_unlinked_partial",
    "Carbon.UICurve.C22_violated",
    "Carbon.UICurve.C22_same_quote"
   ],
   "note": "The curve itself is unchanged by a dry run (full). Its linked curve is credited even in a dry run (C22_violated)."
  },
  {
   "property": "C23",
   "status": "partial",
   "theorems": [
    "Carbon.UICurve.C23_reaches_price",
    "Carbon.UICurve.C23_beyond_end",
    "Carbon.UICurve.C23_wrong_side",
    "Carbon.UICurve.C23_flat_violated",
    "Carbon.UICurve.C23_capacity_changed"
   ],
   "note": "For curves with a proper range. Flat curves raise (C23_flat_violated)."
  },
  {
   "property": "C24",
   "status": "partial",
   "theorems": [
    "Carbon.Curve.C24_agree",
    "Carbon.Curve.C24_flat",
    "Carbon.Curve.C24_small_capacity_violated"
   ],
   "note": "For capacity at least one and a proper range. For smaller capacities the order's own hyperbola differs from the other formulas (C24_small_capacity_violated); flat orders only agree approximately (C24_flat)."
  },
  {
   "property": "C25",
   "status": "proved",
   "theorems": [
    "Carbon.FastRouter.C25_totals",
    "Carbon.FastRouter.C25_by_target",
    "Carbon.FastRouter.C25_by_source",
    "Carbon.FastRouter.C25_total",
    "Carbon.FastRouter.C25_best_first"
   ],
   "note": ""
  },
  {
   "property": "C26",
   "status": "proved",
   "theorems": [
    "Carbon.ExactRouter.C26_target",
    "Carbon.ExactRouter.C26_source"
   ],
   "note": ""
  },
  {
   "property": "C27",
   "status": "proved",
   "theorems": [
    "Carbon.AlphaRouter.C27_selector",
    "Carbon.AlphaRouter.C27_first_window"
   ],
   "note": ""
  },
  {
   "property": "C28",
   "status": "proved",
   "theorems": [
    "Carbon.Sim.C28_unique_ids",
    "Carbon.Sim.C28_fresh"
   ],
   "note": ""
  },
  {
   "property": "C29",
   "status": "proved",
   "theorems": [
    "Carbon.Sim.C29_links"
   ],
   "note": ""
  },
  {
   "property": "C30",
   "status": "partial",
   "theorems": [
    "Carbon.Sim.C30_missing",
    "Carbon.Sim.C30_delete_partial",
    "Carbon.Sim.C30_violated",
    "Carbon.Sim.C30_first_strategy_violated"
   ],
   "note": "Proved for every reachable state and every order but those linked to the order with id 0 (C30_delete_partial): that id counts as no link, so deleting the second order of the first strategy leaves the first (C30_violated, C30_first_strategy_violated)."
  },
  {
   "property": "C31",
   "status": "partial",
   "theorems": [
    "Carbon.Sim.C31_success",
    "Carbon.Sim.C31_failure_partial",
    "Carbon.Sim.C31_violated"
   ],
   "note": "Success adds exactly the two orders (C31_success). A failing call can leave the first order behind (C31_violated); what it can leave behind is C31_failure_partial."
  },
  {
   "property": "C32",
   "status": "partial",
   "theorems": [
    "Carbon.Sim.C32_conservation_partial",
    "Carbon.Sim.C32_history_partial",
    "Carbon.Sim.C32_violated"
   ],
   "note": "Any healthy book (and any history leading to one); fails for two pairs with the same concatenated name."
  },
  {
   "property": "C33",
   "status": "partial",
   "theorems": [
    "Carbon.Sim.C33_balances_partial",
    "Carbon.Sim.C33_negative_violated",
    "Carbon.Sim.C33_marginal_violated",
    "Carbon.Sim.C33_disabled_violated",
    "Carbon.Sim.C33_dust_violated"
   ],
   "note": "All histories of sensible strategies, deletions and trades; four concrete violations for other inputs."
  },
  {
   "property": "C34",
   "status": "proved",
   "theorems": [
    "Carbon.Sim.C34_dry_run"
   ],
   "note": ""
  },
  {
   "property": "C35",
   "status": "partial",
   "theorems": [
    "Carbon.Sim.C35_limit_price_partial",
    "Carbon.Sim.C35_limit_amt_partial",
    "Carbon.Sim.C35_violated"
   ],
   "note": "All calls but sales by the fast router, for which the limit is compared with the reciprocal price."
  },
  {
   "property": "C36",
   "status": "partial",
   "theorems": [
    "Carbon.Sim.C36_touched_partial",
    "Carbon.Sim.C36_name_violated",
    "Carbon.Sim.C36_positions_violated"
   ],
   "note": "All states and requests with a positive amount; by pair name rather than pair."
  },
  {
   "property": "C37",
   "status": "partial",
   "theorems": [
    "Carbon.CPC.C37_invariant",
    "Carbon.CPC.C37_reserves_partial",
    "Carbon.CPC.C37_other_side",
    "Carbon.CPC.C37_refuses",
    "Carbon.CPC.C37_accepts",
    "Carbon.CPC.C37_violated"
   ],
   "note": "Invariant, shifts and refusals for all curves and amounts. Only the given side is checked, so the other available reserve may become negative (C37_violated); non-negative under the stated condition (C37_reserves_partial)."
  },
  {
   "property": "C38",
   "status": "proved",
   "theorems": [
    "Carbon.CPC.C38_constructors",
    "Carbon.CPC.C38_univ2"
   ],
   "note": ""
  },
  {
   "property": "C39",
   "status": "proved",
   "theorems": [
    "Carbon.CPC.C39_bounds",
    "Carbon.CPC.C39_outside_violated",
    "Carbon.CPC.C39_from_range"
   ],
   "note": "Every sound curve, and the constructor from a price range. A price outside of the range is accepted by the constructor and yields an unsound curve (C39_outside_violated)."
  },
  {
   "property": "C40",
   "status": "proved",
   "theorems": [
    "Carbon.CPC.C40_optimal",
    "Carbon.CPC.C40_price",
    "Carbon.CPC.C40_unbounded"
   ],
   "note": ""
  },
  {
   "property": "C41",
   "status": "partial",
   "theorems": [
    "Carbon.CPC.C41_mirror",
    "Carbon.CPC.C41_view",
    "Carbon.CPC.C41_price_bounds_partial",
    "Carbon.CPC.C41_violated",
    "Carbon.CPC.C41_quotes",
    "Carbon.CPC.C41_execute",
    "Carbon.CPC.C41_to_price",
    "Carbon.Wrapped.C41_wrap"
   ],
   "note": "Everything but the price bounds of unbounded curves, which raise (C41_violated)."
  },
  {
   "property": "C42",
   "status": "partial",
   "theorems": [
    "Carbon.CPC.C42_from_carbon_partial",
    "Carbon.CPC.C42_from_prices_partial",
    "Carbon.CPC.C42_as_cpc_partial",
    "Carbon.CPC.C42_flat_violated",
    "Carbon.CPC.C42_from_carbon_violated",
    "Carbon.CPC.C42_widened_violated"
   ],
   "note": "Orders whose two prices differ. Orders with a single price cannot be converted (C42_flat_violated, C42_from_carbon_violated, C42_widened_violated)."
  },
  {
   "property": "C43",
   "status": "partial",
   "theorems": [
    "Carbon.CC.C43_lookup",
    "Carbon.CC.C43_exclude",
    "Carbon.CC.C43_include_partial",
    "Carbon.CC.C43_bypair_partial",
    "Carbon.CC.C43_bypairs",
    "Carbon.CC.C43_bytokens",
    "Carbon.CC.C43_order_violated",
    "Carbon.CC.C43_bypair_violated"
   ],
   "note": "Lookup by id, exclusion, directed pairs, lists of pairs and tokens are proved. Selection by a list of ids follows the order of that list and repeats ids given twice (C43_order_violated); an undirected pair lists the curves of the pair before those of the reverse and a curve between a token and itself twice (C43_bypair_violated)."
  },
  {
   "property": "C44",
   "status": "proved",
   "theorems": [
    "Carbon.TPair.C44_exactly_one",
    "Carbon.TPair.C44_same_name",
    "Carbon.TPair.C44_price",
    "Carbon.TPair.C44_numeraire"
   ],
   "note": ""
  },
  {
   "property": "C45",
   "status": "partial",
   "theorems": [
    "Carbon.Arb.C45_consistent",
    "Carbon.Arb.C45_index",
    "Carbon.Arb.C45_lookup",
    "Carbon.Arb.C45_type",
    "Carbon.Arb.C45_type_rejected",
    "Carbon.Arb.C45_ends",
    "Carbon.Arb.C45_found_partial",
    "Carbon.Arb.C45_found_violated",
    "Carbon.Arb.C45_index_violated"
   ],
   "note": "Proved for every sequence of operations (C45_consistent and its corollaries). Finding each node under its token needs that add_node is not called for a token that already has a node (C45_found_partial, C45_found_violated); adding the same node object twice breaks its index (C45_index_violated)."
  },
  {
   "property": "C46",
   "status": "partial",
   "theorems": [
    "Carbon.Arb.C46_transport",
    "Carbon.Arb.C46_dry",
    "Carbon.Arb.C46_set",
    "Carbon.Arb.C46_reset",
    "Carbon.Arb.C46_success",
    "Carbon.Arb.C46_exhaust",
    "Carbon.Arb.C46_atomic_violated"
   ],
   "note": "A recorded transport that fails is not undone (C46_atomic_violated); everything stated about successful transports is proved, with the tolerance 1e-10 of the code."
  },
  {
   "property": "C47",
   "status": "partial",
   "theorems": [
    "Carbon.Arb.C47_cycles",
    "Carbon.Arb.C47_run",
    "Carbon.Arb.C47_token",
    "Carbon.Arb.C47_other_token",
    "Carbon.Arb.C47_broken",
    "Carbon.Arb.C47_connection_violated",
    "Carbon.Arb.C47_remaining_violated"
   ],
   "note": "Proved for edges with positive amounts against their capacities. The run gives negative profits on graphs of connection edges and ignores what earlier recorded transports have used (C47_connection_violated, C47_remaining_violated)."
  },
  {
   "property": "C48",
   "status": "partial",
   "theorems": [
    "Carbon.Arb.Cycle.C48_items",
    "Carbon.Arb.Cycle.C48_empty",
    "Carbon.Arb.Cycle.C48_pairs",
    "Carbon.Arb.Cycle.C48_pairs_all",
    "Carbon.Arb.Cycle.C48_start",
    "Carbon.Arb.Cycle.C48_start_missing",
    "Carbon.Arb.Cycle.C48_names_violated",
    "Carbon.Arb.Cycle.C48_names_partial"
   ],
   "note": "The slash-separated pairs ignore the entry point (C48_names_violated)."
  },
  {
   "property": "C49",
   "status": "partial",
   "theorems": [
    "Carbon.Opt.C49_instruction",
    "Carbon.Opt.C49_symmetric",
    "Carbon.Opt.C49_same_sign",
    "Carbon.Opt.C49_same_token",
    "Carbon.Opt.C49_prices",
    "Carbon.Arb.C49_edge",
    "Carbon.Arb.C49_edge_same_sign_partial",
    "Carbon.Arb.C49_zero_side_violated"
   ],
   "note": "Instructions: proved. Edges: a trade with one side zero is left out silently whatever its size (C49_zero_side_violated)."
  },
  {
   "property": "C50",
   "status": "partial",
   "theorems": [
    "Carbon.Opt.C50_unique",
    "Carbon.Opt.C50_terminates",
    "Carbon.Opt.C50_brackets_partial",
    "Carbon.Opt.C50_root_partial",
    "Carbon.Opt.C50_lower_root_violated",
    "Carbon.Opt.C50_reversed_violated",
    "Carbon.UICurve.C50_ui_terminates_partial",
    "Carbon.UICurve.C50_ui_brackets_partial",
    "Carbon.UICurve.C50_ui_root_partial",
    "Carbon.UICurve.C50_ui_negative_violated",
    "Carbon.UICurve.C50_ui_zero_violated"
   ],
   "note": "Both goal seeks terminate; bracketing is proved for the optimizer's one if the function is not zero at the lower end and the interval is not reversed (C50_lower_root_violated, C50_reversed_violated), for the order's one if the lower end is positive (C50_ui_negative_violated, C50_ui_zero_violated)."
  },
  {
   "property": "C51",
   "status": "partial",
   "theorems": [
    "Carbon.Params.C51_item",
    "Carbon.Params.C51_attribute_partial",
    "Carbon.Params.C51_reading",
    "Carbon.Params.C51_assignment",
    "Carbon.Params.C51_construct",
    "Carbon.Params.C51_set",
    "Carbon.Params.C51_stays",
    "Carbon.Params.C51_set_default_partial",
    "Carbon.Params.C51_set_default_violated",
    "Carbon.Params.C51_read_before_violated",
    "Carbon.Params.C51_add_violated",
    "Carbon.Params.C51_replicate_violated",
    "Carbon.Params.C51_attribute_violated"
   ],
   "note": "Reading, assignment and histories: proved. The first set_default is ignored unless an unknown name was read before (C51_set_default_violated, C51_read_before_violated), add is not atomic, replication forgets the defaults, names of methods cannot be read as attributes."
  },
  {
   "property": "C52",
   "status": "partial",
   "theorems": [
    "Carbon.TokenC.C52_ticker",
    "Carbon.TokenC.C52_address",
    "Carbon.TokenC.C52_case",
    "Carbon.TokenC.C52_accepts",
    "Carbon.TokenC.C52_consistent_partial",
    "Carbon.TokenC.C52_or_address",
    "Carbon.TokenC.C52_duplicates_violated",
    "Carbon.TokenC.C52_restore_violated",
    "Carbon.TokenC.C52_containsall_violated",
    "Carbon.TokenC.C52_blank"
   ],
   "note": "Lookups by ticker and address: proved for every accepted list; they agree with each other if the tickers differ. Balanced duplicates are accepted (C52_duplicates_violated), restore never finds anything (C52_restore_violated)."
  },
  {
   "property": "C53",
   "status": "partial",
   "theorems": [
    "Carbon.FloatInt.C53_estimate",
    "Carbon.FloatInt.C53_store",
    "Carbon.FloatInt.C53_range",
    "Carbon.FloatInt.C53_largest",
    "Carbon.FloatInt.C53_monotone",
    "Carbon.FloatInt.C53_again",
    "Carbon.FloatInt.C53_fraction",
    "Carbon.FloatInt.C53_exponent_violated"
   ],
   "note": "Proved with exact binary digits, and the bounds for any estimate of their number. Only the size of the exponent is off by one (C53_exponent_violated)."
  },
  {
   "property": "C54",
   "status": "partial",
   "theorems": [
    "Carbon.Strat.C54_prices_partial",
    "Carbon.Strat.C54_once",
    "Carbon.Strat.C54_composes",
    "Carbon.Strat.C54_back",
    "Carbon.Strat.C54_zero",
    "Carbon.Strat.C54_cash_violated"
   ],
   "note": "Proved unless the cash amount is zero, which becomes 1e-10 (C54_cash_violated)."
  },
  {
   "property": "C55",
   "status": "partial",
   "theorems": [
    "Carbon.Strat.C55_ranges",
    "Carbon.Strat.C55_order_partial",
    "Carbon.Strat.C55_utilization",
    "Carbon.Strat.C55_wide_violated",
    "Carbon.Strat.C55_zero_width_violated"
   ],
   "note": "Ranges: proved. Middle, gap and width: proved for widths up to 1; wider ones are refused (C55_wide_violated), a zero among two widths raises TypeError."
  },
  {
   "property": "C56",
   "status": "proved",
   "theorems": [
    "Carbon.Prop.Trade.C56_source_accuracy",
    "Carbon.Prop.Trade.C56_target_accuracy"
   ],
   "note": ""
  },
  {
   "property": "C57",
   "status": "proved",
   "theorems": [
    "Carbon.Prop.Trade.C57_rate_greatest",
    "Carbon.Prop.Trade.C57_order"
   ],
   "note": ""
  },
  {
   "property": "C58",
   "status": "partial",
   "theorems": [
    "Carbon.Prop.Match.C58_target",
    "Carbon.Prop.Match.C58_source_partial",
    "Carbon.Prop.Match.C58_source_violated"
   ],
   "note": "By target in full. By source unless the order's payout for the amount exceeds its holdings (C58_source_partial); this happens after a quote that overflows, and then the trader is charged more than the order asks for what it pays (C58_source_violated)."
  },
  {
   "property": "C59",
   "status": "proved",
   "theorems": [
    "Carbon.Prop.Match.C59_each_order_once",
    "Carbon.Prop.Match.C59_source",
    "Carbon.Prop.Match.C59_target"
   ],
   "note": ""
  },
  {
   "property": "C60",
   "status": "partial",
   "theorems": [
    "Carbon.CarbonPair.C60_by_length",
    "Carbon.CarbonPair.C60_base_partial",
    "Carbon.CarbonPair.C60_quote_partial",
    "Carbon.CarbonPair.C60_violated",
    "Carbon.CarbonPair.C60_not_injective"
   ],
   "note": "Ambiguous token names are taken apart wrongly (C60_violated); proved for unambiguous ones."
  },
  {
   "property": "C61",
   "status": "partial",
   "theorems": [
    "Carbon.CarbonPair.C61_set",
    "Carbon.CarbonPair.C61_diff",
    "Carbon.CarbonPair.C61_from_slashpair_violated"
   ],
   "note": "from_slashpair drops decimals (C61_from_slashpair_violated)."
  },
  {
   "property": "C62",
   "status": "proved",
   "theorems": [
    "Carbon.UICurve.C62_from_prices",
    "Carbon.UICurve.C62_rejects",
    "Carbon.UICurve.C62_lower_case_violated"
   ],
   "note": "Proved for the pair's token names as the pair reports them; a lower-case spelling of the base token silently yields reciprocal prices (C62_lower_case_violated)."
  },
  {
   "property": "C63",
   "status": "proved",
   "theorems": [
    "Carbon.UICurve.C63_share",
    "Carbon.UICurve.C63_point_range"
   ],
   "note": ""
  },
  {
   "property": "C64",
   "status": "proved",
   "theorems": [
    "Carbon.UICurve.C64_buyx",
    "Carbon.UICurve.C64_too_much"
   ],
   "note": ""
  },
  {
   "property": "C65",
   "status": "proved",
   "theorems": [
    "Carbon.UICurve.C65_invariant"
   ],
   "note": ""
  },
  {
   "property": "C66",
   "status": "proved",
   "theorems": [
    "Carbon.UICurve.C66_from_Qxy"
   ],
   "note": ""
  },
  {
   "property": "C67",
   "status": "proved",
   "theorems": [
    "Carbon.UICurve.C67_step",
    "Carbon.UICurve.C67_history",
    "Carbon.UICurve.C67_not_stuck"
   ],
   "note": ""
  },
  {
   "property": "C68",
   "status": "partial",
   "theorems": [
    "Carbon.Curve.C68_from_prices",
    "Carbon.Curve.C68_default_capacity",
    "Carbon.Curve.C68_from_marginal",
    "Carbon.Curve.C68_roundtrip",
    "Carbon.Curve.C68_marginal_above_range_violated"
   ],
   "note": "A marginal price above the range is accepted and yields a capacity below the holdings (C68_marginal_above_range_violated)."
  },
  {
   "property": "C69",
   "status": "proved",
   "theorems": [
    "Carbon.ExactRouter.C69_by_target",
    "Carbon.ExactRouter.C69_insufficient"
   ],
   "note": ""
  },
  {
   "property": "C70",
   "status": "proved",
   "theorems": [
    "Carbon.ExactRouter.C70_by_source",
    "Carbon.ExactRouter.C70_capital_exists"
   ],
   "note": ""
  },
  {
   "property": "C71",
   "status": "partial",
   "theorems": [
    "Carbon.AlphaRouter.C71_by_target",
    "Carbon.AlphaRouter.C71_by_target_insufficient",
    "Carbon.AlphaRouter.C71_by_target_most",
    "Carbon.AlphaRouter.C71_best_priced",
    "Carbon.AlphaRouter.C71_counted_le",
    "Carbon.AlphaRouter.C71_by_source_partial",
    "Carbon.AlphaRouter.C71_by_source_violated",
    "Carbon.AlphaRouter.C71_no_default_violated"
   ],
   "note": "By target in full. By source an order is counted for less than it can take, so the match can fail although a choice of orders suffices (C71_by_source_violated); proved relative to what is counted (C71_by_source_partial). Without a number of orders matching by source raises (C71_no_default_violated)."
  },
  {
   "property": "C72",
   "status": "partial",
   "theorems": [
    "Carbon.CC.C72_numbering",
    "Carbon.CC.C72_unique_partial",
    "Carbon.CC.C72_violated"
   ],
   "note": "Holds if explicit ids are different strings, or if no ids are given; an explicit number can collide with a position (C72_violated)."
  },
  {
   "property": "C73",
   "status": "proved",
   "theorems": [
    "Carbon.CC.C73_price"
   ],
   "note": ""
  },
  {
   "property": "C74",
   "status": "partial",
   "theorems": [
    "Carbon.CC.C74_estimate_partial",
    "Carbon.CC.C74_agreement",
    "Carbon.CC.C74_reciprocal_violated"
   ],
   "note": "Bounds, existence and the case of agreement are proved; the two directions are not reciprocal (C74_reciprocal_violated): their product is at least one."
  },
  {
   "property": "C75",
   "status": "proved",
   "theorems": [
    "Carbon.AF.C75_herfindahl"
   ],
   "note": ""
  },
  {
   "property": "C76",
   "status": "proved",
   "theorems": [
    "Carbon.CC.C76_filter",
    "Carbon.CC.C76_unknown"
   ],
   "note": ""
  },
  {
   "property": "C77",
   "status": "proved",
   "theorems": [
    "Carbon.CC.C77_tokentable"
   ],
   "note": ""
  },
  {
   "property": "C78",
   "status": "partial",
   "theorems": [
    "Carbon.Arb.Cycle.C78_subcycle",
    "Carbon.Arb.Cycle.C78_rotation",
    "Carbon.Arb.Cycle.C78_trans",
    "Carbon.Arb.Cycle.C78_repeated_violated",
    "Carbon.Arb.Cycle.C78_empty",
    "Carbon.Arb.C78_filter"
   ],
   "note": "Proved if the larger cycle has no repeated node; with repeated nodes only the first visit is tried (C78_repeated_violated)."
  },
  {
   "property": "C79",
   "status": "proved",
   "theorems": [
    "Carbon.Opt.C79_balance",
    "Carbon.Opt.C79_instructions"
   ],
   "note": "At any positive prices; the search for the prices is C133."
  },
  {
   "property": "C80",
   "status": "proved",
   "theorems": [
    "Carbon.Opt.C80_optimal",
    "Carbon.Opt.C80_profit",
    "Carbon.Opt.C80_gap"
   ],
   "note": "At any positive prices, relative to the net amounts that the optimizer reports; the search for the prices is C133."
  },
  {
   "property": "C81",
   "status": "proved",
   "theorems": [
    "Carbon.Opt.C81_rest",
    "Carbon.Opt.C81_no_arbitrage"
   ],
   "note": "At any positive prices; curves are adjusted with exact arithmetic."
  },
  {
   "property": "C82",
   "status": "partial",
   "theorems": [
    "Carbon.Opt.C82_finishes_partial",
    "Carbon.Opt.C82_price",
    "Carbon.Opt.C82_optimal",
    "Carbon.Opt.C82_balance_partial",
    "Carbon.Opt.C82_single_violated",
    "Carbon.Opt.C82_balance_violated"
   ],
   "note": "The balance of the other token needs quote tokens in some pool (C82_balance_violated). After an exact hit of the goal seek AttributeError is raised, in exact arithmetic always for a single curve (C82_single_violated)."
  },
  {
   "property": "C83",
   "status": "proved",
   "theorems": [
    "Carbon.Opt.C83_build",
    "Carbon.Opt.C83_get",
    "Carbon.Opt.C83_arbitrage",
    "Carbon.Opt.C83_arb"
   ],
   "note": ""
  },
  {
   "property": "C84",
   "status": "proved",
   "theorems": [
    "Carbon.Opt.C84_quadratic",
    "Carbon.Opt.C84_cubic",
    "Carbon.Opt.C84_newton",
    "Carbon.Opt.C84_descent",
    "Carbon.Opt.C84_ascent",
    "Carbon.Opt.C84_parts",
    "Carbon.Opt.C84_converges"
   ],
   "note": ""
  },
  {
   "property": "C85",
   "status": "partial",
   "theorems": [
    "Carbon.SdkTkn.C85_round_trip",
    "Carbon.SdkTkn.C85_loss",
    "Carbon.SdkTkn.C85_default_violated"
   ],
   "note": "Proved for tokens with decimals; without them both conversions raise TypeError (C85_default_violated)."
  },
  {
   "property": "C86",
   "status": "proved",
   "theorems": [
    "Carbon.Strat.C86_value",
    "Carbon.Strat.C86_keeps",
    "Carbon.Strat.C86_rescale"
   ],
   "note": ""
  },
  {
   "property": "C87",
   "status": "partial",
   "theorems": [
    "Carbon.Strat.C87_ranges",
    "Carbon.Strat.C87_order",
    "Carbon.Strat.C87_seed_violated",
    "Carbon.Strat.C87_negative_violated"
   ],
   "note": "Ranges and amounts: proved. The risk amount can be zero (C87_seed_violated) and the buy prices negative (C87_negative_violated)."
  },
  {
   "property": "C88",
   "status": "partial",
   "theorems": [
    "Carbon.Arb.C88_add",
    "Carbon.Arb.C88_sum",
    "Carbon.Arb.C88_price",
    "Carbon.Arb.C88_mul",
    "Carbon.Arb.C88_reverse",
    "Carbon.Arb.C88_quotation",
    "Carbon.Arb.C88_comm",
    "Carbon.Arb.C88_order_violated"
   ],
   "note": "Everything is proved; the quoted price of a sum of edges with opposite quotations depends on the order of the summands (C88_order_violated)."
  },
  {
   "property": "C89",
   "status": "partial",
   "theorems": [
    "Carbon.Arb.C89_plain_partial",
    "Carbon.Arb.C89_consolidated_partial",
    "Carbon.Arb.C89_quotation_violated",
    "Carbon.Arb.C89_loops_violated"
   ],
   "note": "Tokens and amounts: proved. Without consolidation the quotation is lost (C89_quotation_violated); with consolidation self-loops and identifiers are lost (C89_loops_violated), and names have to be unique."
  },
  {
   "property": "C90",
   "status": "proved",
   "theorems": [
    "Carbon.Arb.C90_symmetric",
    "Carbon.Arb.C90_oneway",
    "Carbon.Arb.C90_curves",
    "Carbon.Arb.C90_multiplier",
    "Carbon.Arb.C90_broken",
    "Carbon.Arb.C90_roundtrip"
   ],
   "note": "Proved for every list of curves."
  },
  {
   "property": "C91",
   "status": "partial",
   "theorems": [
    "Carbon.Arb.C91_positive",
    "Carbon.Arb.C91_stats",
    "Carbon.Arb.C91_rejected",
    "Carbon.Arb.C91_bounds",
    "Carbon.Arb.C91_transport",
    "Carbon.Arb.C91_capacity",
    "Carbon.Arb.C91_pair",
    "Carbon.Arb.C91_node",
    "Carbon.Arb.C91_utilization_violated"
   ],
   "note": "Proved for every reachable graph; the utilization bound needs that no edge is overdrawn, which transports without raised errors can violate (C91_utilization_violated)."
  },
  {
   "property": "C92",
   "status": "partial",
   "theorems": [
    "Carbon.Univ3.C92_ticks",
    "Carbon.Univ3.C92_fee_refused",
    "Carbon.Univ3.C92_range",
    "Carbon.Univ3.C92_inverse",
    "Carbon.Univ3.C92_sp96",
    "Carbon.Univ3.C92_curve",
    "Carbon.Univ3.C92_curve_refused",
    "Carbon.Univ3.C92_reserves_partial",
    "Carbon.Univ3.C92_reserves_violated",
    "Carbon.Univ3.C92_boundary_violated",
    "Carbon.Univ3.C92_names",
    "Carbon.Univ3.C92_names_second",
    "Carbon.Univ3.C92_fee",
    "Carbon.Univ3.C92_names_violated"
   ],
   "note": "Range, prices and curve: proved. The reserves reported by the calculator agree with the curve exactly if the second token has three times the decimals of the first (C92_reserves_violated); a price at the lower end of the range gives no curve (C92_boundary_violated); names are replaced only if the first token is known (C92_names_violated)."
  },
  {
   "property": "C93",
   "status": "proved",
   "theorems": [
    "Carbon.CPC.C93_units",
    "Carbon.CPC.C93_full",
    "Carbon.CPC.C93_loss",
    "Carbon.CPC.C93_mirror",
    "Carbon.CPC.C93_ends",
    "Carbon.CPC.C93_emptied"
   ],
   "note": "Proved for every valid curve."
  },
  {
   "property": "C94",
   "status": "proved",
   "theorems": [
    "Carbon.TokenScale.C94_scale"
   ],
   "note": "Proved for every history of additions."
  },
  {
   "property": "C95",
   "status": "partial",
   "theorems": [
    "Carbon.EncodedOrder.C95_word",
    "Carbon.EncodedOrder.C95_negative",
    "Carbon.EncodedOrder.C95_rate",
    "Carbon.EncodedOrder.C95_agrees",
    "Carbon.EncodedOrder.C95_prices",
    "Carbon.EncodedOrder.C95_refused",
    "Carbon.EncodedOrder.C95_marginal_violated",
    "Carbon.EncodedOrder.C95_order_violated",
    "Carbon.EncodedOrder.C95_parameters",
    "Carbon.EncodedOrder.C95_floats_violated"
   ],
   "note": "Full orders: proved for all non-negative rates, without float rounding. An order with a marginal price inside its range gets a negative capacity (C95_marginal_violated), a range in the wrong order is accepted (C95_order_violated), encode_yzAB refuses floats (C95_floats_violated)."
  },
  {
   "property": "C96",
   "status": "partial",
   "theorems": [
    "Carbon.RunSim.C96_links",
    "Carbon.RunSim.C96_series",
    "Carbon.RunSim.C96_runs",
    "Carbon.RunSim.C96_step",
    "Carbon.RunSim.C96_middle",
    "Carbon.RunSim.C96_rescaled",
    "Carbon.RunSim.C96_zero_violated",
    "Carbon.RunSim.C96_capacity_violated"
   ],
   "note": "Proved for all strategies with two different prices per range, in exact arithmetic. A zero price after the first raises ZeroDivisionError although leading zeros are skipped (C96_zero_violated); a strategy that sets the capacity of its buy range fails for a first price below 100 (C96_capacity_violated); flat ranges are excluded (see C23_flat_violated)."
  },
  {
   "property": "C97",
   "status": "partial",
   "theorems": [
    "Carbon.Sdk.C97_integers",
    "Carbon.Sdk.C97_entries",
    "Carbon.Sdk.C97_round_error",
    "Carbon.Sdk.C97_round_mono",
    "Carbon.Sdk.C97_round_digits_partial",
    "Carbon.Sdk.C97_round_digits_violated",
    "Carbon.Sdk.C97_names",
    "Carbon.Sdk.C97_names_distinct",
    "Carbon.Sdk.C97_words",
    "Carbon.Sdk.C97_digits_violated",
    "Carbon.Sdk.C97_join",
    "Carbon.Sdk.C97_join_violated",
    "Carbon.Sdk.C97_join_assoc"
   ],
   "note": "Integers, dictionaries, rounding error and order: proved. The number of digits: proved below 10^(n+1); larger values keep one digit more and negative ones are not rounded (C97_round_digits_violated). Names: for letters; digits get lost (C97_digits_violated). Only one slash is removed in joining (C97_join_violated)."
  },
  {
   "property": "C98",
   "status": "partial",
   "theorems": [
    "Carbon.Sdk.C98_fetch",
    "Carbon.Sdk.C98_address_violated",
    "Carbon.Sdk.C98_async",
    "Carbon.Sdk.C98_default_violated",
    "Carbon.Sdk.C98_method"
   ],
   "note": "Proved for the address that the code uses; the address given to the constructor has no effect (C98_address_violated), and clients that are synchronous by default lose the data of calls without explicit choice (C98_default_violated)."
  },
  {
   "property": "C99",
   "status": "partial",
   "theorems": [
    "Carbon.Sdk.C99_market",
    "Carbon.Sdk.C99_reverse",
    "Carbon.Sdk.C99_order",
    "Carbon.Sdk.C99_one_sided_violated",
    "Carbon.Sdk.C99_flag_violated",
    "Carbon.Sdk.C99_foreign",
    "Carbon.Sdk.C99_depth",
    "Carbon.Sdk.C99_depth_side",
    "Carbon.Sdk.C99_depths",
    "Carbon.Sdk.C99_depths_violated",
    "Carbon.Sdk.C99_interpolate",
    "Carbon.Sdk.C99_mid",
    "Carbon.Sdk.C99_many"
   ],
   "note": "Proved for markets with two sides. A missing side brings the query down if the server quotes a zero rate (C99_one_sided_violated); the flag inverted of ranges is set the wrong way round (C99_flag_violated); a zero in a list of asks raises TypeError (C99_depths_violated)."
  },
  {
   "property": "C100",
   "status": "partial",
   "theorems": [
    "Carbon.Sdk.C100_create",
    "Carbon.Sdk.C100_pair_violated",
    "Carbon.Sdk.C100_pair_partial",
    "Carbon.Sdk.C100_overlap",
    "Carbon.Sdk.C100_strategies",
    "Carbon.Sdk.C100_order",
    "Carbon.Sdk.C100_base",
    "Carbon.Sdk.C100_prepare",
    "Carbon.Sdk.C100_compose",
    "Carbon.Sdk.C100_table_violated"
   ],
   "note": "Ranges, listing, sides and limits: proved. The strategy is always created on ETH/USDC whatever the pair (C100_pair_violated, right for that pair: C100_pair_partial); trades in tokens which the client knows but the table of the module does not are refused (C100_table_violated)."
  },
  {
   "property": "C101",
   "status": "partial",
   "theorems": [
    "Carbon.PathInt.C101_bridge",
    "Carbon.PathInt.C101_straight",
    "Carbon.PathInt.C101_length_violated",
    "Carbon.PathInt.C101_positive_violated",
    "Carbon.PathInt.C101_through_partial",
    "Carbon.PathInt.C101_dropped_violated",
    "Carbon.PathInt.C101_runs",
    "Carbon.PathInt.C101_off",
    "Carbon.PathInt.C101_vol_units",
    "Carbon.PathInt.C101_vol_zero",
    "Carbon.PathInt.C101_ends",
    "Carbon.PathInt.C101_default"
   ],
   "note": "Ends, straight line, runs and time stamps, units: proved. Points followed by the next one within less than a period are dropped (C101_dropped_violated; otherwise C101_through_partial); the bridge has one point less than documented (C101_length_violated); prices can become negative (C101_positive_violated)."
  },
  {
   "property": "C102",
   "status": "partial",
   "theorems": [
    "Carbon.OrderBook.C102_truncate_partial",
    "Carbon.OrderBook.C102_gap_violated",
    "Carbon.OrderBook.C102_effective",
    "Carbon.OrderBook.C102_marginal",
    "Carbon.OrderBook.C102_rising",
    "Carbon.OrderBook.C102_area_partial",
    "Carbon.OrderBook.C102_liquidity",
    "Carbon.OrderBook.C102_area_violated",
    "Carbon.OrderBook.C102_dot",
    "Carbon.OrderBook.C102_lengths",
    "Carbon.OrderBook.C102_grid_partial",
    "Carbon.OrderBook.C102_grid_violated"
   ],
   "note": "Effective and marginal prices, monotonicity: proved. Gaps inside the amounts are misattributed (C102_gap_violated), equal neighbouring marginal prices make the area undefined (C102_area_violated; otherwise C102_area_partial), and the grid does not rise for small maxima (C102_grid_violated)."
  },
  {
   "property": "C103",
   "status": "partial",
   "theorems": [
    "Carbon.Analytics.C103_total",
    "Carbon.Analytics.C103_converted",
    "Carbon.Analytics.C103_entries",
    "Carbon.Analytics.C103_other_pairs",
    "Carbon.Analytics.C103_traded_violated"
   ],
   "note": "Sums, conversion, missing entries, other pairs: proved. Orders that have been traded still report liquidity at the prices they have sold (C103_traded_violated)."
  },
  {
   "property": "C104",
   "status": "partial",
   "theorems": [
    "Carbon.Sim.C104_past",
    "Carbon.Sim.C104_numbers",
    "Carbon.Sim.C104_records",
    "Carbon.Sim.C104_flag_partial",
    "Carbon.Sim.C104_flag_violated",
    "Carbon.Sim.C104_totals"
   ],
   "note": "Append-only, numbering, records and totals: proved over all reachable states. The partial flag is right for purchases (C104_flag_partial) and always set for sales (C104_flag_violated)."
  },
  {
   "property": "C105",
   "status": "proved",
   "theorems": [
    "Carbon.Sim.C105_preview"
   ],
   "note": ""
  },
  {
   "property": "C106",
   "status": "partial",
   "theorems": [
    "Carbon.Analytics.C106_constants_violated",
    "Carbon.Analytics.C106_default_pair_violated",
    "Carbon.Analytics.C106_simulator_violated",
    "Carbon.Analytics.C106_defaults",
    "Carbon.Analytics.C106_price_partial",
    "Carbon.Analytics.C106_simulated"
   ],
   "note": "Price and amount of the preview: proved (C106_price_partial, C106_simulated). The documented constants are refused (C106_constants_violated), the default pair cannot be used (C106_default_pair_violated), and simulate_trades ignores a given simulator unless a pair is given as well (C106_simulator_violated)."
  },
  {
   "property": "C107",
   "status": "partial",
   "theorems": [
    "Carbon.UICurve.C107_import",
    "Carbon.UICurve.C107_marginal",
    "Carbon.UICurve.C107_order",
    "Carbon.UICurve.C107_mismatch",
    "Carbon.UICurve.C107_rounded",
    "Carbon.UICurve.C107_unfunded_violated",
    "Carbon.UICurve.C107_no_prices_violated",
    "Carbon.UICurve.C107_add",
    "Carbon.UICurve.C107_add_failure",
    "Carbon.UICurve.C107_address_violated"
   ],
   "note": "Curves, fill levels, marginal prices, order of the encoded orders, mismatches and storing: proved. Tokens given by address are not recognized (C107_address_violated), a side without capacity or without sell prices makes the import raise ZeroDivisionError (C107_unfunded_violated, C107_no_prices_violated)."
  },
  {
   "property": "C108",
   "status": "partial",
   "theorems": [
    "Carbon.UICurve.C108_parameters",
    "Carbon.UICurve.C108_no_decimals",
    "Carbon.UICurve.C108_integers_violated",
    "Carbon.UICurve.C108_default_scale_violated",
    "Carbon.UICurve.C108_sides"
   ],
   "note": "Scaling, error bounds and sorting: proved. Holdings and capacity are not integers (C108_integers_violated), and with the default exponent all prices of a 6 against 18 decimals pair are lost (C108_default_scale_violated)."
  },
  {
   "property": "C109",
   "status": "proved",
   "theorems": [
    "Carbon.UICurve.C109_width",
    "Carbon.UICurve.C109_center",
    "Carbon.UICurve.C109_ratios",
    "Carbon.UICurve.C109_flat"
   ],
   "note": ""
  },
  {
   "property": "C110",
   "status": "partial",
   "theorems": [
    "Carbon.Arb.C110_price",
    "Carbon.Arb.C110_direct",
    "Carbon.Arb.C110_same",
    "Carbon.Arb.C110_rejected",
    "Carbon.Arb.C110_consistent",
    "Carbon.Arb.C110_connected",
    "Carbon.Arb.C110_curves",
    "Carbon.Arb.C110_roundtrip",
    "Carbon.Arb.C110_units_partial",
    "Carbon.Arb.C110_units_violated"
   ],
   "note": "Prices: proved for every routine that returns some shortest chain (networkx is trusted to). With units the price of a token in terms of itself raises AttributeError (C110_units_violated)."
  },
  {
   "property": "C111",
   "status": "proved",
   "theorems": [
    "Carbon.Arb.C111_table",
    "Carbon.Arb.C111_diagonal",
    "Carbon.Arb.C111_consistent",
    "Carbon.Arb.C111_exists"
   ],
   "note": ""
  },
  {
   "property": "C112",
   "status": "partial",
   "theorems": [
    "Carbon.Arb.C112_same",
    "Carbon.Arb.C112_mixed",
    "Carbon.Arb.C112_neg",
    "Carbon.Arb.C112_undo",
    "Carbon.Arb.C112_assoc",
    "Carbon.Arb.C112_ratio",
    "Carbon.Arb.C112_scale",
    "Carbon.Arb.C112_total",
    "Carbon.Arb.C112_sum_violated"
   ],
   "note": "All operations: proved. The builtin sum starts from the number 0 and therefore raises for every non-empty list of amounts (C112_sum_violated)."
  },
  {
   "property": "C113",
   "status": "partial",
   "theorems": [
    "Carbon.Arb.C113_last",
    "Carbon.Arb.C113_history",
    "Carbon.Arb.C113_reset",
    "Carbon.Arb.C113_set_none_violated"
   ],
   "note": "History: proved. Setting without a value extends the history instead of clearing it (C113_set_none_violated)."
  },
  {
   "property": "C114",
   "status": "proved",
   "theorems": [
    "Carbon.Arb.C114_stats",
    "Carbon.Arb.C114_total",
    "Carbon.Arb.C114_transport",
    "Carbon.Arb.C114_rejected"
   ],
   "note": ""
  },
  {
   "property": "C115",
   "status": "proved",
   "theorems": [
    "Carbon.Arb.C115_counts",
    "Carbon.Arb.C115_sum",
    "Carbon.Arb.C115_degree",
    "Carbon.Arb.C115_curves"
   ],
   "note": ""
  },
  {
   "property": "C116",
   "status": "proved",
   "theorems": [
    "Carbon.Prop.TradeSpec.C116_roundtrip",
    "Carbon.Prop.TradeSpec.C116_inverse",
    "Carbon.Prop.TradeSpec.C116_rate",
    "Carbon.Prop.TradeSpec.C116_source",
    "Carbon.Prop.TradeSpec.C116_target"
   ],
   "note": ""
  },
  {
   "property": "C117",
   "status": "partial",
   "theorems": [
    "Carbon.Prop.TradeSpec.C117_source",
    "Carbon.Prop.TradeSpec.C117_source_bound",
    "Carbon.Prop.TradeSpec.C117_target",
    "Carbon.Prop.TradeSpec.C117_source_accuracy",
    "Carbon.Prop.TradeSpec.C117_source_accuracy_bound",
    "Carbon.Prop.TradeSpec.C117_target_accuracy",
    "Carbon.Prop.TradeSpec.C117_partly_filled_violated"
   ],
   "note": "Orders at their highest rate: proved in both directions. For orders below their highest rate the contract can pay more than the reference, since the stored capacity is rounded down (C117_partly_filled_violated); proved instead with the root of the marginal rate raised by one part in the liquidity (C117_source_bound, C117_source_accuracy_bound)."
  },
  {
   "property": "C118",
   "status": "proved",
   "theorems": [
    "Carbon.Prop.Version.C118_split",
    "Carbon.Prop.Version.C118_order",
    "Carbon.Prop.Version.C118_total",
    "Carbon.Prop.Version.C118_raise",
    "Carbon.Prop.Version.C118_invalid",
    "Carbon.Prop.Version.C118_malformed"
   ],
   "note": ""
  },
  {
   "property": "C119",
   "status": "partial",
   "theorems": [
    "Carbon.Prop.SolTest.C119_trunc",
    "Carbon.Prop.SolTest.C119_error",
    "Carbon.Prop.SolTest.C119_warning",
    "Carbon.Prop.SolTest.C119_side",
    "Carbon.Prop.SolTest.C119_default_partial",
    "Carbon.Prop.SolTest.C119_default_violated",
    "Carbon.Prop.SolTest.C119_log",
    "Carbon.Prop.SolTest.C119_print",
    "Carbon.Prop.SolTest.C119_bits"
   ],
   "note": "Proved for the error and warning levels. Without a level the number is returned unchanged above 256 bits (C119_default_violated) and negative numbers as zero (C119_default_partial); the log level raises KeyError for good numbers (C119_log)."
  },
  {
   "property": "C120",
   "status": "partial",
   "theorems": [
    "Carbon.Prop.SolTest.C120_single",
    "Carbon.Prop.SolTest.C120_text",
    "Carbon.Prop.SolTest.C120_first_partial",
    "Carbon.Prop.SolTest.C120_rest_violated",
    "Carbon.Prop.SolTest.C120_raises_partial",
    "Carbon.Prop.SolTest.C120_raises_text",
    "Carbon.Prop.SolTest.C120_raises_violated"
   ],
   "note": "Proved for one number and for texts. Only the first of several numbers is compared (C120_rest_violated); an exception without a message counts as no exception (C120_raises_violated)."
  },
  {
   "property": "C121",
   "status": "partial",
   "theorems": [
    "Carbon.Prop.SharedVar.C121_alias",
    "Carbon.Prop.SharedVar.C121_frame",
    "Carbon.Prop.SharedVar.C121_value",
    "Carbon.Prop.SharedVar.C121_assign",
    "Carbon.Prop.SharedVar.C121_number_partial",
    "Carbon.Prop.SharedVar.C121_number_violated"
   ],
   "note": "All but the last sentence proved in full. In-place operations with another shared variable store an object in place of the number (C121_number_violated); proved for programs without them (C121_number_partial)."
  },
  {
   "property": "C122",
   "status": "proved",
   "theorems": [
    "Carbon.Prop.DataTools.C122_rows",
    "Carbon.Prop.DataTools.C122_all",
    "Carbon.Prop.DataTools.C122_days",
    "Carbon.Prop.DataTools.C122_early",
    "Carbon.Prop.DataTools.C122_parts",
    "Carbon.Prop.DataTools.C122_rejected",
    "Carbon.Prop.DataTools.C122_invert",
    "Carbon.Prop.DataTools.C122_tokens",
    "Carbon.Prop.DataTools.C122_time"
   ],
   "note": ""
  },
  {
   "property": "C123",
   "status": "partial",
   "theorems": [
    "Carbon.Prop.DataTools.C123_join_partial",
    "Carbon.Prop.DataTools.C123_join_violated",
    "Carbon.Prop.DataTools.C123_pair",
    "Carbon.Prop.DataTools.C123_pairs",
    "Carbon.Prop.DataTools.C123_fields",
    "Carbon.Prop.DataTools.C123_listdir"
   ],
   "note": "The empty list is read back as a list of one empty name (C123_join_violated); proved for all other lists of names without commas and blanks around them (C123_join_partial)."
  },
  {
   "property": "C124",
   "status": "partial",
   "theorems": [
    "Carbon.Prop.DataTools.C124_all",
    "Carbon.Prop.DataTools.C124_diff",
    "Carbon.Prop.DataTools.C124_restore_partial",
    "Carbon.Prop.DataTools.C124_restore_violated",
    "Carbon.Prop.DataTools.C124_missing",
    "Carbon.Prop.DataTools.C124_series_violated",
    "Carbon.Prop.DataTools.C124_mode",
    "Carbon.Prop.DataTools.C124_fixed",
    "Carbon.Prop.DataTools.C124_mgw",
    "Carbon.Prop.DataTools.C124_range",
    "Carbon.Prop.DataTools.C124_type"
   ],
   "note": "Fields that become empty are not part of the differences (C124_restore_violated), nor are id0 and comment; all others are restored (C124_restore_partial). The differences of a series always raise (C124_series_violated)."
  },
  {
   "property": "C125",
   "status": "proved",
   "theorems": [
    "Carbon.Prop.DataTools.C125_path",
    "Carbon.Prop.DataTools.C125_positive",
    "Carbon.Prop.DataTools.C125_times",
    "Carbon.Prop.DataTools.C125_no_steps"
   ],
   "note": ""
  },
  {
   "property": "C126",
   "status": "partial",
   "theorems": [
    "Carbon.Prop.FloorRouter.C126_source",
    "Carbon.Prop.FloorRouter.C126_target",
    "Carbon.Prop.FloorRouter.C126_match_target",
    "Carbon.Prop.FloorRouter.C126_match_source",
    "Carbon.Prop.FloorRouter.C126_total",
    "Carbon.Prop.FloorRouter.C126_nothing_violated"
   ],
   "note": "All but the last sentence proved in full. The last order of a trade by source amount can take an amount and give nothing (C126_nothing_violated)."
  },
  {
   "property": "C127",
   "status": "partial",
   "theorems": [
    "Carbon.Prop.FloorRouter.C127_prefix_partial",
    "Carbon.Prop.FloorRouter.C127_none_violated",
    "Carbon.Prop.FloorRouter.C127_entry",
    "Carbon.Prop.FloorRouter.C127_csv_violated",
    "Carbon.Prop.FloorRouter.C127_scaled_partial",
    "Carbon.Prop.FloorRouter.C127_scaled_violated"
   ],
   "note": "Asking for zero orders reads all of them (C127_none_violated); otherwise proved (C127_prefix_partial, C127_entry). Integer mode is faithful for whole root prices only (C127_scaled_partial, C127_scaled_violated). Reading a table always raises (C127_csv_violated)."
  },
  {
   "property": "C128",
   "status": "partial",
   "theorems": [
    "Carbon.Sim.C128_refused_partial",
    "Carbon.Sim.C128_dry",
    "Carbon.Sim.C128_link_violated",
    "Carbon.Sim.C128_token_violated"
   ],
   "note": "Proved for books whose links are intact and tokens of the pair (C128_refused_partial); the number of the next trade never changes (C128_dry). A dangling link (C128_link_violated) or a token outside of the pair (C128_token_violated) makes the call fail after orders have been changed."
  },
  {
   "property": "C129",
   "status": "proved",
   "theorems": [
    "Carbon.Sim.C129_sale_exact",
    "Carbon.Sim.C129_sale_fast",
    "Carbon.Sim.C129_purchase_exact",
    "Carbon.Sim.C129_purchase_fast",
    "Carbon.Sim.C129_zero"
   ],
   "note": "Exact and fast router, in healthy linked books (see C29, C33). The amount zero for all routers."
  },
  {
   "property": "C130",
   "status": "partial",
   "theorems": [
    "Carbon.Opt.C130_program",
    "Carbon.Opt.C130_optimal",
    "Carbon.Opt.C130_scale",
    "Carbon.Opt.C130_margp",
    "Carbon.Opt.C130_full_range",
    "Carbon.Opt.C130_boundary",
    "Carbon.Opt.C130_unconstrained",
    "Carbon.Opt.C130_raises",
    "Carbon.Opt.C130_named_violated",
    "Carbon.Opt.C130_add_violated",
    "Carbon.Opt.C130_boundary_violated"
   ],
   "note": "Proved for constraints made by SFC or SFCd and containers whose curves use one token scale. Called with a token's name (or arb) the optimizer has no self-financing constraints (C130_unconstrained, C130_named_violated); a curve added to a container with a token scale keeps the default scale (C130_add_violated); pools that do not trade the optimized token may be left above their curves (C130_boundary_violated). The solver is not modelled: the theorems are about the points that satisfy the program and the optimal ones."
  },
  {
   "property": "C131",
   "status": "partial",
   "theorems": [
    "Carbon.CC.C131_selection",
    "Carbon.CC.C131_count",
    "Carbon.CC.C131_total",
    "Carbon.CC.C131_symmetric_partial",
    "Carbon.CC.C131_symmetric_empty",
    "Carbon.CC.C131_prices",
    "Carbon.CC.C131_pricelist",
    "Carbon.CC.C131_priceaggr",
    "Carbon.CC.C131_volumes",
    "Carbon.CC.C131_volumeaggr",
    "Carbon.CC.C131_sdpc",
    "Carbon.CC.C131_deviation",
    "Carbon.CC.C131_symmetric_violated"
   ],
   "note": "All proved except for the symmetric table (targets pivotbqs, pivotxys), which is symmetric but loses the curves of every token that is never a base or never a quote token (C131_symmetric_partial says exactly which; C131_symmetric_empty, C131_symmetric_violated). The target std (whose meaning depends on the version of pandas) and the pretty variants are not modelled."
  },
  {
   "property": "C132",
   "status": "proved",
   "theorems": [
    "Carbon.CC.C132_raises",
    "Carbon.CC.C132_stats",
    "Carbon.CC.C132_matrix",
    "Carbon.CC.C132_options",
    "Carbon.CC.C132_consistent"
   ],
   "note": "Proved. Only the matrix of prices is modelled, not the variant that returns the names of the pairs."
  },
  {
   "property": "C133",
   "status": "partial",
   "theorems": [
    "Carbon.Opt.C133_residual",
    "Carbon.Opt.C133_pair_balance",
    "Carbon.Opt.C133_pair_converges",
    "Carbon.Opt.C133_pair_default",
    "Carbon.Opt.C133_near_optimal",
    "Carbon.Opt.C133_pair_regular",
    "Carbon.Opt.C133_jacobian_quotients",
    "Carbon.Opt.C133_jacobian_affine",
    "Carbon.Opt.C133_jacobian_raises",
    "Carbon.Opt.C133_jacobian_limit",
    "Carbon.Opt.C133_total",
    "Carbon.Opt.C133_found",
    "Carbon.Opt.C133_residual_before",
    "Carbon.Opt.C133_optimal",
    "Carbon.Opt.C133_budget",
    "Carbon.Opt.C133_single",
    "Carbon.Opt.C133_cleared",
    "Carbon.Opt.C133_flat",
    "Carbon.Opt.C133_balanced_violated",
    "Carbon.Opt.C133_last_violated"
   ],
   "note": "Proved except for the balance of the reported prices. C133_residual bounds what the reported trades leave unbalanced, by the precision and the holdings of the pools, if the Jacobian before the last step is invertible. C133_near_optimal turns this into a bound of the distance to the best result (C80_gap: for any prices); for pools of one pair its hypothesis always holds (C133_pair_regular). C133_pair_balance, C133_pair_converges, C133_pair_default: for pools of one pair without bounds there is exactly one balancing price, and the search finds it from every start within a factor of 10^(2/5). Convergence for several tokens and for pools with bounds is missing; in general the balance fails: C133_flat, C133_balanced_violated (outside of the ranges of all pools the Jacobian is zero and the least squares step too, so that the starting prices are accepted). A search that converges in the last permitted iteration is reported as failed (C133_budget, C133_single, C133_last_violated). NumPy's solvers are given by the equations that they solve."
  },
  {
   "property": "C134",
   "status": "proved",
   "theorems": [
    "Carbon.Opt.C134_pair",
    "Carbon.Opt.C134_pair_optimal",
    "Carbon.Opt.C134_missing",
    "Carbon.Opt.C134_excess",
    "Carbon.Opt.C134_roundtrip",
    "Carbon.Opt.C134_estimates",
    "Carbon.Opt.C134_negative",
    "Carbon.Opt.C134_defaults",
    "Carbon.Opt.C134_consistent"
   ],
   "note": "Proved. Data frames of starting prices are represented by their column for the target token. C134_pair: for pools of one pair without bounds whose prices differ by less than a factor of 10^(2/5) the optimizer finds the balancing price without parameters, and no other trades get more than nine millionths of the value of the pools beyond its result (C134_pair_optimal)."
  },
  {
   "property": "C135",
   "status": "partial",
   "theorems": [
    "Carbon.Arb.C135_amounts_of",
    "Carbon.Arb.C135_amounts",
    "Carbon.Arb.C135_connections_partial",
    "Carbon.Arb.C135_totals",
    "Carbon.Arb.C135_edges",
    "Carbon.Arb.C135_empty",
    "Carbon.Arb.C135_curves",
    "Carbon.Arb.C135_oneway_violated"
   ],
   "note": "Proved for amounts, for the uncombined table, for curves and for connections where every connected pair is connected both ways (C135_connections_partial). Otherwise the two halves of the table are joined by position and mix lines of different pairs (C135_oneway_violated); C135_totals says what remains true."
  },
  {
   "property": "C136",
   "status": "partial",
   "theorems": [
    "Carbon.Arb.C136_return",
    "Carbon.Arb.C136_nothing",
    "Carbon.Arb.C136_tuple_partial",
    "Carbon.Arb.C136_tokens",
    "Carbon.Arb.C136_formats_violated",
    "Carbon.Arb.C136_none",
    "Carbon.Arb.C136_tokens_violated"
   ],
   "note": "Returns proved in full (C136_return); several cycles for tuples and generators with one token (C136_tuple_partial). Lists of tokens are ignored or rejected (C136_tokens, C136_tokens_violated); the formats with dictionaries and data frames raise (C136_formats_violated, C136_none)."
  },
  {
   "property": "C137",
   "status": "partial",
   "theorems": [
    "Carbon.Arb.C137_adjacency",
    "Carbon.Arb.C137_degrees",
    "Carbon.Arb.C137_laplacian",
    "Carbon.Arb.C137_rows",
    "Carbon.Arb.C137_spectrum",
    "Carbon.Arb.C137_connected",
    "Carbon.Arb.C137_unavailable",
    "Carbon.Arb.C137_cycles_partial",
    "Carbon.Arb.C137_cycles_violated"
   ],
   "note": "Matrices and connectedness proved. That all cycles of a weakly connected graph are subcycles of one cycle fails (C137_cycles_violated) and holds if every token can be reached from every other (C137_cycles_partial). The matrix of degrees raises (C137_unavailable). Networkx is taken at its word; eigenvalues only through the kernel and definiteness."
  },
  {
   "property": "C138",
   "status": "partial",
   "theorems": [
    "Carbon.Opt.C138_functions",
    "Carbon.Opt.C138_global",
    "Carbon.Opt.C138_requests",
    "Carbon.Opt.C138_one_pair",
    "Carbon.Opt.C138_bound",
    "Carbon.Opt.C138_maximum",
    "Carbon.Opt.C138_rest",
    "Carbon.Opt.C138_instructions",
    "Carbon.Opt.C138_objective_violated",
    "Carbon.Opt.C138_search_violated"
   ],
   "note": "Functions, requests, bounds, maxima and instructions proved. The documented objective is the value in the second token, but the value in the first is maximized (C138_objective_violated); the search by Newton's method can run away from the maximum (C138_search_violated). Convergence is not claimed; C138_rest says what holds where the search rests."
  },
  {
   "property": "C139",
   "status": "partial",
   "theorems": [
    "Carbon.Opt.C139_raw",
    "Carbon.Opt.C139_aggregated",
    "Carbon.Opt.C139_pretty",
    "Carbon.Opt.C139_formats",
    "Carbon.Opt.C139_dxdy",
    "Carbon.Opt.C139_margp",
    "Carbon.Opt.C139_names_violated",
    "Carbon.Opt.C139_total_violated"
   ],
   "note": "Proved for tokens that do not have the names of columns (C139_raw, C139_aggregated, C139_margp, C139_dxdy); others lose their amounts (C139_names_violated). With the products of the reserves, the totals also add these up over the curves (C139_total_violated). The format options of a pandas style are not modelled."
  },
  {
   "property": "C140",
   "status": "partial",
   "theorems": [
    "Carbon.StartCond.C140_strategy",
    "Carbon.StartCond.C140_complete",
    "Carbon.StartCond.C140_seed_violated",
    "Carbon.StartCond.C140_path",
    "Carbon.StartCond.C140_single_violated",
    "Carbon.StartCond.C140_simulated",
    "Carbon.StartCond.C140_ranges_violated"
   ],
   "note": "Proved where cash is part of the valuation (C140_strategy, C140_complete, C140_simulated) and for charts of two prices or more (C140_path). Without cash a seed amount comes on top (C140_seed_violated), a chart of one price has no path (C140_single_violated), and the simulation rescales the boundaries unless the first price is 100 (C140_ranges_violated)."
  },
  {
   "property": "C141",
   "status": "partial",
   "theorems": [
    "Carbon.Formulas.C141_ns",
    "Carbon.Formulas.C141_nskey",
    "Carbon.Formulas.C141_nskey_violated",
    "Carbon.Formulas.C141_add",
    "Carbon.Formulas.C141_read",
    "Carbon.Formulas.C141_alias",
    "Carbon.Formulas.C141_alias_ns",
    "Carbon.Formulas.C141_setdefaultns",
    "Carbon.Formulas.C141_aliases_partial",
    "Carbon.Formulas.C141_aliases_violated",
    "Carbon.Formulas.C141_default_violated",
    "Carbon.Formulas.C141_stale_violated",
    "Carbon.Formulas.C141_isalias_violated",
    "Carbon.Formulas.C141_keys",
    "Carbon.Formulas.C141_keys_violated",
    "Carbon.Formulas.C141_getall",
    "Carbon.Formulas.C141_addfrom",
    "Carbon.Formulas.C141_moved_violated",
    "Carbon.Formulas.C141_mainkey_partial",
    "Carbon.Formulas.C141_filter_first",
    "Carbon.Formulas.C141_filter_plain",
    "Carbon.Formulas.C141_filter"
   ],
   "note": "Adding, reading, aliases, listing, combination and the text filter proved. Violated: aliases passed with a namespace (C141_aliases_violated), the default namespace of the constructor (C141_default_violated), namespaces with a period (C141_nskey_violated, C141_keys_violated), aliases of replaced items (C141_stale_violated), main keys of items that are taken over (C141_moved_violated), the documentation of isalias (C141_isalias_violated). LaTeX code is a parameter."
  },
  {
   "property": "C142",
   "status": "partial",
   "theorems": [
    "Carbon.Tags.C142_has",
    "Carbon.Tags.C142_add",
    "Carbon.Tags.C142_text_partial",
    "Carbon.Tags.C142_text_violated"
   ],
   "note": "Proved for membership and union; the text of a set of tags gives the tags again unless there are none (C142_text_partial, C142_text_violated)."
  },
  {
   "property": "C143",
   "status": "partial",
   "theorems": [
    "Carbon.CC0.C143_request",
    "Carbon.CC0.C143_method",
    "Carbon.CC0.C143_failed_violated",
    "Carbon.CC0.C143_key",
    "Carbon.CC0.C143_write",
    "Carbon.CC0.C143_hit",
    "Carbon.CC0.C143_miss_partial",
    "Carbon.CC0.C143_miss_violated",
    "Carbon.CC0.C143_flags_violated",
    "Carbon.CC0.C143_list"
   ],
   "note": "Requests, keys and hits proved; misses for clients with exceptions (C143_miss_partial). Clients without exceptions never read or store after a miss (C143_miss_violated); the arguments of the cached lists have no effect (C143_flags_violated); failed requests raise AttributeError (C143_failed_violated). Files and the network are abstract."
  },
  {
   "property": "C144",
   "status": "partial",
   "theorems": [
    "Carbon.CC0.C144_request",
    "Carbon.CC0.C144_freq",
    "Carbon.CC0.C144_table",
    "Carbon.CC0.C144_error",
    "Carbon.CC0.C144_raw_violated",
    "Carbon.CC0.C144_empty_violated",
    "Carbon.CC0.C144_aggr",
    "Carbon.CC0.C144_passed_violated",
    "Carbon.CC0.C144_defaults",
    "Carbon.CC0.C144_none_violated",
    "Carbon.CC0.C144_raises",
    "Carbon.CC0.C144_field"
   ],
   "note": "Requests, tables and aggregation proved, for distinct dates within a history and symbols without slash. Data that is not wanted as a table always raises (C144_raw_violated); empty histories raise KeyError (C144_empty_violated); keyword arguments of the aggregated query are ignored (C144_passed_violated); without data for any pair it raises (C144_none_violated). pandas concat by specification."
  },
  {
   "property": "C145",
   "status": "partial",
   "theorems": [
    "Carbon.Sdk.C145_target",
    "Carbon.Sdk.C145_source",
    "Carbon.Sdk.C145_create",
    "Carbon.Sdk.C145_delete",
    "Carbon.Sdk.C145_update",
    "Carbon.Sdk.C145_marginal_violated",
    "Carbon.Sdk.C145_caller_violated",
    "Carbon.Sdk.C145_sign_partial",
    "Carbon.Sdk.C145_sign_violated"
   ],
   "note": "All requests proved, for clients whose address has no stray slashes. The gas limit is written into the dictionary of the caller, and a gas limit of zero is replaced (C145_caller_violated); marginal prices given as arguments are ignored (C145_marginal_violated); no request has the field sign (C145_sign_violated). The text of a float is an arbitrary function."
  },
  {
   "property": "C146",
   "status": "partial",
   "theorems": [
    "Carbon.Sdk.C146_balance",
    "Carbon.Sdk.C146_entries",
    "Carbon.Sdk.C146_short_violated",
    "Carbon.Sdk.C146_ticker_violated",
    "Carbon.Sdk.C146_result",
    "Carbon.Sdk.C146_ambiguous_violated",
    "Carbon.Sdk.C146_error_violated",
    "Carbon.Sdk.C146_wallet",
    "Carbon.Sdk.C146_pairs",
    "Carbon.Sdk.C146_own_violated",
    "Carbon.Sdk.C146_text_violated",
    "Carbon.Sdk.C146_text",
    "Carbon.Sdk.C146_liquidity",
    "Carbon.Sdk.C146_nothing_violated"
   ],
   "note": "Balances, entries, results, wallet address, pairs and liquidity questions proved. Short replies lose tokens silently (C146_short_violated), equal tickers overwrite each other (C146_ticker_violated); a result True looks like a running call (C146_ambiguous_violated); errors are reported as KeyError or UnboundLocalError (C146_error_violated); the table of the client is not used (C146_own_violated); the text of pairs raises for unknown tokens (C146_text_violated); a question without tokens asks about None (C146_nothing_violated)."
  },
  {
   "property": "C147",
   "status": "partial",
   "theorems": [
    "Carbon.FloatUI.C147_exact",
    "Carbon.FloatUI.C147_dy",
    "Carbon.FloatUI.C147_price",
    "Carbon.FloatUI.C147_x",
    "Carbon.FloatUI.C147_xint",
    "Carbon.FloatUI.C147_dx_partial",
    "Carbon.FloatUI.C147_round_trip_partial",
    "Carbon.FloatUI.C147_dx_violated",
    "Carbon.FloatUI.C147_effective_violated"
   ],
   "note": "Bounds proved for amounts sold, marginal prices, coordinate and intercept. For the payment and the round trip the bound has the factor 1 + S/B, the square root of the ratio of the prices (C147_dx_partial, C147_round_trip_partial); on very wide ranges the payment raises or is a third too small (C147_dx_violated). The effective price of very small trades raises ZeroDivisionError (C147_effective_violated). Overflow and underflow are not modelled."
  },
  {
   "property": "C148",
   "status": "partial",
   "theorems": [
    "Carbon.FloatUI.C148_price",
    "Carbon.FloatUI.C148_end",
    "Carbon.FloatUI.C148_start_violated",
    "Carbon.FloatUI.C148_x",
    "Carbon.FloatUI.C148_dx",
    "Carbon.FloatUI.C148_dy_partial",
    "Carbon.FloatUI.C148_dy_violated",
    "Carbon.FloatUI.C148_holdings",
    "Carbon.FloatUI.C148_sold",
    "Carbon.FloatUI.C148_everything_violated"
   ],
   "note": "Monotonicity of prices, coordinate and payment, the end of the range, the bounds on holdings for all histories and the remainder after a sale proved. The marginal price of a full curve can lie outside the range (C148_start_violated); a larger payment can buy less by a rounding (C148_dy_violated, C148_dy_partial up to 24 roundings); the quoted payment for all holdings can be refused (C148_everything_violated). Overflow and underflow are not modelled."
  },
  {
   "property": "C149",
   "status": "partial",
   "theorems": [
    "Carbon.FloatUI.C149_exact",
    "Carbon.FloatUI.C149_from_prices",
    "Carbon.FloatUI.C149_end",
    "Carbon.FloatUI.C149_empties",
    "Carbon.FloatUI.C149_amount",
    "Carbon.FloatUI.C149_order",
    "Carbon.FloatUI.C149_target_partial",
    "Carbon.FloatUI.C149_end_violated",
    "Carbon.FloatUI.C149_start_violated",
    "Carbon.FloatUI.C149_target_violated"
   ],
   "note": "Range of curves made from prices, bounds and order of the amount, and the sale of everything proved; the last three for curves selling the quote token. A curve selling the base token can refuse to be traded to its end (C149_end_violated). The error of the target is bounded by 6u times capacity divided by the relative width of the range (C149_target_partial); on narrow ranges it can be a third of the capacity (C149_target_violated). A full curve need not be found at its own price (C149_start_violated). Overflow and underflow are not modelled."
  },
  {
   "property": "C150",
   "status": "partial",
   "theorems": [
    "Carbon.Widgets.C150_checkboxes",
    "Carbon.Widgets.C150_checkboxes_refused",
    "Carbon.Widgets.C150_from_dict",
    "Carbon.Widgets.C150_clicks",
    "Carbon.Widgets.C150_checked_partial",
    "Carbon.Widgets.C150_objects",
    "Carbon.Widgets.C150_checked_violated",
    "Carbon.Widgets.C150_sliders",
    "Carbon.Widgets.C150_moves",
    "Carbon.Widgets.C150_sliders_refused",
    "Carbon.Widgets.C150_exhausted_violated",
    "Carbon.Widgets.C150_ranges_violated",
    "Carbon.Widgets.C150_signed_violated",
    "Carbon.Widgets.C150_dropdown_index",
    "Carbon.Widgets.C150_dropdown_value_partial",
    "Carbon.Widgets.C150_choose",
    "Carbon.Widgets.C150_dropdown_value_violated",
    "Carbon.Widgets.C150_dropdown_index_violated",
    "Carbon.Widgets.C150_labels_violated",
    "Carbon.Widgets.C150_names",
    "Carbon.Widgets.C150_dropdown_refused"
   ],
   "note": "Proved for distinct ids, defaults that are texts and complete lists. Repeated ids lose boxes (C150_checked_violated); a wrong number of ranges raises TraitError or IndexError (C150_ranges_violated); one negative number is refused for signed sliders (C150_signed_violated); the range attribute is used up (C150_exhausted_violated); a default that is not a text is never found (C150_dropdown_value_violated); a position past the end raises TraitError (C150_dropdown_index_violated); missing labels drop options silently (C150_labels_violated)."
  },
  {
   "property": "C151",
   "status": "partial",
   "theorems": [
    "Carbon.Sim.C151_exact",
    "Carbon.Sim.C151_balances_partial",
    "Carbon.Sim.C151_float_balances_partial",
    "Carbon.Sim.C151_records_partial",
    "Carbon.Sim.C151_price_partial",
    "Carbon.Sim.C151_limit_partial",
    "Carbon.Sim.C151_overdrawn_violated",
    "Carbon.Sim.C151_nothing_violated",
    "Carbon.Sim.C151_totals_violated",
    "Carbon.Sim.C151_flag_violated"
   ],
   "note": "Proved for sensible additions (see C33), unambiguous pair names (see C32) and any rounding with bounded error; the calculations inside of the routers are exact; prices for all routers but the fast one. An order that sells all can be left with a negative amount (C151_overdrawn_violated), tiny trades are paid for and deliver nothing or fail with a division by zero (C151_nothing_violated), the records of the routes need not add up to the aggregate (C151_totals_violated), and completely filled trades are flagged as partial (C151_flag_violated)."
  },
  {
   "property": "C152",
   "status": "partial",
   "theorems": [
    "Carbon.UICurve.Heap.C152_frame",
    "Carbon.UICurve.Heap.C152_history",
    "Carbon.UICurve.Heap.C152_once",
    "Carbon.UICurve.Heap.C152_sale",
    "Carbon.UICurve.Heap.C152_buy",
    "Carbon.UICurve.Heap.C152_added",
    "Carbon.UICurve.Heap.C152_conserved",
    "Carbon.UICurve.Heap.C152_ledger",
    "Carbon.UICurve.Heap.C152_self",
    "Carbon.UICurve.Heap.C152_self_violated",
    "Carbon.UICurve.Heap.C152_eq_partial",
    "Carbon.UICurve.Heap.C152_eq_diverges",
    "Carbon.UICurve.Heap.C152_eq_violated"
   ],
   "note": "Frame, permanence of identifiers and links, validity and the ledger are proved for all link graphs; the ledger for requests that are not within 1e-10 above the holdings. An order linked to itself adds the amount received, which is of the other token, to its own holdings (C152_self, C152_self_violated). == raises RecursionError on two copies of a pair of mutually linked orders (C152_eq_diverges, C152_eq_violated); C152_eq_partial covers orders with the same link or none. tradeto is not among the calls."
  },
  {
   "property": "C153",
   "status": "partial",
   "theorems": [
    "Carbon.CpcHeap.C153_frame",
    "Carbon.CpcHeap.C153_lookup",
    "Carbon.CpcHeap.C153_local",
    "Carbon.CpcHeap.C153_numbered",
    "Carbon.CpcHeap.C153_cids_violated",
    "Carbon.CpcHeap.C153_scale_partial",
    "Carbon.CpcHeap.C153_select_partial",
    "Carbon.CpcHeap.C153_selected",
    "Carbon.CpcHeap.C153_scale_violated",
    "Carbon.CpcHeap.C153_self_violated",
    "Carbon.CpcHeap.C153_P_partial",
    "Carbon.CpcHeap.C153_P_violated",
    "Carbon.CpcHeap.C153_made",
    "Carbon.CpcHeap.C153_dict",
    "Carbon.CpcHeap.C153_fresh",
    "Carbon.CpcHeap.C153_dicts",
    "Carbon.CpcHeap.C153_table_partial",
    "Carbon.CpcHeap.C153_table_violated"
   ],
   "note": "The frame, lookups and numbering of fresh curves are proved. Curves already numbered elsewhere can share an id with a new one, which then cannot be found (C153_cids_violated). The scale of a container and of its curves agree just when made (C153_scale_partial, C153_select_partial, C153_scale_violated). Adding a container to itself does not end (C153_self_violated). Dictionaries are proved for all curves that the constructors make, without the scale, which has to be passed; tables if none or all curves have a fee (C153_table_partial, C153_table_violated). P raises TypeError instead of giving the default where a part of a value that is not a dictionary is asked for (C153_P_partial, C153_P_violated)."
  },
  {
   "property": "C154",
   "status": "partial",
   "theorems": [
    "Carbon.AlphaRouterOrig.C154_sorted_partial",
    "Carbon.AlphaRouterOrig.C154_all_partial",
    "Carbon.AlphaRouterOrig.C154_few_violated",
    "Carbon.AlphaRouterOrig.C154_no_default_violated",
    "Carbon.AlphaRouterOrig.C154_source_partial",
    "Carbon.AlphaRouterOrig.C154_target_violated",
    "Carbon.AlphaRouterOrig.C154_source_violated"
   ],
   "note": "By source the outcome is characterised completely (C154_source_partial): the first window in the ranking that is counted for the amount, else IndexError. It fails for choices that are not next to each other (C154_source_violated), and if there are fewer orders than permitted (C154_few_violated). By target the liquidity is assigned to the wrong orders unless these are listed from the best price to the worst: proved for such lists (C154_sorted_partial) and where all orders are permitted (C154_all_partial); C154_target_violated has an order that is taken although it does not hold the amount. The frames of pandas are lists, and its floats exact."
  },
  {
   "property": "C155",
   "status": "partial",
   "theorems": [
    "Carbon.Opt.C155_values",
    "Carbon.Opt.C155_error",
    "Carbon.Opt.C155_no_values",
    "Carbon.Opt.C155_no_curves",
    "Carbon.Opt.C155_float",
    "Carbon.Opt.C155_scales",
    "Carbon.Opt.C155_table",
    "Carbon.Opt.C155_adjusted",
    "Carbon.Opt.C155_solved_partial",
    "Carbon.Opt.C155_unchecked_violated",
    "Carbon.Opt.C155_refused_violated"
   ],
   "note": "Values, errors and the adjusted curves are proved for every outcome of the solver. Instructions that bring the required amounts are proved for optima at which every pool trades the optimized token and is not left without it; elsewhere an exact optimum may give a pool both tokens, and the instructions are refused (C155_refused_violated). The instructions are also given for results that count as errors (C155_unchecked_violated). The solver is a parameter of the model."
  },
  {
   "property": "C156",
   "status": "proved",
   "theorems": [
    "Carbon.ExactRouter.C156_price",
    "Carbon.ExactRouter.C156_split_target",
    "Carbon.ExactRouter.C156_split_source",
    "Carbon.ExactRouter.C156_inverse",
    "Carbon.ExactRouter.C156_larger",
    "Carbon.ExactRouter.C156_larger_source",
    "Carbon.ExactRouter.C156_marginal",
    "Carbon.ExactRouter.C156_marginal_source"
   ],
   "note": "over the reals, with the exact arithmetic of the router; the orders after a trade are those of the caller's settlement (holdings changed by the amounts of the actions), as in C69/C70"
  },
  {
   "property": "C157",
   "status": "proved",
   "theorems": [
    "Carbon.Analytics.C157_ask",
    "Carbon.Analytics.C157_bid"
   ],
   "note": "over the reals, for the exact method; the loop over the sizes is the caller's, as in the repository's own test of the analytics"
  },
  {
   "property": "C158",
   "status": "proved",
   "theorems": [
    "Carbon.Prop.Trade.C158_never_better",
    "Carbon.Prop.Trade.C158_at_once_target",
    "Carbon.Prop.Trade.C158_at_once_source",
    "Carbon.Prop.Trade.C158_parts_target",
    "Carbon.Prop.Trade.C158_parts_source"
   ],
   "note": "the settlement of an order after a quote (holdings reduced, capacity and rates kept) is the contract's and is not in the benchmark; bounds on the cost of parts need a proper range, and comparisons with the trade at once need numbers that fit"
  },
  {
   "property": "C159",
   "status": "partial",
   "theorems": [
    "Carbon.ExactRouter.C159_checked",
    "Carbon.ExactRouter.C159_source",
    "Carbon.ExactRouter.C159_enough_partial",
    "Carbon.ExactRouter.C159_short_violated",
    "Carbon.ExactRouter.C159_positive_violated",
    "Carbon.ExactRouter.C159_zero",
    "Carbon.ExactRouter.C159_entries"
   ],
   "note": "proved where the orders hold the amount, by source, and for nothing; violated without the check for amounts less than a twentieth above what the orders hold (less is sold, no error), and for positive amounts by target, with or without the check: the orders are made to buy the token they sell"
  },
  {
   "property": "C160",
   "status": "partial",
   "theorems": [
    "Carbon.Fls.C160_text",
    "Carbon.Fls.C160_text_partial",
    "Carbon.Fls.C160_newline_violated",
    "Carbon.Fls.C160_binary",
    "Carbon.Fls.C160_json",
    "Carbon.Fls.C160_compressed_violated",
    "Carbon.Fls.C160_wrapper",
    "Carbon.Fls.C160_wrapper_violated",
    "Carbon.Fls.C160_truncates_violated",
    "Carbon.Fls.C160_json_binary_violated",
    "Carbon.Fls.C160_others",
    "Carbon.Fls.C160_bytes_refused_violated",
    "Carbon.Fls.C160_missing",
    "Carbon.Fls.C160_name"
   ],
   "note": "proved for texts without carriage returns, for bytes, and for JSON compressed or not, and that no other file changes; violated for texts with carriage returns, for compressed texts (loaded as bytes), with a wrapper (applied on saving and again on loading), and for saves that raise TypeError, which leave the file empty"
  },
  {
   "property": "C161",
   "status": "partial",
   "theorems": [
    "Carbon.Prop.Match.C161_clearing_target",
    "Carbon.Prop.Match.C161_clearing_source",
    "Carbon.Prop.Match.C161_single_target",
    "Carbon.Prop.Match.C161_single_source",
    "Carbon.Prop.Match.C161_constant_target",
    "Carbon.Prop.Match.C161_dust_violated",
    "Carbon.Prop.Match.C161_rounding_violated",
    "Carbon.Prop.Match.C161_empty_violated"
   ],
   "note": "proved that both agree for books of one order and, by target, for books of orders with one rate each; where the orders can be cleared at one rate, the best match is no worse up to rounding, in both directions (C161_clearing_target, C161_clearing_source); violated by a book of three orders for which the best match pays out 9334 units where the fast match pays out 1001561, by a unit of rounding for two equal orders, and by the empty book, for which the best match raises"
  },
  {
   "property": "C162",
   "status": "proved",
   "theorems": [
    "Carbon.Prop.Match.C162_least_cost",
    "Carbon.Prop.Match.C162_finds_rate",
    "Carbon.Prop.Match.C162_best_match"
   ],
   "note": "the clearing condition gives the least cost for every distribution, and the scan and the bisection find the clearing rate; amounts without a clearing rate on the grid of limits, which the corrections of the match treat, are those of C11, C161 and C172"
  },
  {
   "property": "C163",
   "status": "partial",
   "theorems": [
    "Carbon.NbConvert.C163_sections",
    "Carbon.NbConvert.C163_code_kept",
    "Carbon.NbConvert.C163_tested",
    "Carbon.NbConvert.C163_options",
    "Carbon.NbConvert.C163_files",
    "Carbon.NbConvert.C163_names",
    "Carbon.NbConvert.C163_independent_partial",
    "Carbon.NbConvert.C163_default_leaks_violated",
    "Carbon.NbConvert.C163_same_file_violated",
    "Carbon.NbConvert.C163_same_function_violated",
    "Carbon.NbConvert.C163_identifier_violated",
    "Carbon.NbConvert.C163_empty_violated",
    "Carbon.NbConvert.C163_string_violated",
    "Carbon.NbConvert.C163_target_path_violated",
    "Carbon.NbConvert.C163_stops_violated"
   ],
   "note": "the structure of the output, the kept code, the choice of tests and the choice of files hold for all notebooks; tests are lost by equal names of files and functions, titles that are no names, and empty sections, and options of a notebook hold for those after it"
  },
  {
   "property": "C164",
   "status": "partial",
   "theorems": [
    "Carbon.UICurve.C164_total",
    "Carbon.UICurve.C164_rising",
    "Carbon.UICurve.C164_effective",
    "Carbon.UICurve.C164_least_cost",
    "Carbon.UICurve.C164_every_amount",
    "Carbon.UICurve.C164_average",
    "Carbon.UICurve.C164_one_price_violated"
   ],
   "note": "all claims hold for orders with a price range; an order with a single price ends the calculation in a division by zero at exactly this price"
  },
  {
   "property": "C165",
   "status": "partial",
   "theorems": [
    "Carbon.Paper.C165_exists",
    "Carbon.Paper.C165_exported",
    "Carbon.Paper.C165_keys",
    "Carbon.Paper.C165_same_curve",
    "Carbon.Paper.C165_swap",
    "Carbon.Paper.C165_isolated",
    "Carbon.Paper.C165_readjust",
    "Carbon.Paper.C165_sign_violated",
    "Carbon.Paper.C165_root_violated",
    "Carbon.Paper.C165_yint_violated",
    "Carbon.Paper.C165_ratio_violated",
    "Carbon.Paper.C165_width_violated"
   ],
   "note": "all exported equations hold, and characterize the curve and its trades, with these exceptions: the two swap equations in B, S hold only if the change of the second token is read with the opposite sign; the equation for yint is not exported, its key reads the one for xint; of the two solutions for the amount at a marginal price only one is ever the amount; the comments on r, rho and on Q as the fourth root of the width are wrong"
  },
  {
   "property": "C166",
   "status": "partial",
   "theorems": [
    "Carbon.Paper.C166_eliminate",
    "Carbon.Paper.C166_subs",
    "Carbon.Paper.C166_sound",
    "Carbon.Paper.C166_equivalent",
    "Carbon.Paper.C166_lossy_violated",
    "Carbon.Paper.C166_quotient_violated"
   ],
   "note": "sound for all operations; a plain equation divided by an extended one gives the inverse quotient; multiplication by zero and squaring lose information"
  },
  {
   "property": "C167",
   "status": "proved",
   "theorems": [
    "Carbon.Paper.C167_pool",
    "Carbon.Paper.C167_trade",
    "Carbon.Paper.C167_price"
   ],
   "note": "for orders whose two bounding prices differ; with S = 0 the curve is a line and has no asymptotes"
  },
  {
   "property": "C168",
   "status": "partial",
   "theorems": [
    "Carbon.Prop.BenchCompare.C168_accepts",
    "Carbon.Prop.BenchCompare.C168_negative_violated",
    "Carbon.Prop.BenchCompare.C168_zero_violated",
    "Carbon.Prop.BenchCompare.C168_run",
    "Carbon.Prop.BenchCompare.C168_again",
    "Carbon.Prop.BenchCompare.C168_source_passes",
    "Carbon.Prop.BenchCompare.C168_target_passes"
   ],
   "note": "holds for positive expected values; a negative expected value accepts every result, and if zero is expected every other result raises, also within the absolute tolerance. Acceptance of trades is proved for orders whose marginal rate is their highest"
  },
  {
   "property": "C169",
   "status": "partial",
   "theorems": [
    "Carbon.SellDepth.C169_grid",
    "Carbon.SellDepth.C169_ticks",
    "Carbon.SellDepth.C169_buckets",
    "Carbon.SellDepth.C169_refused",
    "Carbon.SellDepth.C169_one_bucket_violated",
    "Carbon.SellDepth.C169_negative_tick_violated"
   ],
   "note": "proved for positive tick sizes and two or more buckets; a single bucket, and a negative tick size no smaller than the range of prices, give a table with one row and nothing in it"
  },
  {
   "property": "C170",
   "status": "proved",
   "theorems": [
    "Carbon.Prop.Match.C170_most_paid",
    "Carbon.Prop.Match.C170_most_output",
    "Carbon.Prop.Match.C170_finds_rate",
    "Carbon.Prop.Match.C170_best_match"
   ],
   "note": "the order of the quotes is a hypothesis: C161_dust_violated is a book whose quotes come in another order"
  },
  {
   "property": "C171",
   "status": "partial",
   "theorems": [
    "Carbon.Prop.BenchMatch.C171_run",
    "Carbon.Prop.BenchMatch.C171_again",
    "Carbon.Prop.BenchMatch.C171_target",
    "Carbon.Prop.BenchMatch.C171_source",
    "Carbon.Prop.BenchMatch.C171_single_target",
    "Carbon.Prop.BenchMatch.C171_single_source",
    "Carbon.Prop.BenchMatch.C171_nothing_violated",
    "Carbon.Prop.BenchMatch.C171_rounding_violated",
    "Carbon.Prop.BenchMatch.C171_charged_violated"
   ],
   "note": "what the run accepts and writes is proved for all files; it stops with an error where nothing is matched, with two equal orders and a small amount, and where the fast match charges too much. The acceptance of a test with one order by source is for orders whose numbers fit the 256 bits without rescaling"
  },
  {
   "property": "C172",
   "status": "proved",
   "theorems": [
    "Carbon.Prop.Match.C172_best_match",
    "Carbon.Prop.Match.C172_order_needed"
   ],
   "note": "the order of the quotes, and that the unfiltered match has no negative amount and no refused quote, are hypotheses; that a negative amount can occur is C11_violated. The lowest rate of the orders is positive. That the order of the quotes is needed, and is not ensured by the sort, is C172_order_needed"
  },
  {
   "property": "C173",
   "status": "proved",
   "theorems": [
    "Carbon.Prop.Desmos.C173_clean",
    "Carbon.Prop.Desmos.C173_parts",
    "Carbon.Prop.Desmos.C173_plain",
    "Carbon.Prop.Desmos.C173_injective",
    "Carbon.Prop.Desmos.C173_blank",
    "Carbon.Prop.Desmos.C173_key"
   ],
   "note": "for formulas as str writes them, with blanks around a plus or minus between terms only; a blank elsewhere is not told from a product (C173_blank)"
  },
  {
   "property": "C174",
   "status": "partial",
   "theorems": [
    "Carbon.Prop.Pickle.C174_roundtrip",
    "Carbon.Prop.Pickle.C174_stamped",
    "Carbon.Prop.Pickle.C174_default_violated",
    "Carbon.Prop.Pickle.C174_kept",
    "Carbon.Prop.Pickle.C174_same_time_violated",
    "Carbon.Prop.Pickle.C174_others"
   ],
   "note": "by default the time is added to the name of the file but not looked for when reading: what was saved under a name is then not found under it (C174_default_violated). Of two saved within a hundredth of a second the first is lost (C174_same_time_violated)"
  },
  {
   "property": "C175",
   "status": "partial",
   "theorems": [
    "Carbon.Sdk.C175_actions",
    "Carbon.Sdk.C175_params",
    "Carbon.Sdk.C175_trade",
    "Carbon.Sdk.C175_distinct",
    "Carbon.Sdk.C175_later",
    "Carbon.Sdk.C175_default_violated",
    "Carbon.Sdk.C175_flag_violated"
   ],
   "note": "a client that is synchronous by default loses the answer to a KeyError if the call leaves the choice to it (C175_default_violated); a flag given as a text is sent as true, also the text False (C175_flag_violated)"
  },
  {
   "property": "C176",
   "status": "partial",
   "theorems": [
    "Carbon.C176_units",
    "Carbon.C176_liquidity_violated",
    "Carbon.C176_area",
    "Carbon.C176_points",
    "Carbon.C176_frame",
    "Carbon.C176_tables",
    "Carbon.C176_side"
   ],
   "note": "the liquidity of the order book is stated in the target token but is an amount of the source token (C176_liquidity_violated); everything else holds"
  },
  {
   "property": "C177",
   "status": "partial",
   "theorems": [
    "Carbon.ExactRouter.C177_listing_target",
    "Carbon.ExactRouter.C177_listing_source",
    "Carbon.ExactRouter.C177_equal",
    "Carbon.ExactRouter.C177_units_partial",
    "Carbon.ExactRouter.C177_units_violated"
   ],
   "note": "for orders with a capacity below one the result depends on the units (C177_units_violated); the listing never matters, and units do not if capacities are at least one in both"
  },
  {
   "property": "C178",
   "status": "partial",
   "theorems": [
    "Carbon.Sim.C178_sale",
    "Carbon.Sim.C178_purchase",
    "Carbon.Sim.C178_added_sale",
    "Carbon.Sim.C178_added_purchase",
    "Carbon.Sim.C178_fast_violated",
    "Carbon.Sim.C178_alpha_sale_partial",
    "Carbon.Sim.C178_alpha_purchase_partial",
    "Carbon.Sim.C178_alpha_added_partial",
    "Carbon.Sim.C178_alpha_added_purchase_partial",
    "Carbon.Sim.C178_alpha_violated",
    "Carbon.Sim.C178_fast_sale_partial",
    "Carbon.Sim.C178_fast_purchase_partial",
    "Carbon.Sim.C178_fast_added_partial"
   ],
   "note": "proved for the exact router, and when orders with equal quotes for the amount have equal curves for the fast router and for the alpha router (there when few enough orders suffice for the amount, and for purchases with a given threshold); otherwise these two take orders with equal quotes in the order of their numbers, and the cost depends on it (C178_fast_violated, C178_alpha_violated)"
  },
  {
   "property": "C179",
   "status": "partial",
   "theorems": [
    "Carbon.Sim.C179_between_partial",
    "Carbon.Sim.C179_deleted_partial",
    "Carbon.Sim.C179_first_violated"
   ],
   "note": "fails for the first strategy if it is deleted by the number of its second order, whose link to order 0 counts as none: the first order stays, and a sale from it changes it before an error is raised (C179_first_violated); proved in all other cases"
  }
 ]
}