{
 "claims": [
  {
   "property": "C01",
   "status": "proved",
   "theorems": [
    "Verif.C01_variable_ids_distinct"
   ],
   "note": ""
  },
  {
   "property": "C02",
   "status": "partial",
   "theorems": [
    "Verif.C02_constraints_do_not_share_or_leak_partial",
    "Verif.C02_unknown_break_point_link_leaks"
   ],
   "note": "Proved for histories whose loss break points name existing links. For an unknown link the code leaks coefficients into later constraints: C02_unknown_break_point_link_leaks."
  },
  {
   "property": "C03",
   "status": "proved",
   "theorems": [
    "Verif.C03_dispatch_within_offer"
   ],
   "note": ""
  },
  {
   "property": "C04",
   "status": "proved",
   "theorems": [
    "Verif.C04_one_variable_per_band"
   ],
   "note": ""
  },
  {
   "property": "C05",
   "status": "proved",
   "theorems": [
    "Verif.C05_objective_is_cost_of_bids"
   ],
   "note": ""
  },
  {
   "property": "C06",
   "status": "proved",
   "theorems": [
    "Verif.C06_capacity_limit",
    "Verif.C06_capacity_exact"
   ],
   "note": ""
  },
  {
   "property": "C07",
   "status": "proved",
   "theorems": [
    "Verif.C07_uigf_limit",
    "Verif.C07_uigf_exact"
   ],
   "note": ""
  },
  {
   "property": "C08",
   "status": "proved",
   "theorems": [
    "Verif.C08_ramp_limits"
   ],
   "note": ""
  },
  {
   "property": "C09",
   "status": "proved",
   "theorems": [
    "Verif.C09_composite_rate_is_trajectory",
    "Verif.C09_net_output_follows_trajectory"
   ],
   "note": ""
  },
  {
   "property": "C10",
   "status": "proved",
   "theorems": [
    "Verif.C10_scada_only_tightens",
    "Verif.C10_missing_scada_keeps_bid_rate"
   ],
   "note": ""
  },
  {
   "property": "C11",
   "status": "proved",
   "theorems": [
    "Verif.C11_fast_start_exact",
    "Verif.C11_fast_start_profile",
    "Verif.C11_remove_fast_start"
   ],
   "note": "Profiles whose mode two (ending in mode two) or mode four (ending in mode four) has length zero are not valid histories (Op.benign): the code divides by zero there and passes a NaN right hand side on."
  },
  {
   "property": "C12",
   "status": "proved",
   "theorems": [
    "Verif.C12_ramp_limits_exact",
    "Verif.C12_unknown_run_type"
   ],
   "note": ""
  },
  {
   "property": "C13",
   "status": "proved",
   "theorems": [
    "Verif.C13_regional_balance_exact",
    "Verif.C13_regional_balance"
   ],
   "note": ""
  },
  {
   "property": "C14",
   "status": "proved",
   "theorems": [
    "Verif.C14_fcas_requirements_exact",
    "Verif.C14_fcas_requirements"
   ],
   "note": ""
  },
  {
   "property": "C15",
   "status": "proved",
   "theorems": [
    "Verif.C15_fcas_max_availability",
    "Verif.C15_fcas_max_availability_exact"
   ],
   "note": ""
  },
  {
   "property": "C16",
   "status": "partial",
   "theorems": [
    "Verif.C16_joint_ramping_exact",
    "Verif.C16_generator",
    "Verif.C16_load",
    "Verif.C16_bidirectional_partial",
    "Verif.C16_bidirectional_fails"
   ],
   "note": "Proved for generators, loads and bidirectional units that bid the service on both sides. For a bidirectional unit bidding on one side only, the constraint built does not see the energy of the other side: C16_bidirectional_fails. C16_joint_ramping_exact gives the rows in all cases."
  },
  {
   "property": "C17",
   "status": "partial",
   "theorems": [
    "Verif.C17_joint_capacity_exact",
    "Verif.C17_contingency_inside_trapezium_partial",
    "Verif.C17_bidirectional_edges_partial",
    "Verif.C17_bidirectional_left_edge_fails",
    "Verif.C17_bidirectional_load_side_fails",
    "Verif.C17_bidirectional_load_side_partial"
   ],
   "note": "Proved for all units with one direction; for bidirectional units the right edge and part of the left edge. The full left edge is false of the code: C17_bidirectional_left_edge_fails. C17_bidirectional_load_side_fails shows that trapeziums of the load side of bidirectional units count the consumption twice."
  },
  {
   "property": "C18",
   "status": "proved",
   "theorems": [
    "Verif.C18_energy_regulation_exact",
    "Verif.C18_regulation_inside_trapezium"
   ],
   "note": ""
  },
  {
   "property": "C19",
   "status": "proved",
   "theorems": [
    "Verif.C19_flow_limits",
    "Verif.C19_contribution",
    "Verif.C19_flows_cancel"
   ],
   "note": ""
  },
  {
   "property": "C20",
   "status": "proved",
   "theorems": [
    "Verif.C20_losses_interpolate"
   ],
   "note": ""
  },
  {
   "property": "C21",
   "status": "proved",
   "theorems": [
    "Verif.C21_shares",
    "Verif.C21_full_allocation",
    "Verif.C21_total"
   ],
   "note": ""
  },
  {
   "property": "C22",
   "status": "proved",
   "theorems": [
    "Verif.C22_generic_exact",
    "Verif.C22_generic",
    "Verif.C22_links"
   ],
   "note": ""
  },
  {
   "property": "C23",
   "status": "proved",
   "theorems": [
    "Verif.C23_never_infeasible",
    "Verif.C23_minimal",
    "Verif.C23_cheapest",
    "Verif.C23_zero_violation",
    "Verif.C23_setter_cost"
   ],
   "note": ""
  },
  {
   "property": "C24",
   "status": "proved",
   "theorems": [
    "Verif.C24_violation_degree",
    "Verif.C24_never_elastic"
   ],
   "note": ""
  },
  {
   "property": "C25",
   "status": "partial",
   "theorems": [
    "Verif.C25_last_call_decides_partial",
    "Verif.C25_inelastic_partial",
    "Verif.C25_bids_and_links_partial",
    "Verif.C25_negation_elastic",
    "Verif.C25_negation_fast_start",
    "Verif.C25_negation_joint_ramping",
    "Verif.C25_negation_stale_prices"
   ],
   "note": "Proved for all setters of single constraint sets and, unless a call in between reads them, for bids, interconnectors and links, for any history before and after, with the exceptions shown false: earlier violation variables stay when the new call is inelastic (C25_negation_elastic), fast start profiles without constraints replace nothing (C25_negation_fast_start), ramp rates of bidirectional units with joint ramping (C25_negation_joint_ramping), volume bids set again after the price bids (C25_negation_stale_prices)."
  },
  {
   "property": "C26",
   "status": "proved",
   "theorems": [
    "Verif.C26_no_interference",
    "Verif.C26_call_changes_only_its_sets",
    "Verif.C26_new_constraints"
   ],
   "note": ""
  },
  {
   "property": "C27",
   "status": "partial",
   "theorems": [
    "Verif.C27_tied_bids_share_pro_rata_partial",
    "Verif.C27_negation"
   ],
   "note": "Proved for pairs of bands whose set name is not shared with another pair; names of pairs can collide: C27_negation."
  },
  {
   "property": "C28",
   "status": "proved",
   "theorems": [
    "Verif.C28_bands_in_order",
    "Verif.C28_merit_order"
   ],
   "note": ""
  },
  {
   "property": "C29",
   "status": "proved",
   "theorems": [
    "Verif.C29_unit_dispatch",
    "Verif.C29_total",
    "Verif.C29_exists"
   ],
   "note": ""
  },
  {
   "property": "C30",
   "status": "proved",
   "theorems": [
    "Verif.C30_marginal_bid",
    "Verif.C30_of_linear_model",
    "Verif.C30_energy_prices",
    "Verif.C30_fcas_prices"
   ],
   "note": ""
  },
  {
   "property": "C31",
   "status": "partial",
   "theorems": [
    "Verif.C31_only_prices",
    "Verif.C31_errors",
    "Verif.C31_only_if",
    "Verif.C31_relaxed_prices",
    "Verif.C31_relaxation_partial",
    "Verif.C31_others_kept",
    "Verif.C31_equality_negation"
   ],
   "note": "Price-only effect, condition, errors and untouched rows are proved in full; relaxation is proved for inequalities. Equality constraints are relaxed in one direction only and the original solution can violate the new row: C31_equality_negation."
  },
  {
   "property": "C32",
   "status": "partial",
   "theorems": [
    "Verif.C32_linear_keeps_solution_partial",
    "Verif.C32_without_losses",
    "Verif.C32_uneven_negation"
   ],
   "note": "Proved for break points where no segment is longer than the next two together (true for the even spacing nempy uses). False otherwise: C32_uneven_negation."
  },
  {
   "property": "C33",
   "status": "partial",
   "theorems": [
    "Verif.C33_columns",
    "Verif.C33_transmission_partial",
    "Verif.C33_available",
    "Verif.C33_rows_without_links",
    "Verif.C33_rows_with_links_partial",
    "Verif.C33_rows_with_losses_partial",
    "Verif.C33_balance_partial",
    "Verif.C33_imbalance_partial",
    "Verif.C33_balance_iff_partial",
    "Verif.C33_region_dropped_negation",
    "Verif.C33_balance_negation"
   ],
   "note": "Columns and rows exactly characterised; by how much a row misses the balance is computed exactly (C33_imbalance_partial), and with loss factors of at most 1 a row balances exactly if the loss factors in use are 1 (C33_balance_iff_partial). A region with units and no link is dropped (C33_region_dropped_negation) and other loss factors break the balance (C33_balance_negation)."
  },
  {
   "property": "C34",
   "status": "partial",
   "theorems": [
    "Verif.C34_at_least_dispatch",
    "Verif.C34_attainable_partial",
    "Verif.C34_attainable_bidirectional_partial",
    "Verif.C34_maximal_partial",
    "Verif.C34_bidirectional_negation",
    "Verif.C34_tiny_negation"
   ],
   "note": "At least dispatch: proved. Attainable and maximal: proved for units with one direction and for bidirectional units with generator side trapeziums, coefficients not tiny. False otherwise: C34_bidirectional_negation, C34_tiny_negation."
  },
  {
   "property": "C35",
   "status": "partial",
   "theorems": [
    "Verif.Validator.C35_accepts_iff_partial",
    "Verif.Validator.C35_monotone_negation"
   ],
   "note": "Iff proved against an independent description of well formed tables. The check that price bids do not decrease is never called: C35_monotone_negation."
  },
  {
   "property": "C36",
   "status": "partial",
   "theorems": [
    "Verif.C36_constraints_reach_solver_partial",
    "Verif.C36_nothing_else",
    "Verif.C36_negation"
   ],
   "note": "Every constraint with a variable reaches the solver with summed coefficients and nothing else does. A constraint with no variable is dropped even if it cannot hold: C36_negation."
  },
  {
   "property": "C37",
   "status": "partial",
   "theorems": [
    "Verif.C37_rejected_input_partial",
    "Verif.C37_negation"
   ],
   "note": "Proved for exceptions of the validator and ModelBuildError, single violation cost. Ramp rates with a violation cost, tables of costs and other exceptions leave partial changes: C37_negation."
  },
  {
   "property": "C38",
   "status": "proved",
   "theorems": [
    "Verif.C38_needs_volume_bids",
    "Verif.C38_losses_need_interconnectors",
    "Verif.C38_elastic_needs_constraints",
    "Verif.C38_dispatch_needs_variables"
   ],
   "note": ""
  },
  {
   "property": "C39",
   "status": "partial",
   "theorems": [
    "Verif.C39_priced_bid_has_its_cost_partial",
    "Verif.C39_unpriced_bid_is_free",
    "Verif.C39_bid_for_unlisted_side_is_unconstrained"
   ],
   "note": "Proved for bids with a price and a listed unit. False otherwise: C39_unpriced_bid_is_free, C39_bid_for_unlisted_side_is_unconstrained."
  },
  {
   "property": "C40",
   "status": "proved",
   "theorems": [
    "Verif.C40_update_rhs"
   ],
   "note": ""
  },
  {
   "property": "C41",
   "status": "partial",
   "theorems": [
    "Verif.C41_ramp_rate_parameters_partial",
    "Verif.C41_chained",
    "Verif.C41_seed",
    "Verif.C41_bidirectional_negation"
   ],
   "note": "Proved for units with at most one energy row in the last dispatch. A bidirectional unit has two rows and is doubled: C41_bidirectional_negation."
  },
  {
   "property": "C42",
   "status": "proved",
   "theorems": [
    "Verif.C42_one_link",
    "Verif.C42_generic_sign"
   ],
   "note": ""
  },
  {
   "property": "C50",
   "status": "proved",
   "theorems": [
    "Verif.Rpn.C50_weighted_sum"
   ],
   "note": ""
  },
  {
   "property": "C51",
   "status": "partial",
   "theorems": [
    "Verif.Rpn.C51_follows_machine",
    "Verif.Rpn.C51_only_machine_partial",
    "Verif.Rpn.C51_short_stack",
    "Verif.Rpn.C51_add_negation",
    "Verif.Rpn.C51_constant_negation"
   ],
   "note": "Everything the machine computes the calculator computes (C51_follows_machine); the converse up to terms the code tolerates, which are listed by the predicate Tolerated. C51_add_negation and C51_constant_negation show that these are real differences."
  },
  {
   "property": "C52",
   "status": "partial",
   "theorems": [
    "Verif.Rpn.C52_groups_partial",
    "Verif.Rpn.C52_tagged_header_negation",
    "Verif.Rpn.C52_last_group_negation",
    "Verif.Rpn.C52_nested_last_negation"
   ],
   "note": "C52_groups_partial covers groups headed or followed by a header, of any nesting depth, including groups that begin with a group and end with groups. Missing: headers carrying the name of their own group, groups that end with a group but do not begin with one, and groups at the end of an equation without a header; the code gives a wrong value or raises (three negations)."
  },
  {
   "property": "C53",
   "status": "proved",
   "theorems": [
    "Verif.Rpn.C53_history_independent",
    "Verif.Rpn.C53_twice",
    "Verif.Rpn.C53_list"
   ],
   "note": ""
  },
  {
   "property": "C54",
   "status": "partial",
   "theorems": [
    "Verif.Rpn.C54_values_used",
    "Verif.Rpn.C54_update_local",
    "Verif.Rpn.C54_rejected_partial",
    "Verif.Rpn.C54_scada_negation"
   ],
   "note": "Effect and locality proved in full; rejected ids: SCADA types raise KeyError instead of ValueError (C54_scada_negation)."
  },
  {
   "property": "C55",
   "status": "partial",
   "theorems": [
    "Verif.Rpn.C55_complete_partial",
    "Verif.Rpn.C55_nested_negation"
   ],
   "note": "Proved when generic equations do not use further generic equations; false otherwise: C55_nested_negation."
  },
  {
   "property": "C56",
   "status": "partial",
   "theorems": [
    "Verif.Units.C56_follows_partial",
    "Verif.Units.C56_one_row",
    "Verif.Units.C56_unique",
    "Verif.Units.C56_conserved",
    "Verif.Units.C56_off_time_negation"
   ],
   "note": "Proved in full apart from units that are off and have spent time in mode zero (C56_off_time_negation)."
  },
  {
   "property": "C57",
   "status": "proved",
   "theorems": [
    "Verif.Units.C57_agc_limits",
    "Verif.Units.C57_never_looser"
   ],
   "note": ""
  },
  {
   "property": "C58",
   "status": "partial",
   "theorems": [
    "Verif.Units.C58_ramp_partial",
    "Verif.Units.C58_never_more",
    "Verif.Units.C58_no_error",
    "Verif.Units.C58_dropped_negation"
   ],
   "note": "Slopes, availability at every energy level and no errors proved; regulation bids of units without a row of initial conditions are dropped: C58_dropped_negation."
  },
  {
   "property": "C59",
   "status": "proved",
   "theorems": [
    "Verif.Units.C59_forecast"
   ],
   "note": ""
  },
  {
   "property": "C60",
   "status": "proved",
   "theorems": [
    "Verif.Units.C60_rounding",
    "Verif.Units.C60_volume",
    "Verif.Units.C60_price",
    "Verif.Units.C60_match",
    "Verif.Units.C60_processed"
   ],
   "note": ""
  },
  {
   "property": "C61",
   "status": "proved",
   "theorems": [
    "Verif.Units.C61_prices_unchanged"
   ],
   "note": ""
  },
  {
   "property": "C62",
   "status": "proved",
   "theorems": [
    "Verif.Units.C62_rows",
    "Verif.Units.C62_one_row"
   ],
   "note": ""
  },
  {
   "property": "C63",
   "status": "proved",
   "theorems": [
    "Verif.Inter.C63_loss_functions",
    "Verif.Inter.C63_slope"
   ],
   "note": ""
  },
  {
   "property": "C64",
   "status": "proved",
   "theorems": [
    "Verif.Inter.C64_links",
    "Verif.Inter.C64_mirrored"
   ],
   "note": ""
  },
  {
   "property": "C65",
   "status": "proved",
   "theorems": [
    "Verif.Cons.C65_partition",
    "Verif.Cons.C65_no_error",
    "Verif.Cons.C65_once",
    "Verif.Cons.C65_region_coefficients_unused"
   ],
   "note": "C65_region_coefficients_unused records that region coefficients of FCAS sets are not used."
  },
  {
   "property": "C66",
   "status": "proved",
   "theorems": [
    "Verif.Mms.C66_effective",
    "Verif.Mms.C66_dispatched"
   ],
   "note": ""
  },
  {
   "property": "C67",
   "status": "partial",
   "theorems": [
    "Verif.Mms.C67_last_started_partial",
    "Verif.Mms.C67_ended_negation"
   ],
   "note": "Latest start proved for any sorting algorithm; rows that have ended are returned: C67_ended_negation."
  },
  {
   "property": "C68",
   "status": "proved",
   "theorems": [
    "Verif.Mms.C68_used_months",
    "Verif.Mms.C68_exact_columns_skipped",
    "Verif.Mms.C68_newest",
    "Verif.Mms.C68_rows",
    "Verif.Mms.C68_once",
    "Verif.Mms.C68_none",
    "Verif.Mms.C68_months"
   ],
   "note": "C68_exact_columns_skipped: a month whose file has exactly the table's columns is skipped, the statement says so."
  },
  {
   "property": "C69",
   "status": "proved",
   "theorems": [
    "Verif.Mms.C69_months"
   ],
   "note": ""
  },
  {
   "property": "C70",
   "status": "proved",
   "theorems": [
    "Verif.Xml.C70_number",
    "Verif.Xml.C70_calendar",
    "Verif.Xml.C70_onto",
    "Verif.Xml.C70_names"
   ],
   "note": ""
  },
  {
   "property": "C71",
   "status": "proved",
   "theorems": [
    "Verif.Xml.C71_loaded",
    "Verif.Xml.C71_missing",
    "Verif.Xml.C71_offline",
    "Verif.Xml.C71_own_file",
    "Verif.Xml.C71_stale_negation"
   ],
   "note": "C71_stale_negation: after a call that raises, the object names the new interval with the old data; the statement is about calls that return."
  },
  {
   "property": "C72",
   "status": "proved",
   "theorems": [
    "Verif.Xml.C72_search",
    "Verif.Xml.C72_bad_archive_negation"
   ],
   "note": "Assumes that the archive can be reached; C72_bad_archive_negation shows that other download errors end the search."
  },
  {
   "property": "C73",
   "status": "partial",
   "theorems": [
    "Verif.Xml.C73_present_partial",
    "Verif.Xml.C73_stale",
    "Verif.Xml.C73_negation"
   ],
   "note": "Rows, order and attributes present in the file proved; an absent attribute has the value of the previous trade: C73_negation, with C73_stale saying exactly which value."
  },
  {
   "property": "C74",
   "status": "partial",
   "theorems": [
    "Verif.Units.C74_fill_partial",
    "Verif.Units.C74_repeated_negation"
   ],
   "note": "Proved if a bid without direction matches at most one price bid; otherwise it is repeated: C74_repeated_negation."
  },
  {
   "property": "C75",
   "status": "proved",
   "theorems": [
    "Verif.Units.C75_call_order",
    "Verif.Units.C75_trapeziums",
    "Verif.Units.C75_bids"
   ],
   "note": ""
  },
  {
   "property": "C76",
   "status": "proved",
   "theorems": [
    "Verif.Inter.C76_definitions",
    "Verif.Inter.C76_loss_share"
   ],
   "note": ""
  },
  {
   "property": "C77",
   "status": "proved",
   "theorems": [
    "Verif.Mms.C77_contents",
    "Verif.Mms.C77_succeeds"
   ],
   "note": ""
  },
  {
   "property": "C78",
   "status": "proved",
   "theorems": [
    "Verif.Xml.C78_populated",
    "Verif.Xml.C78_gap_negation"
   ],
   "note": "Assumes that folders have complete days only; C78_gap_negation shows that gaps are not filled."
  },
  {
   "property": "C79",
   "status": "partial",
   "theorems": [
    "Verif.Xml.C79_prices_partial",
    "Verif.Xml.C79_text_negation"
   ],
   "note": "Rows, order, directions proved; prices are left as text: C79_text_negation."
  },
  {
   "property": "C80",
   "status": "proved",
   "theorems": [
    "Verif.Xml.C80_initial_conditions",
    "Verif.Xml.C80_fast_start",
    "Verif.Xml.C80_forecasts"
   ],
   "note": ""
  },
  {
   "property": "C81",
   "status": "proved",
   "theorems": [
    "Verif.Xml.C81_violations",
    "Verif.Xml.C81_violations_intervention",
    "Verif.Xml.C81_rhs"
   ],
   "note": ""
  },
  {
   "property": "C82",
   "status": "proved",
   "theorems": [
    "Verif.Xml.C82_unit_terms",
    "Verif.Xml.C82_region_terms",
    "Verif.Xml.C82_interconnector_terms",
    "Verif.Xml.C82_links"
   ],
   "note": ""
  },
  {
   "property": "C83",
   "status": "proved",
   "theorems": [
    "Verif.Xml.C83_violation_prices",
    "Verif.Xml.C83_types"
   ],
   "note": ""
  },
  {
   "property": "C84",
   "status": "partial",
   "theorems": [
    "Verif.Xml.C84_prices_partial",
    "Verif.Xml.C84_no_error",
    "Verif.Xml.C84_lower_5min_negation",
    "Verif.Xml.C84_intervention_negation"
   ],
   "note": "Which attributes are read is proved; the attribute for LOWER5MIN is misspelt (C84_lower_5min_negation) and intervention runs are not left out (C84_intervention_negation)."
  },
  {
   "property": "C85",
   "status": "proved",
   "theorems": [
    "Verif.Xml.C85_rerun",
    "Verif.Xml.C85_not_loaded"
   ],
   "note": ""
  },
  {
   "property": "C86",
   "status": "proved",
   "theorems": [
    "Verif.Mms.C86_market_day",
    "Verif.Mms.C86_one_day"
   ],
   "note": ""
  },
  {
   "property": "C87",
   "status": "proved",
   "theorems": [
    "Verif.Mms.C87_versions"
   ],
   "note": ""
  },
  {
   "property": "C88",
   "status": "proved",
   "theorems": [
    "Verif.Mms.C88_last_download",
    "Verif.Mms.C88_nothing_downloaded"
   ],
   "note": ""
  },
  {
   "property": "C89",
   "status": "proved",
   "theorems": [
    "Verif.Units.C89_bid_rates",
    "Verif.Units.C89_scada_rates",
    "Verif.Units.C89_ramp_limits",
    "Verif.Units.C89_ramp",
    "Verif.Units.C89_bidirectional"
   ],
   "note": ""
  },
  {
   "property": "C90",
   "status": "proved",
   "theorems": [
    "Verif.Units.C90_regulation"
   ],
   "note": ""
  },
  {
   "property": "C91",
   "status": "partial",
   "theorems": [
    "Verif.Units.C91_contingency_partial"
   ],
   "note": "Proved for units with one direction. For bidirectional units the constraint that is built does not imply it: C17_bidirectional_left_edge_fails."
  },
  {
   "property": "C92",
   "status": "proved",
   "theorems": [
    "Verif.Units.C92_volume",
    "Verif.Units.C92_availability"
   ],
   "note": ""
  },
  {
   "property": "C93",
   "status": "proved",
   "theorems": [
    "Verif.Rpn.C93_rhs",
    "Verif.Rpn.C93_values",
    "Verif.Rpn.C93_rejected",
    "Verif.Rpn.C93_nemde",
    "Verif.Rpn.C93_without_generic"
   ],
   "note": ""
  },
  {
   "property": "C94",
   "status": "proved",
   "theorems": [
    "Verif.C94_problem",
    "Verif.C94_dispatch",
    "Verif.C94_infeasible"
   ],
   "note": ""
  },
  {
   "property": "C95",
   "status": "proved",
   "theorems": [
    "Verif.C95_names",
    "Verif.C95_nodup",
    "Verif.C95_kept",
    "Verif.C95_listed"
   ],
   "note": ""
  },
  {
   "property": "C96",
   "status": "proved",
   "theorems": [
    "Verif.Cons.C96_generic_exact",
    "Verif.Cons.C96_generic"
   ],
   "note": ""
  },
  {
   "property": "C97",
   "status": "partial",
   "theorems": [
    "Verif.Cons.C97_requirements_exact",
    "Verif.Cons.C97_requirements_partial",
    "Verif.Cons.C97_factor_negation"
   ],
   "note": "Region factors other than one are not used by the code (C97_factor_negation). C97_requirements_exact says what the constraints of the market are for all factors, C97_requirements_partial has the full claim for factors of one. FCAS requirements only: no region term of energy."
  },
  {
   "property": "C98",
   "status": "proved",
   "theorems": [
    "Verif.Inter.C98_regulated",
    "Verif.Inter.C98_market",
    "Verif.Inter.C98_one_direction"
   ],
   "note": ""
  },
  {
   "property": "C99",
   "status": "proved",
   "theorems": [
    "Verif.Inter.C99_regulated",
    "Verif.Inter.C99_market"
   ],
   "note": "Market links with a factor other than one or minus one are not covered: the code truncates the factor when it scales the loss segment numbers."
  },
  {
   "property": "C100",
   "status": "proved",
   "theorems": [
    "Verif.Inter.C100_balance"
   ],
   "note": ""
  },
  {
   "property": "C101",
   "status": "proved",
   "theorems": [
    "Verif.Units.C101_second_run",
    "Verif.Units.C101_stays_off",
    "Verif.Units.C101_synchronises",
    "Verif.Units.C101_file"
   ],
   "note": "Modes five and above are excluded; a unit in mode zero has mode time zero (see C56)."
  },
  {
   "property": "C102",
   "status": "proved",
   "theorems": [
    "Verif.C102_shadow_price",
    "Verif.C102_energy_price",
    "Verif.C102_fcas_price",
    "Verif.C102_demand_cap",
    "Verif.C102_dispatch"
   ],
   "note": ""
  },
  {
   "property": "C103",
   "status": "proved",
   "theorems": [
    "Verif.C103_energy",
    "Verif.C103_energy_and_fcas",
    "Verif.C103_cost_recovery",
    "Verif.C103_at_dispatch"
   ],
   "note": ""
  },
  {
   "property": "C104",
   "status": "proved",
   "theorems": [
    "Verif.C104_residue",
    "Verif.C104_at_dispatch",
    "Verif.C104_residue_nonneg",
    "Verif.C104_link",
    "Verif.C104_price_ratio",
    "Verif.C104_marginal_loss"
   ],
   "note": ""
  },
  {
   "property": "C105",
   "status": "proved",
   "theorems": [
    "Verif.C105_settlement",
    "Verif.C105_with_shortage"
   ],
   "note": ""
  },
  {
   "property": "C106",
   "status": "proved",
   "theorems": [
    "Verif.C106_demand",
    "Verif.C106_price_rises"
   ],
   "note": ""
  },
  {
   "property": "C107",
   "status": "proved",
   "theorems": [
    "Verif.C107_law_of_supply",
    "Verif.C107_one_band",
    "Verif.C107_unit"
   ],
   "note": ""
  },
  {
   "property": "C108",
   "status": "proved",
   "theorems": [
    "Verif.C108_feasible",
    "Verif.C108_cost"
   ],
   "note": ""
  },
  {
   "property": "C109",
   "status": "proved",
   "theorems": [
    "Verif.C109_reordered",
    "Verif.C109_any_order",
    "Verif.C109_constraint_sets",
    "Verif.C109_needs_volume_bids",
    "Verif.C109_same_set"
   ],
   "note": "Which parts a call is about and which it reads is listed in Spec/History.lean (Op.parts) and Spec/Reads.lean (Op.needs); independent calls are defined from the two in Spec/Order.lean. An empty table of generic constraints stops all further calls and is excluded. Histories are Benign (no division by zero)."
  },
  {
   "property": "C110",
   "status": "proved",
   "theorems": [
    "Verif.C110_same_exceptions",
    "Verif.C110_other_currency",
    "Verif.C110_dispatch"
   ],
   "note": ""
  },
  {
   "property": "C111",
   "status": "partial",
   "theorems": [
    "Verif.Xml.C111_file_partial",
    "Verif.Xml.C111_database_partial",
    "Verif.Xml.C111_repeat",
    "Verif.Xml.C111_exception_negation"
   ],
   "note": "Holds when the last set_interval returned. If it raised and the caller goes on, the database methods answer for the new interval and the file methods still for the old one (C111_exception_negation): loaders.py:68 stores the interval before the file is loaded."
  },
  {
   "property": "C112",
   "status": "proved",
   "theorems": [
    "Verif.C112_optimal_exists",
    "Verif.C112_dispatch",
    "Verif.C112_negative_cost"
   ],
   "note": "C112_negative_cost shows that the condition on violation costs is needed: make_constraints_elastic accepts negative ones."
  },
  {
   "property": "C113",
   "status": "proved",
   "theorems": [
    "Verif.C113_prices_exist",
    "Verif.C113_without_losses",
    "Verif.C113_with_losses",
    "Verif.C113_dispatch",
    "Verif.C113_solver_exists"
   ],
   "note": ""
  },
  {
   "property": "C114",
   "status": "proved",
   "theorems": [
    "Verif.C114_elastic_sets",
    "Verif.C114_feasible",
    "Verif.C114_dispatch"
   ],
   "note": ""
  },
  {
   "property": "C115",
   "status": "partial",
   "theorems": [
    "Verif.C115_row_order_partial",
    "Verif.C115_refused",
    "Verif.C115_fcas_volumes_negation",
    "Verif.C115_tie_break_negation"
   ],
   "note": "Missing: set_tie_break_constraints with bidirectional units, for which the property fails (C115_tie_break_negation: of the tied bids to generate and to consume only the pair that comes first is constrained). C115_fcas_volumes_negation: rows of one requirement set with different volumes are accepted and their order decides on the requirement."
  },
  {
   "property": "C116",
   "status": "partial",
   "theorems": [
    "Verif.C116_same_exceptions",
    "Verif.C116_other_unit_partial",
    "Verif.C116_negation"
   ],
   "note": "C116_negation: a cheap band of 0.0005 is dropped when amounts are given in a unit ten times as large (variable_ids.bids drops bands below 0.0001). Proved for histories in which no band crosses that limit. Not stated for the over constrained dispatch re-run, which uses absolute tolerances (0.0001 and 0.01)."
  },
  {
   "property": "C117",
   "status": "proved",
   "theorems": [
    "Verif.Mms.C117_any_database",
    "Verif.Mms.C117_repair",
    "Verif.Mms.C117_whole_months",
    "Verif.Mms.C117_complete",
    "Verif.Mms.C117_succeeds"
   ],
   "note": "A call that is broken off inside a download is taken as not made (the insertion of rows is one transaction)."
  },
  {
   "property": "C118",
   "status": "proved",
   "theorems": [
    "Verif.Mms.C118_own_address",
    "Verif.Mms.C118_format"
   ],
   "note": ""
  },
  {
   "property": "C119",
   "status": "proved",
   "theorems": [
    "Verif.C119_shadow_price",
    "Verif.C119_energy_price",
    "Verif.C119_served",
    "Verif.C119_fcas_price",
    "Verif.C119_dispatch"
   ],
   "note": ""
  },
  {
   "property": "C120",
   "status": "proved",
   "theorems": [
    "Verif.C120_builds",
    "Verif.C120_feasible",
    "Verif.C120_optimal",
    "Verif.C120_converse",
    "Verif.C120_same_optima",
    "Verif.C120_infeasible",
    "Verif.C120_prices",
    "Verif.C120_in_force",
    "Verif.C120_capacity"
   ],
   "note": "Violation degrees of tie-break constraints (always elastic) and interpolation weights are left as they are. C120_prices assumes that the solution of the linear pricing run violates nothing either (it may differ from the dispatch). C120_builds says when the program without violation costs can be built at all: nempy's solver interface fails when no constraint has coefficients."
  },
  {
   "property": "C121",
   "status": "partial",
   "theorems": [
    "Verif.C121_names_partial",
    "Verif.C121_refused",
    "Verif.C121_tie_break_negation"
   ],
   "note": "Missing: tie-break constraints, for which the statement is false (C121_tie_break_negation: names of tied pairs are concatenated, and two pairs can have the same name), and loss functions for some of the defined links only. Names of bid bands stay."
  },
  {
   "property": "C122",
   "status": "proved",
   "theorems": [
    "Verif.C122_demand",
    "Verif.C122_energy_prices",
    "Verif.C122_prices",
    "Verif.C122_energy_prices_of_prices",
    "Verif.C122_capacity",
    "Verif.C122_energy_prices_of_capacity"
   ],
   "note": "Prices: markets without loss functions. Capacities: calls without a violation cost."
  },
  {
   "property": "C123",
   "status": "proved",
   "theorems": [
    "Verif.C123_schedules",
    "Verif.C123_cost",
    "Verif.C123_optimal",
    "Verif.C123_dispatch",
    "Verif.C123_bands",
    "Verif.C123_links"
   ],
   "note": "The restrictions are part of the quantifier: histories with violation costs (C124) or tie-breaks are not covered, and units other than bidirectional ones with a fast start profile in joint ramping bid as generators only (for loads the code uses the rate adjusted for a generator). For bidirectional units all calls are covered except fast start profiles and joint capacity trapeziums of the load side or together with lower regulation bids of the load side, since the code treats the load side with the wrong sign or coefficient there (C11, C17). What joint ramping asks of a bidirectional unit is stated with the energy of the sides that bid for the regulation service, as the code does it; this is the net output if both sides bid (C16 shows the difference). The specification of losses includes the bound on loss variables set by the code: a loss is not larger than the largest flow the link allows."
  },
  {
   "property": "C124",
   "status": "proved",
   "theorems": [
    "Verif.C124_schedules",
    "Verif.C124_cost",
    "Verif.C124_optimal",
    "Verif.C124_dispatch"
   ],
   "note": "Bidirectional units are covered as in C123: a violation cost on ramp rates is charged for what the net output of the unit is beyond its reach, one on joint ramping for what the energy of the sides that bid for regulation, with the regulation of both sides, is beyond it. Tie-break constraints are covered if names of pairs do not clash (see C27_negation for what happens if they do). A call of make_constraints_elastic after the call that sets the constraints is the same as giving the cost there (C38)."
  },
  {
   "property": "C125",
   "status": "partial",
   "theorems": [
    "Verif.C125_same_outcome_partial",
    "Verif.C125_joint_ramping",
    "Verif.C125_joint_ramping_negation"
   ],
   "note": "Fails for set_joint_ramping_constraints_reg (C125_joint_ramping_negation): with a violation cost it raises ModelBuildError unless there are constraints for raise regulation and constraints for lower regulation, for example if no unit bids for lower regulation. C125_joint_ramping says exactly when it is accepted. Proved for all other calls; the types of generic constraints, which the code does not check, are assumed to be <=, >= or =."
  },
  {
   "property": "C126",
   "status": "proved",
   "theorems": [
    "Verif.C126_schedules",
    "Verif.C126_optimal",
    "Verif.C126_dispatch",
    "Verif.C126_ties_fails"
   ],
   "note": "Bands of less than 0.0001 MW do not count, the code drops them. Tie break constraints are left out by the quantifier: C126_ties_fails shows that they make the bands matter, as every band at a price is tied on its own. Bidirectional units and fast start profiles as in C123."
  },
  {
   "property": "C127",
   "status": "proved",
   "theorems": [
    "Verif.Validator.C127_unit_info",
    "Verif.Validator.C127_volume_bids",
    "Verif.Validator.C127_price_bids",
    "Verif.Validator.C127_capacities",
    "Verif.Validator.C127_forecasts",
    "Verif.Validator.C127_ramp_rates",
    "Verif.Validator.C127_demand",
    "Verif.Validator.C127_fcas_requirements",
    "Verif.Validator.C127_generic_constraints",
    "Verif.Validator.C127_interconnectors",
    "Verif.Validator.C127_loss_functions",
    "Verif.Validator.C127_violation_costs",
    "Verif.Validator.C127_scada_rates",
    "Verif.Validator.C127_started_units",
    "Verif.Validator.C127_fast_start_profiles",
    "Verif.Validator.C127_availabilities",
    "Verif.Validator.C127_joint_ramping",
    "Verif.Validator.C127_contingency_trapeziums",
    "Verif.Validator.C127_regulation_trapeziums",
    "Verif.Validator.C127_break_points",
    "Verif.Validator.C127_unit_coefficients",
    "Verif.Validator.C127_region_coefficients",
    "Verif.Validator.C127_interconnector_coefficients"
   ],
   "note": "The check that price bids increase is not part of it, see C35."
  },
  {
   "property": "C128",
   "status": "proved",
   "theorems": [
    "Verif.C128_same_exceptions",
    "Verif.C128_violations_first",
    "Verif.C128_met",
    "Verif.C128_same_optima",
    "Verif.C128_too_low"
   ],
   "note": "The factor exists for each market; no value is given for it. C119 gives prices against which violation costs can be compared."
  },
  {
   "property": "C129",
   "status": "proved",
   "theorems": [
    "Verif.C129_never_cheaper",
    "Verif.C129_irrelevant",
    "Verif.C129_no_others"
   ],
   "note": "A dispatch that misses part of a call whose violation cost is zero pays nothing for it, so `C129_no_others` says that nothing is paid, rather than that nothing is missed, for calls with violation costs."
  },
  {
   "property": "C130",
   "status": "proved",
   "theorems": [
    "Verif.C130_cost_change",
    "Verif.C130_monotone",
    "Verif.C130_small_change",
    "Verif.C130_still_good"
   ],
   "note": "Prices are those at the reference node (divided by the loss factor, negative for the energy of loads)."
  },
  {
   "property": "C131",
   "status": "proved",
   "theorems": [
    "Verif.C131_system_balance"
   ],
   "note": "Every region must have an energy bid or a link; the balance of a region without either is no constraint (C13)."
  },
  {
   "property": "C132",
   "status": "proved",
   "theorems": [
    "Verif.C132_schedules",
    "Verif.C132_total",
    "Verif.C132_dispatch",
    "Verif.C132_first_offer_fails"
   ],
   "note": "Units must offer the services already: C132_first_offer_fails shows that a first offer can make dispatch dearer, as ramp rates given for a unit come into force with its first bid. Tie break constraints, which depend on the bands, are left out."
  },
  {
   "property": "C133",
   "status": "proved",
   "theorems": [
    "Verif.C133_market",
    "Verif.C133_demand",
    "Verif.C133_fcas_requirements",
    "Verif.C133_capacities",
    "Verif.C133_forecasts",
    "Verif.C133_availabilities",
    "Verif.C133_contingency_trapeziums",
    "Verif.C133_regulation_trapeziums",
    "Verif.C133_fast_start_profiles",
    "Verif.C133_interconnectors",
    "Verif.C133_losses",
    "Verif.C133_generic_constraints",
    "Verif.C133_unit_coefficients",
    "Verif.C133_region_coefficients",
    "Verif.C133_interconnector_coefficients",
    "Verif.C133_violation_costs",
    "Verif.C133_volume_bids",
    "Verif.C133_price_bids",
    "Verif.C133_ramp_rates",
    "Verif.C133_joint_ramping"
   ],
   "note": "Violation costs passed to the setters are numbers. Ramp rates: if bidirectional units lack one of their two rows the call raises another error before the other tables are checked, so this is a hypothesis (hbi). Price bids, capacities and forecasts are called after the volume bids, as otherwise a call order error is raised first."
  },
  {
   "property": "C134",
   "status": "proved",
   "theorems": [
    "Verif.C134_feasible",
    "Verif.C134_cost",
    "Verif.C134_increments",
    "Verif.C134_alternative_links_fails"
   ],
   "note": "C134_alternative_links_fails shows that the claim is false if two links of one interconnector exclude each other: the assumption PlainLinks is needed."
  },
  {
   "property": "C135",
   "status": "proved",
   "theorems": [
    "Verif.C135_schedules",
    "Verif.C135_cost",
    "Verif.C135_dispatch",
    "Verif.C135_converse"
   ],
   "note": "Holds with losses and alternative links, as the set of schedules is the same in the three markets."
  },
  {
   "property": "C136",
   "status": "proved",
   "theorems": [
    "Verif.C136_violations",
    "Verif.C136_cost",
    "Verif.C136_once_met"
   ],
   "note": "Violations are weighed by their violation costs (Market.fines); for a single constraint set with one violation cost this is the sum of its violations. C136_once_met assumes that no violation cost is negative."
  },
  {
   "property": "C137",
   "status": "proved",
   "theorems": [
    "Verif.C137_schedules",
    "Verif.C137_withdrawn",
    "Verif.C137_dispatch"
   ],
   "note": "A unit has to keep some offer for each service and side it offers: constraints of a unit come into force with its bids (C132). No tie breaks: these make the split into bands matter (C126)."
  },
  {
   "property": "C138",
   "status": "proved",
   "theorems": [
    "Verif.C138_kept",
    "Verif.C138_no_other",
    "Verif.C138_cost"
   ],
   "note": "Loss factors are not zero (SpotMarket accepts no negative ones; the price bid is divided by the loss factor)."
  },
  {
   "property": "C139",
   "status": "proved",
   "theorems": [
    "Verif.C139_no_gain",
    "Verif.C139_slack",
    "Verif.C139_cost",
    "Verif.C139_alternative_links_fails"
   ],
   "note": "Interconnector links have the name of their interconnector and there are no losses, as in C134: with alternative links a limit that does not bind can matter."
  },
  {
   "property": "C140",
   "status": "proved",
   "theorems": [
    "Verif.C140_supply",
    "Verif.C140_cost",
    "Verif.C140_losses",
    "Verif.C140_level",
    "Verif.C140_no_losses"
   ],
   "note": "Demand is firm and set for every region. Loss factors are not zero (negative ones are not accepted). Losses are those of loss functions and of link loss factors (Market.totalLoss of C131); C140_no_losses says when there are none."
  },
  {
   "property": "C141",
   "status": "proved",
   "theorems": [
    "Verif.C141_spare",
    "Verif.C141_binding",
    "Verif.C141_sign",
    "Verif.C141_dispatch",
    "Verif.C141_elastic",
    "Verif.C141_fcas_elastic"
   ],
   "note": "The prices are assumed to be shadow prices of the linear model, at its solution xl; C141_dispatch is about the dispatch itself where the linear model finds nothing cheaper (as in C119). Without violation prices some unit of the region must offer the service."
  }
 ]
}