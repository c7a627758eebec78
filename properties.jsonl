{"id": "C01", "title": "Decision variables never share an id", "statement": "After any sequence of SpotMarket setter calls, including calls that raise and repeated calls, no two decision variables that dispatch() would hand to the solver have the same variable id.", "quantifier": "every market definition and every finite sequence of setter calls with arbitrary inputs", "why_tests_cant": "A shared id silently merges two quantities in the linear program; it depends on the order, repetition and failure of calls, of which there are infinitely many.", "anchors": ["src/nempy/markets.py:SpotMarket.set_unit_volume_bids", "src/nempy/markets.py:SpotMarket.set_interconnectors", "src/nempy/markets.py:SpotMarket.set_interconnector_losses", "src/nempy/markets.py:SpotMarket.make_constraints_elastic", "src/nempy/spot_market_backend/elastic_constraints.py:create_deficit_variables", "src/nempy/help_functions/helper_functions.py:save_index"]}
{"id": "C02", "title": "Constraints never share an id and never leak coefficients", "statement": "After any sequence of setter calls no two constraints handed to the solver have the same id, and every coefficient in the left hand side of a constraint was created by the call that created that constraint (or by making it elastic).", "quantifier": "every market definition and every finite sequence of setter calls", "why_tests_cant": "Id collisions only show up for particular call orders and table shapes; the failure is a silently wrong constraint, not an exception.", "anchors": ["src/nempy/markets.py:SpotMarket.set_interconnector_losses", "src/nempy/spot_market_backend/interconnectors.py:link_weights_to_inter_flow", "src/nempy/spot_market_backend/solver_interface.py:create_lhs", "src/nempy/spot_market_backend/solver_interface.py:InterfaceToSolver.add_constraints"]}
{"id": "C03", "title": "Dispatch never exceeds the bid volume", "statement": "In every solution the solver can return, the dispatch get_unit_dispatch reports for a unit, service and dispatch type is between zero and the total volume bid for it.", "quantifier": "all volume bids, all other market inputs and all feasible solutions", "why_tests_cant": "Tests look at one optimum of a few markets; the bound must hold for every feasible point of every market.", "anchors": ["src/nempy/markets.py:SpotMarket.set_unit_volume_bids", "src/nempy/markets.py:SpotMarket.get_unit_dispatch", "src/nempy/spot_market_backend/variable_ids.py:bids"]}
{"id": "C04", "title": "Every bid band becomes exactly one variable", "statement": "Each bid band with a volume of at least 0.0001 MW gives exactly one decision variable bounded by that volume; smaller bands give none.", "quantifier": "all volume bid tables", "why_tests_cant": "The reshaping has to be right for every number of units, services, dispatch types and bands.", "anchors": ["src/nempy/spot_market_backend/variable_ids.py:bids", "src/nempy/markets.py:SpotMarket.set_unit_volume_bids"]}
{"id": "C05", "title": "Objective equals the cost of the bids", "statement": "The objective value of any assignment equals the sum over price bids of dispatch times price, where energy prices are divided by the loss factor of the unit and energy bids of loads count negatively, plus violation cost times violation for elastic constraints.", "quantifier": "all price bids, loss factors, violation costs and all assignments of the decision variables", "why_tests_cant": "It is an identity over all assignments and tables, tests only compare optima.", "anchors": ["src/nempy/markets.py:SpotMarket.set_unit_price_bids", "src/nempy/spot_market_backend/objective_function.py:bids", "src/nempy/spot_market_backend/objective_function.py:scale_by_loss_factors", "src/nempy/spot_market_backend/solver_interface.py:InterfaceToSolver.add_objective_function"]}
{"id": "C06", "title": "Capacity limits hold", "statement": "After set_unit_bid_capacity_constraints without violation cost, the energy dispatch of each listed unit and dispatch type is at most its capacity in every feasible solution (for units without an energy bid: if the capacity is not negative), whatever setter calls (other than resetting or making elastic this constraint set, or resetting the bids) come before or after.", "quantifier": "all markets, limits, call histories and feasible solutions", "why_tests_cant": "Needs non interference of every other setter and holds for every feasible point.", "anchors": ["src/nempy/markets.py:SpotMarket.set_unit_bid_capacity_constraints", "src/nempy/spot_market_backend/unit_constraints.py:capacity", "src/nempy/markets.py:SpotMarket.dispatch"]}
{"id": "C07", "title": "UIGF limits hold", "statement": "After set_unconstrained_intermittent_generation_forecast_constraint without violation cost the energy dispatch of each listed generator is at most the forecast in every feasible solution (for units without an energy bid: if the forecast is not negative).", "quantifier": "all markets, forecasts, call histories and feasible solutions", "why_tests_cant": "Same as C06: universally quantified over histories and solutions.", "anchors": ["src/nempy/markets.py:SpotMarket.set_unconstrained_intermittent_generation_forecast_constraint", "src/nempy/spot_market_backend/unit_constraints.py:uigf"]}
{"id": "C08", "title": "Ramp rate limits hold", "statement": "After set_unit_ramp_rate_constraints without violation cost and fast start profiles, the energy dispatch of every listed unit with an energy bid that is not bidirectional differs from its initial output by at most ramp rate times dispatch interval in each direction, using the smaller of the bid and SCADA rates.", "quantifier": "all markets, ramp rates, SCADA rates, interval lengths, call histories and feasible solutions", "why_tests_cant": "Universally quantified over histories, tables and solutions.", "anchors": ["src/nempy/markets.py:SpotMarket.set_unit_ramp_rate_constraints", "src/nempy/spot_market_backend/unit_constraints.py:ramp_up", "src/nempy/spot_market_backend/unit_constraints.py:ramp_down", "src/nempy/spot_market_backend/ramp_rate_processing.py:_adjust_for_scada_ramp_rates"]}
{"id": "C09", "title": "Composite ramp rates follow the physical trajectory", "statement": "For a bidirectional unit the upper (lower) bound placed on net output is exactly the output reached by ramping at the rate of the side the unit is on until zero is reached and at the rate of the other side for the remaining time; a SCADA rate bounds net output in addition.", "quantifier": "all initial outputs, non negative ramp rates and positive interval lengths", "why_tests_cant": "Piecewise formula over a continuum with several boundary cases.", "anchors": ["src/nempy/spot_market_backend/ramp_rate_processing.py:_calculate_composite_ramp_rates", "src/nempy/spot_market_backend/ramp_rate_processing.py:_bidirectional_ramp_constraints", "src/nempy/markets.py:SpotMarket.set_unit_ramp_rate_constraints"]}
{"id": "C10", "title": "SCADA ramp rates only tighten", "statement": "Supplying SCADA ramp rates never loosens a ramp limit, and a missing SCADA value leaves the bid rate unchanged.", "quantifier": "all ramp rate tables and all SCADA tables with missing rows or values", "why_tests_cant": "Quantifies over all tables including missing data.", "anchors": ["src/nempy/spot_market_backend/ramp_rate_processing.py:_adjust_for_scada_ramp_rates"]}
{"id": "C11", "title": "Fast start units follow their profile", "statement": "After set_fast_start_constraints without violation cost, in every feasible solution a unit (not bidirectional) ending in mode 0 or 1 has no energy dispatch, one ending in mode 2 is exactly on the linear ramp to min loading, one ending in mode 3 is at least at min loading and one ending in mode 4 is at least on the linear ramp down to zero; remove_fast_start_constraints removes all of this.", "quantifier": "all profiles with positive mode lengths, all call histories and all feasible solutions", "why_tests_cant": "Universally quantified over profiles and solutions.", "anchors": ["src/nempy/markets.py:SpotMarket.set_fast_start_constraints", "src/nempy/markets.py:SpotMarket.remove_fast_start_constraints", "src/nempy/spot_market_backend/unit_constraints.py:create_fast_start_profile_constraints"]}
{"id": "C12", "title": "Fast start ramp adjustment", "statement": "In the second run units that end in mode 0, 1 or 2 get no ramp constraint and a unit that left mode two during the interval may reach exactly min loading plus ramping for the time since mode two ended; other units keep their rates; an unknown run type raises ValueError.", "quantifier": "all ramp tables, profiles, interval lengths and run type strings", "why_tests_cant": "Quantifies over tables and the real valued timing.", "anchors": ["src/nempy/spot_market_backend/ramp_rate_processing.py:_adjust_ramp_rates_for_fast_start_profiles"]}
{"id": "C13", "title": "Regional energy balance", "statement": "In every feasible solution with non elastic demand, for each region of the demand table with an energy bid or an interconnector, generation minus load plus interconnector flow at its regional loss factors minus the allocated interconnector losses equals demand.", "quantifier": "all markets with interconnectors, loss factors and losses, all histories and all feasible solutions", "why_tests_cant": "It is a conservation law of all feasible points.", "anchors": ["src/nempy/markets.py:SpotMarket.set_demand_constraints", "src/nempy/markets.py:SpotMarket.dispatch", "src/nempy/spot_market_backend/market_constraints.py:energy", "src/nempy/spot_market_backend/interconnectors.py:create", "src/nempy/spot_market_backend/interconnectors.py:create_loss_variables"]}
{"id": "C14", "title": "FCAS requirements hold", "statement": "In every feasible solution the total FCAS enabled over the region and service pairs of a requirement set for which somebody bids meets the requirement with the stated sense, the default sense being equality; terms linked to a set of the same name by the generic constraint links count as well.", "quantifier": "all requirement tables, markets, histories and feasible solutions", "why_tests_cant": "Universally quantified over tables and solutions.", "anchors": ["src/nempy/markets.py:SpotMarket.set_fcas_requirements_constraints", "src/nempy/spot_market_backend/market_constraints.py:fcas"]}
{"id": "C15", "title": "FCAS maximum availability holds", "statement": "In every feasible solution the dispatch of a unit for an FCAS service is at most the maximum availability set for it.", "quantifier": "all availability tables, markets, histories and feasible solutions", "why_tests_cant": "Universally quantified over tables and solutions.", "anchors": ["src/nempy/markets.py:SpotMarket.set_fcas_max_availability", "src/nempy/spot_market_backend/unit_constraints.py:fcas_max_availability"]}
{"id": "C16", "title": "Joint ramping holds", "statement": "In every feasible solution energy plus raise regulation of a generator is at most initial output plus ramp up, energy minus lower regulation is at least initial output minus ramp down, with the roles of raise and lower swapped for loads.", "quantifier": "all SCADA ramp rates, markets, histories and feasible solutions", "why_tests_cant": "Sign conventions per service and dispatch type must hold at all points.", "anchors": ["src/nempy/markets.py:SpotMarket.set_joint_ramping_constraints_reg", "src/nempy/spot_market_backend/fcas_constraints.py:joint_ramping_constraints_raise_reg", "src/nempy/spot_market_backend/fcas_constraints.py:joint_ramping_constraints_lower_reg"]}
{"id": "C17", "title": "Joint capacity keeps contingency FCAS inside the trapezium", "statement": "With the joint capacity and maximum availability constraints, in every feasible solution the contingency enablement of a unit is within its FCAS trapezium evaluated at the energy target adjusted for regulation enablement.", "quantifier": "all trapeziums with positive availability, all markets and feasible solutions", "why_tests_cant": "A geometric statement about all points of a polyhedron.", "anchors": ["src/nempy/markets.py:SpotMarket.set_joint_capacity_constraints", "src/nempy/spot_market_backend/fcas_constraints.py:joint_capacity_constraints"]}
{"id": "C18", "title": "Regulation FCAS stays inside its trapezium", "statement": "With the energy and regulation capacity and maximum availability constraints, in every feasible solution regulation enablement is within the trapezium at the energy target.", "quantifier": "all trapeziums with positive availability, all markets and feasible solutions", "why_tests_cant": "A geometric statement about all points of a polyhedron.", "anchors": ["src/nempy/markets.py:SpotMarket.set_energy_and_regulation_capacity_constraints", "src/nempy/spot_market_backend/fcas_constraints.py:energy_and_regulation_capacity_constraints"]}
{"id": "C19", "title": "Interconnectors respect limits and conserve energy", "statement": "In every feasible solution each link flow is within its limits and its contribution to the two regional balances is plus flow times the to region factor and minus flow times the from region factor, so with unit loss factors flows cancel over all regions.", "quantifier": "all interconnector tables and feasible solutions", "why_tests_cant": "Conservation over all tables and points.", "anchors": ["src/nempy/markets.py:SpotMarket.set_interconnectors", "src/nempy/spot_market_backend/interconnectors.py:create"]}
{"id": "C20", "title": "Losses interpolate the loss function", "statement": "In every feasible solution of a market with interconnector losses the loss of a link equals the linear interpolation of its loss function at the flow between the two adjacent break points around the flow, so flows stay inside the break point range.", "quantifier": "all loss functions, strictly increasing break points and feasible solutions including the SOS2 condition", "why_tests_cant": "Interpolation identity for all functions and points.", "anchors": ["src/nempy/markets.py:SpotMarket.set_interconnector_losses", "src/nempy/spot_market_backend/interconnectors.py:create_weights", "src/nempy/spot_market_backend/interconnectors.py:create_weights_must_sum_to_one", "src/nempy/spot_market_backend/interconnectors.py:link_weights_to_inter_flow", "src/nempy/spot_market_backend/interconnectors.py:link_inter_loss_to_interpolation_weights", "src/nempy/spot_market_backend/solver_interface.py:InterfaceToSolver.add_sos_type_2"]}
{"id": "C21", "title": "Losses are fully allocated", "statement": "The part of the losses of a link charged to the from region is the from region loss share and the rest is charged to the to region, so the two charges sum to the losses.", "quantifier": "all loss shares and solutions", "why_tests_cant": "Identity over all inputs.", "anchors": ["src/nempy/spot_market_backend/interconnectors.py:create_loss_variables", "src/nempy/markets.py:SpotMarket.get_region_dispatch_summary"]}
{"id": "C22", "title": "Generic constraints hold", "statement": "In every feasible solution the linked unit, region and interconnector terms of a generic constraint set to which something is linked, each multiplied by its coefficient, satisfy the constraint with its sense and right hand side, in whatever order the constraint and its links were set.", "quantifier": "all generic constraint tables, call orders and feasible solutions", "why_tests_cant": "The three sources are merged on sets; must hold for all combinations.", "anchors": ["src/nempy/markets.py:SpotMarket.set_generic_constraints", "src/nempy/markets.py:SpotMarket.link_units_to_generic_constraints", "src/nempy/markets.py:SpotMarket.link_regions_to_generic_constraints", "src/nempy/markets.py:SpotMarket.link_interconnectors_to_generic_constraints", "src/nempy/spot_market_backend/solver_interface.py:create_unit_level_generic_constraint_lhs"]}
{"id": "C23", "title": "Elastic constraints can never make the market infeasible", "statement": "For any values of the other variables there are non negative violation variables satisfying all constraints of an elastic set, the cheapest total of them is exactly the amount by which each constraint is violated, and zero violation means the original constraint holds.", "quantifier": "all constraint tables, costs and assignments", "why_tests_cant": "Existential statement over all assignments.", "anchors": ["src/nempy/markets.py:SpotMarket.make_constraints_elastic", "src/nempy/spot_market_backend/elastic_constraints.py:create_deficit_variables"]}
{"id": "C24", "title": "Reported violation degree", "statement": "After dispatch get_elastic_constraints_violation_degree equals the total amount by which the constraints of the set are violated when costs are positive and the solution is optimal, and is 0.0 for sets never made elastic.", "quantifier": "all markets, elastic sets and optimal solutions", "why_tests_cant": "Depends on optimality over all assignments.", "anchors": ["src/nempy/markets.py:SpotMarket.get_elastic_constraints_violation_degree", "src/nempy/markets.py:SpotMarket.make_constraints_elastic"]}
{"id": "C25", "title": "Setting a constraint set again replaces it", "statement": "Calling the same setter again replaces the previous constraints of that kind: the market dispatches, and prices, as if only the last call had been made.", "quantifier": "all call histories", "why_tests_cant": "Needs all histories; staleness only appears in particular combinations (elastic then inelastic).", "anchors": ["src/nempy/markets.py:SpotMarket.make_constraints_elastic", "src/nempy/markets.py:SpotMarket.set_demand_constraints", "src/nempy/markets.py:SpotMarket.dispatch"]}
{"id": "C26", "title": "Setters do not interfere", "statement": "A setter call for one kind of constraint leaves the feasible set imposed by every other kind of constraint unchanged; setting constraints of a new kind restricts the solutions by exactly these constraints.", "quantifier": "all pairs of setters, all inputs and all assignments", "why_tests_cant": "Frame property over all inputs.", "anchors": ["src/nempy/markets.py:SpotMarket.dispatch"]}
{"id": "C27", "title": "Tie break constraints share dispatch pro rata", "statement": "With tie break constraints at zero violation, two generators in the same region with equally priced energy bands dispatch the same fraction of those bands.", "quantifier": "all bid tables and feasible solutions with zero tie break violation", "why_tests_cant": "Requires every tied pair to get a constraint, for all unit and band names.", "anchors": ["src/nempy/markets.py:SpotMarket.set_tie_break_constraints", "src/nempy/spot_market_backend/unit_constraints.py:tie_break_constraints"]}
{"id": "C28", "title": "Merit order", "statement": "In an optimal dispatch a bid of a unit is only used if all cheaper bids of the unit for the same service are used fully. In a market without constraints on single units the same holds across the units of a region: if a cheaper energy band (after loss factor scaling) is not fully dispatched then no dearer band of the same region and dispatch type is dispatched.", "quantifier": "all markets without tie break constraints (across units: with bids, demand, FCAS requirements, interconnectors and losses only) and all optimal solutions", "why_tests_cant": "Statement about all optima of all linear programs.", "anchors": ["src/nempy/markets.py:SpotMarket.dispatch", "src/nempy/markets.py:SpotMarket.set_unit_price_bids", "src/nempy/markets.py:SpotMarket.set_demand_constraints"]}
{"id": "C29", "title": "Unit dispatch is the sum of its bands", "statement": "get_unit_dispatch returns exactly one row per unit, dispatch type and service with a bid variable and the value is the sum over its bands; the total over rows equals the total over variables.", "quantifier": "all bid tables and solutions", "why_tests_cant": "Aggregation over all tables.", "anchors": ["src/nempy/markets.py:SpotMarket.get_unit_dispatch"]}
{"id": "C30", "title": "Prices come from the right constraints", "statement": "get_energy_prices gives each region the shadow price of its demand constraint and get_fcas_prices gives each region and service the sum of the shadow prices of all requirement sets covering it: they are the marginal values of demand and of FCAS. In a market of bids, balances and interconnectors only, no dispatched bid costs more, and no partly used bid less, than the price of its region.", "quantifier": "all requirement tables and all dual values", "why_tests_cant": "Overlapping requirement sets give combinatorially many cases.", "anchors": ["src/nempy/markets.py:SpotMarket.get_energy_prices", "src/nempy/markets.py:SpotMarket.get_fcas_prices"]}
{"id": "C31", "title": "Over constrained dispatch re-run", "statement": "The re-run changes prices only, happens only if a price limit is reached and a generic or FCAS constraint is violated by more than 0.0001, and relaxes each violated constraint so that the original solution satisfies it without violation variables with a margin of 0.01.", "quantifier": "all markets, limits and solutions", "why_tests_cant": "Decision logic and arithmetic over all solutions.", "anchors": ["src/nempy/markets.py:SpotMarket.dispatch", "src/nempy/spot_market_backend/solver_interface.py:InterfaceToSolver.update_rhs"]}
{"id": "C32", "title": "The priced linear model contains the dispatched solution", "statement": "Fixing unused interpolation weights and unused links for pricing keeps the mixed integer solution feasible in the linear model.", "quantifier": "all break point tables and all feasible solutions", "why_tests_cant": "The three nearest break points must contain both active ones for every table.", "anchors": ["src/nempy/markets.py:SpotMarket._get_linear_model", "src/nempy/markets.py:SpotMarket._remove_unused_interpolation_weights", "src/nempy/markets.py:SpotMarket._disable_unused_link_pair", "src/nempy/spot_market_backend/solver_interface.py:InterfaceToSolver.disable_variables"]}
{"id": "C33", "title": "Region summary balances", "statement": "get_region_dispatch_summary has a row for every region with units, and dispatch plus inflow minus transmission losses minus interconnector losses equals demand.", "quantifier": "all markets and feasible solutions", "why_tests_cant": "Conservation over all markets.", "anchors": ["src/nempy/markets.py:SpotMarket.get_region_dispatch_summary", "src/nempy/markets.py:SpotMarket._get_transmission_losses", "src/nempy/markets.py:SpotMarket._get_interconnector_losses_by_region"]}
{"id": "C34", "title": "FCAS availability is attainable and not below dispatch", "statement": "The availability get_fcas_availability reports is at least the dispatch, and raising the FCAS dispatch of the unit up to it, everything else equal, violates none of the constraints considered.", "quantifier": "all markets and feasible solutions", "why_tests_cant": "Quantifies over all feasible points and increments.", "anchors": ["src/nempy/markets.py:SpotMarket.get_fcas_availability"]}
{"id": "C35", "title": "Input validation accepts exactly well formed tables", "statement": "A table passes validation iff it has all required and no unknown columns, the right types, allowed values, real and non negative numbers where demanded and no repeated key; price bids must be non decreasing over bands.", "quantifier": "all tables", "why_tests_cant": "Quantifies over all tables and schema orders.", "anchors": ["src/nempy/spot_market_backend/dataframe_validator.py:DataFrameSchema.validate", "src/nempy/spot_market_backend/dataframe_validator.py:SeriesSchema.validate", "src/nempy/markets.py:SpotMarket._validate_price_bids"]}
{"id": "C36", "title": "Every constraint reaches the solver", "statement": "Every constraint set through the API is enforced: it is present in the solver with the sum of its coefficients per variable.", "quantifier": "all markets", "why_tests_cant": "A constraint whose variables are missing is dropped silently; only visible for particular inputs.", "anchors": ["src/nempy/spot_market_backend/solver_interface.py:InterfaceToSolver.add_constraints", "src/nempy/spot_market_backend/solver_interface.py:create_lhs"]}
{"id": "C37", "title": "Rejected input leaves the market unchanged", "statement": "If a setter raises because its input is rejected, the market is exactly as before the call.", "quantifier": "all market states and inputs", "why_tests_cant": "Atomicity over all states and failure points.", "anchors": ["src/nempy/markets.py:SpotMarket.set_unit_volume_bids", "src/nempy/markets.py:SpotMarket.set_unit_price_bids", "src/nempy/markets.py:SpotMarket.set_demand_constraints", "src/nempy/markets.py:SpotMarket.set_generic_constraints"]}
{"id": "C38", "title": "Call order requirements are enforced", "statement": "Setters that need earlier calls (price bids and limits need volume bids, losses need interconnectors, elastic needs an existing constraint set, dispatch needs variables) raise an error when these are missing instead of building a wrong model.", "quantifier": "all call histories", "why_tests_cant": "Quantifies over all histories.", "anchors": ["src/nempy/markets.py:SpotMarket._check_unit_volume_bids_set", "src/nempy/markets.py:SpotMarket.set_interconnector_losses", "src/nempy/markets.py:SpotMarket.make_constraints_elastic", "src/nempy/markets.py:SpotMarket.dispatch"]}
{"id": "C39", "title": "Bids that cannot be placed are not free energy", "statement": "Every bid variable takes part in the energy or FCAS balance of its region and has the cost of its price bid.", "quantifier": "all bids and unit tables accepted by the API", "why_tests_cant": "Mismatched dispatch types or missing price bids are only visible for particular inputs.", "anchors": ["src/nempy/spot_market_backend/variable_ids.py:bids", "src/nempy/spot_market_backend/objective_function.py:bids", "src/nempy/markets.py:SpotMarket.set_unit_volume_bids"]}
{"id": "C40", "title": "Updating right hand sides", "statement": "update_rhs_values changes exactly the rows whose set has a new value and keeps all other rows and columns.", "quantifier": "all tables with unique sets", "why_tests_cant": "Quantifies over all tables and missing values.", "anchors": ["src/nempy/help_functions/helper_functions.py:update_rhs_values"]}
{"id": "C41", "title": "Dispatch chains between intervals", "statement": "construct_ramp_rate_parameters gives each ramped unit its last energy dispatch as initial output, 0 if it was not dispatched, with exactly one row per ramp rate row.", "quantifier": "all dispatch and ramp tables", "why_tests_cant": "Quantifies over all tables including bidirectional units.", "anchors": ["src/nempy/time_sequential.py:construct_ramp_rate_parameters", "src/nempy/time_sequential.py:create_seed_ramp_rate_parameters"]}
{"id": "C42", "title": "Market interconnector links are used one at a time", "statement": "In every feasible solution at most one link of each market interconnector carries flow, and generic constraints see the flow of a link with the sign of its generic constraint factor.", "quantifier": "all link tables and feasible solutions", "why_tests_cant": "Quantifies over all feasible points.", "anchors": ["src/nempy/markets.py:SpotMarket.dispatch", "src/nempy/spot_market_backend/solver_interface.py:InterfaceToSolver.add_sos_type_1", "src/nempy/spot_market_backend/solver_interface.py:create_interconnector_generic_constraint_lhs"]}
{"id": "C50", "title": "RHS equations without operators are weighted sums", "statement": "compute_constraint_rhs of an equation whose terms have no operator, no group and no branch and do not act on the stack (type U) equals the sum of multiplier times value, where a term without a value counts its multiplier.", "quantifier": "all equations of any length", "why_tests_cant": "Induction over the length of the equation.", "anchors": ["src/nempy/historical_inputs/rhs_calculator.py:_rpn_stack", "src/nempy/historical_inputs/rhs_calculator.py:_no_operator", "src/nempy/historical_inputs/rhs_calculator.py:RHSCalc.compute_constraint_rhs"]}
{"id": "C51", "title": "RPN operators follow the constraint implementation guidelines", "statement": "On ungrouped equations the calculator is the stack machine of the AEMO guidelines: each operator consumes and produces the documented stack elements, and operators needing two elements raise on a shorter stack.", "quantifier": "all equations and stacks", "why_tests_cant": "Refinement over all programs of a stack machine.", "anchors": ["src/nempy/historical_inputs/rhs_calculator.py:_rpn_stack"]}
{"id": "C52", "title": "Groups evaluate as sub equations", "statement": "A group headed by a group term contributes the value of the group evaluated on its own times the multiplier of the header, as if the header were an ordinary term with that value.", "quantifier": "all equations with groups of any size and position", "why_tests_cant": "Structural recursion over arbitrary nesting.", "anchors": ["src/nempy/historical_inputs/rhs_calculator.py:_collect_group", "src/nempy/historical_inputs/rhs_calculator.py:_rpn_stack"]}
{"id": "C53", "title": "RHS results do not depend on history", "statement": "compute_constraint_rhs depends only on the loaded data and updates made, not on which right hand sides were computed before; computing twice gives the same value.", "quantifier": "all sequences of compute and update calls", "why_tests_cant": "The implementation mutates the loaded equations; only all histories settle it.", "anchors": ["src/nempy/historical_inputs/rhs_calculator.py:RHSCalc.compute_constraint_rhs", "src/nempy/historical_inputs/rhs_calculator.py:RHSCalc._resolve_term_values", "src/nempy/historical_inputs/rhs_calculator.py:_clear_group_values"]}
{"id": "C54", "title": "Updating an SPD value takes effect and is local", "statement": "After update_spd_id_value the new value is used for that id and type and every other id and type keeps its value; ids that do not exist and types C, R and X raise ValueError.", "quantifier": "all data sets, ids, types and values", "why_tests_cant": "Quantifies over all data and lookups.", "anchors": ["src/nempy/historical_inputs/rhs_calculator.py:RHSCalc.update_spd_id_value", "src/nempy/historical_inputs/rhs_calculator.py:RHSCalc._resolve_term_value"]}
{"id": "C55", "title": "Dependency query is complete", "statement": "If a constraint is not returned by get_rhs_constraint_equations_that_depend_value then updating that SPD value does not change its right hand side.", "quantifier": "all data sets and updates", "why_tests_cant": "Completeness over all equations including nested generic equations.", "anchors": ["src/nempy/historical_inputs/rhs_calculator.py:RHSCalc.get_rhs_constraint_equations_that_depend_value"]}
{"id": "C56", "title": "Fast start modes advance by exactly the interval", "statement": "The end mode and time returned by get_fast_start_profiles_for_dispatch are those reached by following the profile for five minutes: modes never go backwards or skip, time is conserved, uncommitted units without dispatch stay off and mode four time is capped.", "quantifier": "all profiles and dispatch values", "why_tests_cant": "Real valued timing through up to four modes.", "anchors": ["src/nempy/historical_inputs/units.py:UnitData._update_modes", "src/nempy/historical_inputs/units.py:UnitData.get_fast_start_profiles_for_dispatch"]}
{"id": "C57", "title": "AGC enablement scaling uses the tighter limits", "statement": "get_processed_bids replaces regulation enablement limits by AGC limits only when they are tighter and positive and shifts the break points by the same amount, so slopes are unchanged; bids for other services are untouched. Regulation bids of units without a row of AGC limits are left out, no other bid is.", "quantifier": "all trapeziums and all AGC limits with at most one row per unit", "why_tests_cant": "Real valued case analysis over all tables.", "anchors": ["src/nempy/historical_inputs/units.py:_scaling_for_agc_enablement_limits"]}
{"id": "C58", "title": "AGC ramp scaling keeps trapezium slopes", "statement": "Limiting regulation availability by the SCADA ramp capability moves the break points so that both slopes stay the same, never increases availability at any energy level, and never drops or duplicates a bid.", "quantifier": "all trapeziums and ramp rates", "why_tests_cant": "Geometric statement over all trapeziums.", "anchors": ["src/nempy/historical_inputs/units.py:_scaling_for_agc_ramp_rates"]}
{"id": "C59", "title": "UIGF scaling", "statement": "For semi scheduled units the upper enablement limit of FCAS bids is at most the forecast with the upper slope unchanged; other bids are unchanged.", "quantifier": "all trapeziums and all forecasts with at most one per unit", "why_tests_cant": "Real valued case analysis over all tables.", "anchors": ["src/nempy/historical_inputs/units.py:_scaling_for_uigf"]}
{"id": "C60", "title": "FCAS enabling conditions", "statement": "After the scalings get_processed_bids keeps all energy bids and exactly those FCAS bids that satisfy all enabling conditions; if every FCAS volume bid has a price bid, the FCAS volume and price bids that are left match one to one.", "quantifier": "all bid tables with one row per unit, service and direction, all initial conditions with one row per unit, forecasts and AGC limits", "why_tests_cant": "A multi way split and re-merge over tables; must be right for all of them.", "anchors": ["src/nempy/historical_inputs/units.py:_enforce_preconditions_for_enabling_fcas"]}
{"id": "C61", "title": "Loss factor round trip for prices", "statement": "Prices loaded from NEMDE files, unscaled by get_processed_bids and scaled again by set_unit_price_bids, enter the objective unchanged.", "quantifier": "all prices and non zero loss factors, tables with one row per unit (initial conditions, details) and per unit, service and direction (price bids)", "why_tests_cant": "Round trip identity over all values.", "anchors": ["src/nempy/historical_inputs/units.py:UnitData._unscale_price_bids", "src/nempy/spot_market_backend/objective_function.py:scale_by_loss_factors"]}
{"id": "C62", "title": "Bidirectional units get the secondary loss factor when generating", "statement": "get_unit_info lists a unit in a direction exactly if it has initial conditions, details and price bids in that direction. The generation side of bidirectional units has the secondary loss factor when present and the primary transmission factor otherwise, multiplied by the distribution factor; with one row per unit in the tables there is one row per unit and direction.", "quantifier": "all unit tables", "why_tests_cant": "Quantifies over tables.", "anchors": ["src/nempy/historical_inputs/units.py:UnitData.get_unit_info"]}
{"id": "C63", "title": "Loss functions have the published marginal loss equation", "statement": "create_loss_functions returns a function with loss zero at zero flow whose slope plus one is the marginal loss factor equation with demand terms summed over regions.", "quantifier": "all coefficients, demands and flows", "why_tests_cant": "Identity over all flows and tables.", "anchors": ["src/nempy/historical_inputs/interconnectors.py:create_loss_functions", "src/nempy/historical_inputs/interconnectors.py:_create_function"]}
{"id": "C64", "title": "Link loss models mirror the interconnector", "statement": "For a link with generic constraint factor -1 the loss function and break points are mirrored, so the loss at a flow equals the interconnector loss at the negated flow.", "quantifier": "all loss functions, break points and flows", "why_tests_cant": "Identity over all functions.", "anchors": ["src/nempy/historical_inputs/interconnectors.py:InterconnectorData.get_interconnector_loss_model"]}
{"id": "C65", "title": "Generic and FCAS constraints partition the constraint sets", "statement": "Every constraint set with a right hand side is either returned by get_rhs_and_type_excluding_regional_fcas_constraints or is in get_fcas_requirements, never both.", "quantifier": "all constraint tables", "why_tests_cant": "Quantifies over tables.", "anchors": ["src/nempy/historical_inputs/constraints.py:ConstraintData"]}
{"id": "C66", "title": "Effective dated tables return the latest valid version", "statement": "get_data of tables with effective dates and version numbers returns exactly the rows with the latest effective date not after the interval and the highest version number for that date, for each id.", "quantifier": "all table contents and times", "why_tests_cant": "Query semantics over all tables.", "anchors": ["src/nempy/historical_inputs/mms_db.py:InputsByEffectiveDateVersionNo.get_data", "src/nempy/historical_inputs/mms_db.py:InputsByEffectiveDateVersionNoAndDispatchInterconnector.get_data"]}
{"id": "C67", "title": "Start and end dated tables", "statement": "get_data of start dated tables returns for each unit exactly the row with the latest start not after the interval, and only rows that have not ended.", "quantifier": "all table contents and times", "why_tests_cant": "Query semantics over all tables.", "anchors": ["src/nempy/historical_inputs/mms_db.py:InputsStartAndEnd.get_data"]}
{"id": "C68", "title": "Historical accumulation keeps the newest version of each key", "statement": "set_data of all history tables leaves, of all months whose file can be downloaded and has all columns of the table and another one, the rows of each key from the newest such month and nothing else; with one row per key and month no key is there twice, even if some months are missing.", "quantifier": "all sequences of monthly downloads including missing months", "why_tests_cant": "Induction over the sequence of months.", "anchors": ["src/nempy/historical_inputs/mms_db.py:_AllHistDataSource.set_data"]}
{"id": "C69", "title": "Populate downloads exactly the requested months", "statement": "DBManager.populate downloads dispatch tables for every month from the month before the start to the end month exactly once in order.", "quantifier": "all start and end months with start not after end", "why_tests_cant": "Loop over years and months with carries.", "anchors": ["src/nempy/historical_inputs/mms_db.py:DBManager.populate"]}
{"id": "C70", "title": "Interval numbers and file names are one to one", "statement": "Five minute intervals map to a market day starting at 04:05 and a number from 1 to 288, different intervals give different file names.", "quantifier": "all dates and times", "why_tests_cant": "Injectivity over all times.", "anchors": ["src/nempy/historical_inputs/xml_cache.py:XMLCacheManager._get_interval_number", "src/nempy/historical_inputs/xml_cache.py:XMLCacheManager._get_market_year_month_day", "src/nempy/historical_inputs/xml_cache.py:XMLCacheManager.get_file_name"]}
{"id": "C71", "title": "Loading an interval never returns data of another interval", "statement": "After load_interval returns, the loaded data is the file of that interval in the folder, the plain file being preferred over the over constrained one, and files of other intervals have no effect; MissingDataError is raised exactly if the file is not in the folder and a download that succeeded did not bring it; an interval in the folder is loaded without the network.", "quantifier": "all cache contents, download outcomes and histories", "why_tests_cant": "Quantifies over cache states and failure points.", "anchors": ["src/nempy/historical_inputs/xml_cache.py:XMLCacheManager.load_interval", "src/nempy/historical_inputs/xml_cache.py:XMLCacheManager.get_file_name"]}
{"id": "C72", "title": "Violation search respects its limit and range", "statement": "If every day of the archive can be downloaded, or is not there, find_intervals_with_violations returns at most limit intervals in order, all inside the range and published, each with exactly its types of violations, at least one, and misses none before the limit is reached.", "quantifier": "all ranges, limits and data", "why_tests_cant": "Loop invariant over unbounded ranges.", "anchors": ["src/nempy/historical_inputs/xml_cache.py:XMLCacheManager.find_intervals_with_violations"]}
{"id": "C73", "title": "Missing XML attributes are not filled with other values", "statement": "A volume bid attribute absent from the NEMDE file is reported as missing.", "quantifier": "all trades and attribute subsets", "why_tests_cant": "Every subset of attributes is a case.", "anchors": ["src/nempy/historical_inputs/xml_cache.py:XMLCacheManager.get_unit_volume_bids"]}
{"id": "C74", "title": "Missing bid directions are taken from the price bids", "statement": "UnitData keeps one volume bid per original bid and fills a missing direction with the direction of the matching price bid, leaving all other columns unchanged.", "quantifier": "all bid tables", "why_tests_cant": "Quantifies over tables with repeated keys.", "anchors": ["src/nempy/historical_inputs/units.py:UnitData._map_direction_to_volume_bids"]}
{"id": "C75", "title": "Trapezium getters need and reflect the processed bids", "statement": "add_fcas_trapezium_constraints raises MethodCallOrderError until get_processed_bids has been called, the trapezium getters raise it until both have been called in that order, and afterwards they return exactly the trapeziums of the FCAS bids left by get_processed_bids: all, regulation, and contingency services. get_processed_bids itself returns the same volume and price bids whatever was called before.", "quantifier": "all bid tables and all orders of calls", "why_tests_cant": "Ranges over all call histories and tables.", "anchors": ["src/nempy/historical_inputs/units.py:UnitData.add_fcas_trapezium_constraints", "src/nempy/historical_inputs/units.py:UnitData.get_fcas_max_availability", "src/nempy/historical_inputs/units.py:UnitData.get_fcas_regulation_trapeziums", "src/nempy/historical_inputs/units.py:UnitData.get_contingency_services"]}
{"id": "C76", "title": "Interconnector definitions", "statement": "get_interconnector_definitions returns exactly the regulated interconnectors, with limits from minus the import limit to the export limit and factors of one, and the links of market interconnectors, with limits from zero to the bid availability (or the capacity if there is none) and their own loss factors and factor. The loss share of Basslink is one, other loss shares are those published.", "quantifier": "all interconnector tables with one parameter row per interconnector", "why_tests_cant": "Joins over all table contents.", "anchors": ["src/nempy/historical_inputs/interconnectors.py:InterconnectorData.get_interconnector_definitions", "src/nempy/historical_inputs/interconnectors.py:InterconnectorData.get_interconnector_loss_model"]}
{"id": "C77", "title": "Dispatch tables hold exactly the requested months", "statement": "After DBManager.populate returns, get_data of a dispatch table for a time returns exactly the rows of that time in the files of the requested months that are not from an intervention run, no id twice, and nothing from before the call. populate succeeds exactly when all the files are there and no key is in the files of two months.", "quantifier": "all downloads, months, times and earlier contents", "why_tests_cant": "Induction over months with primary key checks at every step.", "anchors": ["src/nempy/historical_inputs/mms_db.py:DBManager.populate", "src/nempy/historical_inputs/mms_db.py:_MultiDataSource.add_data", "src/nempy/historical_inputs/mms_db.py:InputsBySettlementDate.get_data"]}
{"id": "C78", "title": "After populate the requested months are available offline", "statement": "Starting from a folder of complete days, after XMLCacheManager.populate returns, every interval published between the start of the first month and 04:00 of the day after the last month can be loaded without the network, and gives the contents of its own file.", "quantifier": "all archives, cache folders holding whole market days, months and intervals", "why_tests_cant": "Market days do not coincide with calendar days or months; only a proof covers every month, year end, leap year and interval.", "anchors": ["src/nempy/historical_inputs/xml_cache.py:XMLCacheManager.populate", "src/nempy/historical_inputs/xml_cache.py:XMLCacheManager.populate_by_day", "src/nempy/historical_inputs/xml_cache.py:XMLCacheManager.load_interval"]}
{"id": "C79", "title": "Price bids are read exactly", "statement": "get_unit_price_bids gives one row for each trade in the price structures, in the order of the file, with the unit, service and prices of the file; a missing direction is LOAD for loads and GENERATOR for other types. A missing price is reported as missing.", "quantifier": "all traders, trades and attribute subsets", "why_tests_cant": "Files mix single and repeated elements and any subset of attributes.", "anchors": ["src/nempy/historical_inputs/xml_cache.py:XMLCacheManager.get_unit_price_bids"]}
{"id": "C80", "title": "Initial conditions, fast start parameters and forecasts are those of the file", "statement": "Every unit has one row of initial conditions with its first condition of each name or NaN, in interventions the output of the run without intervention; fast start parameters and forecasts have exactly the units that have them in the file.", "quantifier": "all files", "why_tests_cant": "Order and presence of conditions vary by unit; loop variables could carry values from one unit to another.", "anchors": ["src/nempy/historical_inputs/xml_cache.py:XMLCacheManager.get_unit_initial_conditions", "src/nempy/historical_inputs/xml_cache.py:XMLCacheManager.get_unit_fast_start_parameters", "src/nempy/historical_inputs/xml_cache.py:XMLCacheManager.get_UIGF_values"]}
{"id": "C81", "title": "Violations and right hand sides are those of the run without intervention", "statement": "get_violations reports each kind of violation with the value for the period, or else the case; in an interval with an intervention, of the run without intervention, whatever other solutions there are. get_constraint_rhs has a row for each constraint of that run only.", "quantifier": "all files with any number and order of solutions", "why_tests_cant": "Number and order of solutions vary; interventions are rare.", "anchors": ["src/nempy/historical_inputs/xml_cache.py:XMLCacheManager.get_violations", "src/nempy/historical_inputs/xml_cache.py:XMLCacheManager.get_constraint_rhs", "src/nempy/historical_inputs/xml_cache.py:XMLCacheManager.is_intervention_period"]}
{"id": "C82", "title": "Terms of generic constraints are read completely", "statement": "The rows of a constraint set in the tables of unit, region and interconnector coefficients are the terms of the constraint in the file, each once, whether there are none, one or many; link offers are those of market interconnectors.", "quantifier": "all files", "why_tests_cant": "xmltodict gives different types for none, one and many terms.", "anchors": ["src/nempy/historical_inputs/xml_cache.py:XMLCacheManager.get_constraint_unit_lhs", "src/nempy/historical_inputs/xml_cache.py:XMLCacheManager.get_constraint_region_lhs", "src/nempy/historical_inputs/xml_cache.py:XMLCacheManager.get_constraint_interconnector_lhs", "src/nempy/historical_inputs/xml_cache.py:XMLCacheManager.get_market_interconnector_link_bid_availability"]}
{"id": "C83", "title": "Violation prices and constraint types are those of the file", "statement": "get_constraint_violation_prices has exactly one price for each kind of constraint, the number in the attribute of the case named after that kind; get_constraint_type has one row per generic constraint with its type and its violation price. An attribute that is missing or not a number makes the call raise rather than give a default.", "quantifier": "all files and all number parsers", "why_tests_cant": "Attribute names are a table of seventeen similar strings; a file tests only the values it has.", "anchors": ["src/nempy/historical_inputs/xml_cache.py:XMLCacheManager.get_constraint_violation_prices", "src/nempy/historical_inputs/xml_cache.py:XMLCacheManager.get_constraint_type"]}
{"id": "C84", "title": "Prices of services are those of the file", "statement": "get_service_prices has, for every region solution of the file, a row for each service whose price attribute it has, with that price and the region, and no other rows. (False for LOWER5MIN, whose attribute name is misspelt, and in interventions, where a region and service appear once per run; both proved.)", "quantifier": "all files with any number of region solutions", "why_tests_cant": "Which attributes are present varies by year and run; a test on one file does not see a misspelt name that is silently skipped.", "anchors": ["src/nempy/historical_inputs/xml_cache.py:XMLCacheManager.get_service_prices"]}
{"id": "C85", "title": "The rerun flag says which file was loaded", "statement": "After load_interval succeeds, is_over_constrained_dispatch_rerun is true exactly when the loaded contents are those of the over constrained dispatch file, and false exactly when they are those of the ordinary file.", "quantifier": "all caches, intervals and download outcomes", "why_tests_cant": "Depends on which of two files are in the cache and which downloads fail.", "anchors": ["src/nempy/historical_inputs/xml_cache.py:XMLCacheManager.load_interval", "src/nempy/historical_inputs/xml_cache.py:XMLCacheManager.get_file_name", "src/nempy/historical_inputs/loaders.py:RawInputsLoader.is_over_constrained_dispatch_rerun"]}
{"id": "C86", "title": "Each interval belongs to one market day", "statement": "The rows given for an interval from a table of market days are those of the day whose 04:00 to next 04:00 span contains the end of the interval; every interval is in exactly one such day, also over month and year ends.", "quantifier": "all valid times and all tables", "why_tests_cant": "Boundary at 04:00, month and year ends and leap days.", "anchors": ["src/nempy/historical_inputs/mms_db.py:InputsByDay.get_data"]}
{"id": "C87", "title": "Generic constraint versions are the ones used in the interval", "statement": "The rows of a constraint table given for an interval are exactly those whose effective date and version the dispatch table names for that constraint at that time.", "quantifier": "all tables and all populated histories of the dispatch table", "why_tests_cant": "Many versions per constraint; depends on what was downloaded.", "anchors": ["src/nempy/historical_inputs/mms_db.py:InputsByMatchDispatchConstraints.get_data"]}
{"id": "C88", "title": "Replaced tables have the last download", "statement": "After set_data calls for several months a table without history has the rows of the last month that was downloaded, restricted to its columns, with NaN for columns the file lacks; if nothing was downloaded it is unchanged and every call raised.", "quantifier": "all sequences of downloads and failures", "why_tests_cant": "Order of downloads and failures.", "anchors": ["src/nempy/historical_inputs/mms_db.py:_SingleDataSource.set_data"]}
{"id": "C89", "title": "Ramp rates in the file limit dispatch", "statement": "Bid and telemetered ramp rates and initial outputs read from the tables of an interval and passed to set_unit_ramp_rate_constraints limit energy dispatch, in every feasible dispatch, to the initial output plus and minus the smaller of the bid and the telemetered rate over the interval; net output of bidirectional units stays within what ramping over zero reaches and within the telemetered rates.", "quantifier": "all tables of bids and initial conditions, all markets in which the call is in force, all feasible dispatches", "why_tests_cant": "Which rates are missing, and which is smaller, varies by unit and direction; the tables are merged by unit.", "anchors": ["src/nempy/historical_inputs/units.py:UnitData.get_bid_ramp_rates", "src/nempy/historical_inputs/units.py:UnitData.get_scada_ramp_rates", "src/nempy/markets.py:SpotMarket.set_unit_ramp_rate_constraints"]}
{"id": "C90", "title": "Regulation stays inside the trapezium bid in the file", "statement": "With processed volume bids, maximum availabilities and regulation trapeziums of an interval in force, regulation dispatched for a unit is zero or inside the trapezium of its bid in the file at its energy dispatch, whatever scaling by AGC limits, telemetered ramp rates and forecasts was applied.", "quantifier": "all tables with one row per key, all markets with these calls in force, all feasible dispatches", "why_tests_cant": "Several scalings in sequence, each for other units; every feasible dispatch.", "anchors": ["src/nempy/historical_inputs/units.py:UnitData.get_processed_bids", "src/nempy/historical_inputs/units.py:UnitData.add_fcas_trapezium_constraints", "src/nempy/historical_inputs/units.py:UnitData.get_fcas_max_availability", "src/nempy/historical_inputs/units.py:UnitData.get_fcas_regulation_trapeziums", "src/nempy/markets.py:SpotMarket.set_energy_and_regulation_capacity_constraints"]}
{"id": "C91", "title": "Contingency services stay inside the trapezium bid in the file", "statement": "With processed volume bids, maximum availabilities and contingency trapeziums of an interval in force, enablement of a unit for a contingency service is zero or inside the trapezium of its bid in the file for every energy level that dispatched regulation can move it to. (Proved for units with one direction; for bidirectional units the constraint built does not imply it, see C17.)", "quantifier": "all tables with one row per key, all markets with these calls in force, all feasible dispatches", "why_tests_cant": "Interaction of energy, regulation and contingency variables over every feasible dispatch.", "anchors": ["src/nempy/historical_inputs/units.py:UnitData.get_processed_bids", "src/nempy/historical_inputs/units.py:UnitData.get_contingency_services", "src/nempy/markets.py:SpotMarket.set_joint_capacity_constraints", "src/nempy/markets.py:SpotMarket.set_fcas_max_availability"]}
{"id": "C92", "title": "Volumes, availabilities and forecasts in the file limit dispatch", "statement": "With processed volume bids in force, a unit is dispatched for a service and direction at most by the volume of the bands it bid in the file, and not at all if it made no such bid. With bid availabilities and forecasts in force, energy stays within the maximum availability of the bid (other than for units with a forecast before 2023/07/07 13:40) and within the forecast.", "quantifier": "all tables with one row per key and volumes that are not negative, all markets with these calls in force, all feasible dispatches", "why_tests_cant": "Bids are filtered, merged and scaled before they reach the market.", "anchors": ["src/nempy/historical_inputs/units.py:UnitData.get_processed_bids", "src/nempy/historical_inputs/units.py:UnitData.get_unit_bid_availability", "src/nempy/historical_inputs/units.py:UnitData.get_unit_uigf_limits", "src/nempy/markets.py:SpotMarket.set_unit_volume_bids", "src/nempy/markets.py:SpotMarket.set_unit_bid_capacity_constraints"]}
{"id": "C93", "title": "Right hand sides are computed from the data of the file", "statement": "A calculator created for an interval computes for a constraint the value of the terms the constraint has in the NEMDE file of the interval, also if there is a single term, with the sum of all measurements of an id, the initial output of a unit, the last entered value of an id and the availability that a market interconnector offers in its from or to region; terms that name a generic equation have the value of the equation in the file. A constraint without terms has no right hand side. Creating the calculator fails exactly if a market interconnector has an offer for a region that it does not connect. The right hand sides found by NEMDE are those of the file.", "quantifier": "all NEMDE files (with one element of measurements per type), all constraints", "why_tests_cant": "Files differ in which elements are repeated, single or missing; every term type reads another part of the file.", "anchors": ["src/nempy/historical_inputs/rhs_calculator.py:RHSCalc.__init__", "src/nempy/historical_inputs/rhs_calculator.py:RHSCalc._reformat_scada_data", "src/nempy/historical_inputs/rhs_calculator.py:RHSCalc._format_generic_equations", "src/nempy/historical_inputs/rhs_calculator.py:RHSCalc._format_rhs_constraint_equations", "src/nempy/historical_inputs/rhs_calculator.py:RHSCalc._format_mnsp_availability", "src/nempy/historical_inputs/rhs_calculator.py:RHSCalc.compute_constraint_rhs", "src/nempy/historical_inputs/rhs_calculator.py:RHSCalc.get_nemde_rhs"]}
{"id": "C94", "title": "Dispatch fails exactly if there is no optimal dispatch", "statement": "With a solver that is right, dispatch raises ValueError exactly if the market has no optimal solution, and otherwise leaves an optimal solution and its cost. The constraints printed before the exception are the first ones of the program, without them there is a solution, and no smaller number of first constraints is enough.", "quantifier": "all markets whose demand and FCAS requirement constraints each have at least one variable, every correct solver", "why_tests_cant": "Ranges over every market and every infeasible program.", "anchors": ["src/nempy/markets.py:SpotMarket.dispatch", "src/nempy/spot_market_backend/solver_interface.py:InterfaceToSolver.optimize", "src/nempy/spot_market_backend/solver_interface.py:find_problem_constraint"]}
{"id": "C95", "title": "Names of constraint sets", "statement": "get_constraint_set_names lists exactly the names that make_constraints_elastic accepts, without repetition; after a successful call of a setter its constraint sets are listed, and a listed name stays listed whatever is called later, other than fast start constraints that are removed.", "quantifier": "all reachable markets, all later calls", "why_tests_cant": "The names accumulate over arbitrary sequences of calls.", "anchors": ["src/nempy/markets.py:SpotMarket.get_constraint_set_names", "src/nempy/markets.py:SpotMarket.make_constraints_elastic", "src/nempy/markets.py:SpotMarket.remove_fast_start_constraints"]}
{"id": "C96", "title": "Generic constraints of a NEMDE file hold in the dispatch", "statement": "If the left hand sides and right hand sides that ConstraintData gives for an interval are passed to a market, then in every dispatch every constraint of the NEMDE file without region terms holds: the dispatch of the units for the services of the terms and the flows of the interconnectors, times the factors in the file, are related to the right hand side in the file by the type in the file. The generic constraints of the market say nothing else. Constraints of which no unit and no interconnector is in the market are left out.", "quantifier": "all NEMDE files with different constraint ids, all markets with these calls in any history, all feasible solutions", "why_tests_cant": "Composes the reading of arbitrary files with arbitrary histories of market calls and all solutions.", "anchors": ["src/nempy/historical_inputs/xml_cache.py:XMLCacheManager.get_constraint_rhs", "src/nempy/historical_inputs/xml_cache.py:XMLCacheManager.get_constraint_type", "src/nempy/historical_inputs/xml_cache.py:XMLCacheManager.get_constraint_unit_lhs", "src/nempy/historical_inputs/xml_cache.py:XMLCacheManager.get_constraint_interconnector_lhs", "src/nempy/historical_inputs/constraints.py:ConstraintData.get_rhs_and_type_excluding_regional_fcas_constraints", "src/nempy/historical_inputs/constraints.py:ConstraintData.get_unit_lhs", "src/nempy/historical_inputs/constraints.py:ConstraintData.get_interconnector_lhs", "src/nempy/markets.py:SpotMarket.set_generic_constraints", "src/nempy/markets.py:SpotMarket.link_units_to_generic_constraints", "src/nempy/markets.py:SpotMarket.link_interconnectors_to_generic_constraints"]}
{"id": "C97", "title": "Constraints of a NEMDE file with region terms hold in the dispatch", "statement": "If also the requirements that ConstraintData gives for an interval are passed to the market, then in every dispatch every constraint of the NEMDE file with region terms holds: the volumes enabled for the services in the regions, the dispatch of units and the flows of interconnectors, times the factors in the file, are related to the right hand side in the file by the type in the file.", "quantifier": "all NEMDE files with different constraint ids, all markets with these calls in any history, all feasible solutions", "why_tests_cant": "Composes the reading of arbitrary files with arbitrary histories of market calls and all solutions.", "anchors": ["src/nempy/historical_inputs/xml_cache.py:XMLCacheManager.get_constraint_region_lhs", "src/nempy/historical_inputs/constraints.py:ConstraintData.get_fcas_requirements", "src/nempy/historical_inputs/constraints.py:ConstraintData.get_rhs_and_type_excluding_regional_fcas_constraints", "src/nempy/markets.py:SpotMarket.set_fcas_requirements_constraints"]}
{"id": "C98", "title": "Flow limits of the MMS tables hold in the dispatch", "statement": "If the interconnector definitions that InterconnectorData gives for an interval are passed to a market, then in every dispatch the flow of a regulated interconnector is between minus the import limit and the export limit of the table, the flow of a link of a market interconnector is between zero and the availability of its bid (the maximum capacity if it has none), and two links of a market interconnector do not both carry flow.", "quantifier": "all tables with different interconnector ids, all markets with this call in any history, all feasible solutions", "why_tests_cant": "Composes merges of arbitrary tables with arbitrary histories of market calls and all solutions.", "anchors": ["src/nempy/historical_inputs/interconnectors.py:InterconnectorData.get_interconnector_definitions", "src/nempy/historical_inputs/interconnectors.py:_format_interconnector_definitions", "src/nempy/historical_inputs/interconnectors.py:_format_mnsp_transmission_loss_factors", "src/nempy/markets.py:SpotMarket.set_interconnectors"]}
{"id": "C99", "title": "Losses in the dispatch follow the loss equations of the MMS tables", "statement": "If also the loss functions and break points that InterconnectorData gives are passed to the market, then in every dispatch the loss of an interconnector is the linear interpolation, between neighbouring break points of the table, of the loss function whose derivative is the marginal loss equation of the tables (constant, demand and flow coefficients, with the regional demands of the interval) minus one. For links of market interconnectors this holds with the flow times the factor of the link, if the factor is one or minus one.", "quantifier": "all tables with different interconnector ids and increasing break points, all markets with these calls in any history, all feasible solutions", "why_tests_cant": "Quantifies over coefficients, demands, break points, histories and solutions; tests sample flows.", "anchors": ["src/nempy/historical_inputs/interconnectors.py:InterconnectorData.get_interconnector_loss_model", "src/nempy/historical_inputs/interconnectors.py:create_loss_functions", "src/nempy/markets.py:SpotMarket.set_interconnector_losses"]}
{"id": "C100", "title": "Every region balances with the demand and loss shares of the MMS tables", "statement": "If the interconnector definitions, the loss model and the operational demand for an interval are passed to a market, then in every dispatch, in every region with demand that has an energy bid or a link, generation minus load plus imports minus exports (times the loss factors of the links) equals the total demand of the table plus the shares of the losses charged to the region. The shares are those of the table.", "quantifier": "all tables with different interconnector ids, all markets with these calls in any history, all feasible solutions", "why_tests_cant": "Composes merges of arbitrary tables with arbitrary histories of market calls and all solutions.", "anchors": ["src/nempy/historical_inputs/interconnectors.py:InterconnectorData", "src/nempy/historical_inputs/demand.py:DemandData.get_operational_demand", "src/nempy/markets.py:SpotMarket.set_demand_constraints", "src/nempy/markets.py:SpotMarket.set_interconnectors", "src/nempy/markets.py:SpotMarket.set_interconnector_losses"]}
{"id": "C101", "title": "Fast start units follow their profile through both runs", "statement": "If a market is dispatched, the dispatch is passed to get_fast_start_profiles_for_dispatch, and its result to set_fast_start_constraints for a second dispatch, then in the second dispatch every fast start unit agrees with the mode that its profile in the file reaches in five minutes, where a unit that is off starts exactly if it was dispatched in the first run. A unit that is off and was not dispatched in the first run stays off, and so does a unit that was dispatched and needs five minutes or more to synchronise.", "quantifier": "all profiles with modes zero to four, all pairs of markets and histories, all solutions of both runs", "why_tests_cant": "Two optimisation runs are composed with a mode machine, for all profiles and all solutions.", "anchors": ["src/nempy/historical_inputs/units.py:UnitData.get_fast_start_profiles_for_dispatch", "src/nempy/markets.py:SpotMarket.get_unit_dispatch", "src/nempy/markets.py:SpotMarket.set_fast_start_constraints", "src/nempy/historical_inputs/xml_cache.py:XMLCacheManager.get_unit_fast_start_parameters"]}
{"id": "C102", "title": "Violation prices cap market prices", "statement": "If a constraint set was made elastic, the shadow price of each of its constraints is at most the violation price, and it is not negative for a requirement to reach at least the right hand side, not positive for one to stay at or below it, and at least minus the violation price for an equality. So the reported energy price of every region is between minus the violation price of the demand constraints and the violation price, and the reported price of an FCAS in a region is between zero and the sum of the violation prices of the requirements that apply to it.", "quantifier": "all histories in which the set was made elastic, all shadow prices at an optimal solution of the linear model", "why_tests_cant": "Prices depend on all bids and constraints at once; the cap has to hold for every market and every choice of shadow prices.", "anchors": ["src/nempy/markets.py:SpotMarket.make_constraints_elastic", "src/nempy/markets.py:SpotMarket.get_energy_prices", "src/nempy/markets.py:SpotMarket.get_fcas_prices", "src/nempy/markets.py:SpotMarket.set_demand_constraints", "src/nempy/markets.py:SpotMarket.set_fcas_requirements_constraints", "src/nempy/spot_market_backend/elastic_constraints.py:create_deficit_variables"]}
{"id": "C103", "title": "Prices and dispatch are an equilibrium for units", "statement": "At the reported energy and FCAS prices no unit and no group of units would gain from another schedule: for every schedule that differs only in the dispatch of these units and respects their bids and all constraints other than the regional energy balances and FCAS requirements, what they earn at the prices less the cost of their bids is at most what it is in the solution the prices come from. Units that could have been left out recover the cost of their bids.", "quantifier": "all histories of calls, all shadow prices at an optimal solution of the linear model, all groups of units and all other schedules", "why_tests_cant": "Ranges over all deviations of all units at the prices of an optimisation over all constraints.", "anchors": ["src/nempy/markets.py:SpotMarket.get_energy_prices", "src/nempy/markets.py:SpotMarket.get_fcas_prices", "src/nempy/markets.py:SpotMarket.dispatch", "src/nempy/markets.py:SpotMarket.set_unit_price_bids", "src/nempy/markets.py:SpotMarket.set_demand_constraints", "src/nempy/markets.py:SpotMarket.set_fcas_requirements_constraints"]}
{"id": "C104", "title": "Interconnectors earn the most they can at market prices; prices differ by marginal losses", "statement": "At the reported energy prices no other flows, losses and interpolation weights that respect all constraints but the regional balances earn more for the interconnectors than those of the solution the prices come from, which are the reported ones if break points are evenly spaced and that solution is one the dispatch allows; they do not lose money if they could be idle. So if the flow of a link can both increase and decrease, the prices of its two regions differ exactly by the loss factors of the link and its marginal loss, split by the share of losses.", "quantifier": "all histories of calls, all shadow prices at an optimal solution of the linear model, all other flows", "why_tests_cant": "Ranges over all flows and all prices; the relation of prices holds for every loss function and share.", "anchors": ["src/nempy/markets.py:SpotMarket.get_energy_prices", "src/nempy/markets.py:SpotMarket.set_interconnectors", "src/nempy/markets.py:SpotMarket.set_interconnector_losses", "src/nempy/markets.py:SpotMarket.set_demand_constraints", "src/nempy/spot_market_backend/interconnectors.py:create_loss_variables"]}
{"id": "C105", "title": "Settlement at the reported prices balances", "statement": "What the demand of the regions costs at the reported energy prices is exactly what the units earn at the prices of their regions plus what the interconnectors earn by the difference of prices, less the losses charged to the regions. With elastic demand constraints the violation price of all unserved or excess energy is added.", "quantifier": "all histories of calls, with demand constraints elastic or not, all feasible solutions (elastic: all optimal solutions and shadow prices)", "why_tests_cant": "An identity over all markets, flows, losses and loss shares.", "anchors": ["src/nempy/markets.py:SpotMarket.get_energy_prices", "src/nempy/markets.py:SpotMarket.get_unit_dispatch", "src/nempy/markets.py:SpotMarket.get_interconnector_flows", "src/nempy/markets.py:SpotMarket.set_demand_constraints", "src/nempy/markets.py:SpotMarket.set_interconnector_losses"]}
{"id": "C106", "title": "Prices move with demand", "statement": "If demand is changed and everything else stays the same, the cost of the dispatch changes by at least the change of demand valued at the prices before and by at most the change valued at the prices after. So if the demand of one region rises and losses are not modelled, the reported energy price of the region does not fall.", "quantifier": "all pairs of histories of calls that differ only in the demand of set_demand_constraints (not elastic), all shadow prices at optimal solutions of the two linear models; with losses the two linear models fix the same interpolation weights", "why_tests_cant": "A comparison of two optimisations over all market definitions.", "anchors": ["src/nempy/markets.py:SpotMarket.set_demand_constraints", "src/nempy/markets.py:SpotMarket.get_energy_prices", "src/nempy/markets.py:SpotMarket.dispatch", "src/nempy/markets.py:SpotMarket.objective_value"]}
{"id": "C107", "title": "Raising a price bid never increases dispatch", "statement": "If price bids are changed and everything else stays the same, the changes of the bid prices at the reference node times the changes of the dispatched volumes add up to at most zero. So a unit that raises one price band, or all bands of a service by the same amount, is not dispatched more; a load that is willing to pay more is not dispatched less.", "quantifier": "all pairs of histories of calls that differ only in one set_unit_price_bids call (tie break constraints, which depend on prices, not set after it), all optimal solutions", "why_tests_cant": "A comparison of two optimisations over all market definitions and bids.", "anchors": ["src/nempy/markets.py:SpotMarket.set_unit_price_bids", "src/nempy/markets.py:SpotMarket.get_unit_dispatch", "src/nempy/markets.py:SpotMarket.dispatch"]}
{"id": "C108", "title": "Loosening a limit never makes dispatch dearer", "statement": "If the limits of a call are loosened - higher unit capacities, higher unconstrained intermittent generation forecasts, higher FCAS maximum availability, lower FCAS requirements, easier right hand sides of generic constraints - and everything else stays the same, all feasible schedules remain feasible and the cost of the dispatch does not rise.", "quantifier": "all pairs of histories of calls that differ only in one such call, elastic or not, all optimal solutions", "why_tests_cant": "A comparison of two optimisations over all market definitions.", "anchors": ["src/nempy/markets.py:SpotMarket.set_unit_bid_capacity_constraints", "src/nempy/markets.py:SpotMarket.set_unconstrained_intermittent_generation_forecast_constraint", "src/nempy/markets.py:SpotMarket.set_fcas_max_availability", "src/nempy/markets.py:SpotMarket.set_fcas_requirements_constraints", "src/nempy/markets.py:SpotMarket.set_generic_constraints", "src/nempy/markets.py:SpotMarket.dispatch", "src/nempy/markets.py:SpotMarket.objective_value"]}
{"id": "C109", "title": "The order of independent setter calls does not matter", "statement": "Setter calls that are about different parts of the market definition, and of which neither reads what the other sets, can be made in either order: the program can be built for both orders or for neither, the possible reports on dispatches and on optimal dispatches are the same (cost, unit dispatch, flows, regional summary, violation degrees) with the same energy and FCAS prices, and each call raises the same exception or none. In particular, once bids and interconnectors are set, setters of different constraint sets can be called in any order.", "quantifier": "all histories of calls (bids, constraints, interconnectors, links, elastic constraints, removals), all ways to exchange neighbouring independent calls", "why_tests_cant": "Needs all histories and all permutations of them; ids of variables and constraints differ between the orders, so equality of the outcome is not visible in the tables.", "anchors": ["src/nempy/markets.py:SpotMarket.set_unit_volume_bids", "src/nempy/markets.py:SpotMarket.set_demand_constraints", "src/nempy/markets.py:SpotMarket.set_generic_constraints", "src/nempy/markets.py:SpotMarket.make_constraints_elastic", "src/nempy/markets.py:SpotMarket.dispatch", "src/nempy/markets.py:SpotMarket.get_unit_dispatch"]}
{"id": "C110", "title": "The currency does not matter", "statement": "Multiplying all price bids and all violation costs by the same positive number changes nothing but amounts of money: every call raises the same exception or none, the same dispatches are possible and optimal with the same unit dispatch, flows and violation degrees, and the value of the objective and all energy and FCAS prices are multiplied by that number. This includes tie break constraints, elastic constraints and the over constrained dispatch re-run if its price limits are converted too.", "quantifier": "all histories of calls, all positive factors, all solutions and all solvers that do not themselves depend on the currency", "why_tests_cant": "Must hold for all inputs; an absolute threshold or a constant cost anywhere would break it only for some amounts.", "anchors": ["src/nempy/markets.py:SpotMarket.set_unit_price_bids", "src/nempy/markets.py:SpotMarket.make_constraints_elastic", "src/nempy/markets.py:SpotMarket.set_tie_break_constraints", "src/nempy/markets.py:SpotMarket.dispatch", "src/nempy/markets.py:SpotMarket.get_energy_prices", "src/nempy/markets.py:SpotMarket.get_fcas_prices"]}
{"id": "C111", "title": "All raw inputs are of one interval", "statement": "After any history of set_interval calls, of which some may have raised, all methods of the loader answer for the interval asked for last: those that read the NEMDE file from the file of that interval in the cache, those that read the database with the rows in force at that interval. Asking again for an interval in the cache gives the same inputs without the network.", "quantifier": "all histories of set_interval calls, downloads and failures, all caches and tables", "why_tests_cant": "State left over from an earlier interval or from a call that raised shows only after particular histories.", "anchors": ["src/nempy/historical_inputs/loaders.py:RawInputsLoader.set_interval", "src/nempy/historical_inputs/loaders.py:RawInputsLoader.get_unit_volume_bids", "src/nempy/historical_inputs/loaders.py:RawInputsLoader.get_regional_loads", "src/nempy/historical_inputs/loaders.py:RawInputsLoader.get_unit_details", "src/nempy/historical_inputs/loaders.py:RawInputsLoader.get_interconnector_loss_segments"]}
{"id": "C112", "title": "A market whose constraints can be met has an optimal dispatch", "statement": "If no violation cost given to the market is negative, then whenever some dispatch meets all constraints there is one of least cost: with a solver that finds optimal solutions, dispatch raises ValueError only if the constraints contradict each other, and otherwise ends with a dispatch of least cost.", "quantifier": "all histories of calls without negative violation costs, all market inputs, with and without interconnector losses and alternative links", "why_tests_cant": "A program without an optimum (costs that fall without end) shows only for particular combinations of prices, costs and constraints.", "anchors": ["src/nempy/markets.py:SpotMarket.dispatch", "src/nempy/markets.py:SpotMarket.make_constraints_elastic", "src/nempy/spot_market_backend/solver_interface.py:InterfaceToSolver.optimize"]}
{"id": "C113", "title": "Prices exist", "statement": "If no violation cost is negative, then whenever the linear model that prices are taken from can be solved, its constraints have shadow prices; so with a solver that reports them, the prices left by dispatch are shadow prices at a least-cost solution. It can be solved by every dispatch without losses, and with losses on evenly spaced break points.", "quantifier": "all histories of calls without negative violation costs, all market inputs", "why_tests_cant": "Existence of dual values for every input is a theorem on linear programs, not something examples show.", "anchors": ["src/nempy/markets.py:SpotMarket.dispatch", "src/nempy/markets.py:SpotMarket._get_linear_model", "src/nempy/markets.py:SpotMarket.get_energy_prices", "src/nempy/markets.py:SpotMarket.get_fcas_prices"]}
{"id": "C114", "title": "If everything is elastic a dispatch always exists", "statement": "In a market without losses in which every constraint was made elastic with a cost for it and whose interconnectors may carry no flow, dispatch never fails for lack of a solution: some dispatch meets everything once violations are paid for, and with costs that are not negative there is one of least total cost. More generally a dispatch that violates elastic constraints only, of any number of sets, becomes feasible by changing violation variables only.", "quantifier": "all histories of calls, all numbers of elastic constraint sets, all dispatches", "why_tests_cant": "Which sets conflict depends on the numbers; the claim covers all of them.", "anchors": ["src/nempy/markets.py:SpotMarket.make_constraints_elastic", "src/nempy/markets.py:SpotMarket.dispatch", "src/nempy/spot_market_backend/elastic_constraints.py:create_deficit_variables"]}
{"id": "C115", "title": "The order of the rows of input tables does not matter", "statement": "Giving the rows of the tables of a market (units, regions and the tables of every call) in another order changes nothing a user can see apart from the order of rows of the results: every call raises the same exception or none, and the markets have the same feasible and least-cost dispatches, the same objective, violation degrees and prices. The rows of one FCAS requirement set have to agree in volume and type (otherwise the first row decides), and loss functions are given for all links.", "quantifier": "all histories of calls, all permutations of the rows of each table", "why_tests_cant": "Tests use tables in one order; merges, de-duplication and id assignment depend on the order inside, and the number of orders is unbounded.", "anchors": ["src/nempy/markets.py:SpotMarket.set_unit_volume_bids", "src/nempy/markets.py:SpotMarket.set_demand_constraints", "src/nempy/markets.py:SpotMarket.set_fcas_requirements_constraints", "src/nempy/markets.py:SpotMarket.set_interconnector_losses", "src/nempy/markets.py:SpotMarket.dispatch", "src/nempy/markets.py:SpotMarket.get_unit_dispatch", "src/nempy/help/helper_functions.py:save_index"]}
{"id": "C116", "title": "The unit of power does not matter", "statement": "Giving all amounts of power (bid volumes, limits, ramp rates, initial outputs, demand, requirements, trapeziums, link limits, break points, loss functions, right hand sides) in another unit, say kilowatts instead of megawatts, with costs per unit of power as they are and costs per share (tie break and interpolation weights) converted, converts the dispatch, the flows, the losses and the violations and changes no price; every call raises the same exception or none. Bands below 0.0001 are dropped by the code, so no band may cross that limit.", "quantifier": "all histories of calls, all positive conversion factors", "why_tests_cant": "An absolute tolerance or a constant with a hidden unit anywhere between the inputs and the solver would break it for some inputs only; tests use one unit.", "anchors": ["src/nempy/markets.py:SpotMarket.set_unit_volume_bids", "src/nempy/markets.py:SpotMarket.set_demand_constraints", "src/nempy/markets.py:SpotMarket.set_interconnector_losses", "src/nempy/markets.py:SpotMarket.set_tie_break_constraints", "src/nempy/markets.py:SpotMarket.dispatch", "src/nempy/markets.py:SpotMarket.get_unit_dispatch", "src/nempy/markets.py:SpotMarket.get_energy_prices", "src/nempy/spot_market_backend/variable_ids.py:bids"]}
{"id": "C117", "title": "Filling the database again repairs it", "statement": "Whatever is in the database, and wherever an earlier populate raised or was broken off, calling populate leaves the same tables and raises the same exception or none; other tables in the database are not touched. It returns exactly if the archive has all files it needs (files missing for tables filled with all history are skipped) and no key of a dispatch table is in two months; then every table of the manager is complete. If it raises or is broken off, each dispatch table holds whole months, from the first one on.", "quantifier": "all contents of the database, all archives, all ranges of months, all points at which earlier calls were broken off, all points at which the call is broken off (between downloads)", "why_tests_cant": "Needs every break-off point, every number of months and any earlier content; tests download a month or two into an empty database.", "anchors": ["src/nempy/historical_inputs/mms_db.py:DBManager.populate", "src/nempy/historical_inputs/mms_db.py:DBManager.create_tables", "src/nempy/historical_inputs/mms_db.py:_MMSTable.create_table_in_sqlite_db", "src/nempy/historical_inputs/mms_db.py:_MultiDataSource.add_data", "src/nempy/historical_inputs/mms_db.py:_SingleDataSource.set_data", "src/nempy/historical_inputs/mms_db.py:_AllHistDataSource.set_data"]}
{"id": "C118", "title": "Every table and month has its own address", "statement": "The address a month of a table is downloaded from is that of AEMO's archive (file names changed in August 2024), and different tables, years or months have different addresses.", "quantifier": "all tables, years and months", "why_tests_cant": "Tests can download a few files only; a padding or a separator that is left out makes two of infinitely many addresses the same.", "anchors": ["src/nempy/historical_inputs/mms_db.py:_MMSTable.get_url", "src/nempy/historical_inputs/mms_db.py:_download_to_df"]}
{"id": "C119", "title": "A shortage sets the price", "statement": "An elastic constraint that is violated in the solution the prices come from has exactly its violation price as its shadow price (with the sign of the violation). So a region with unserved energy has the violation price of demand as its energy price, a region with too much energy its negative, a region priced strictly in between gets exactly its demand, and a service all of whose requirement sets are short is priced at the sum of their violation prices.", "quantifier": "all histories of calls, all violation prices, all optimal solutions and shadow prices", "why_tests_cant": "The price must be exact for every mix of bids, networks and constraints that can lead to a shortage.", "anchors": ["src/nempy/markets.py:SpotMarket.set_demand_constraints", "src/nempy/markets.py:SpotMarket.set_fcas_requirements_constraints", "src/nempy/markets.py:SpotMarket.make_constraints_elastic", "src/nempy/markets.py:SpotMarket.get_energy_prices", "src/nempy/markets.py:SpotMarket.get_fcas_prices", "src/nempy/markets.py:SpotMarket.dispatch"]}
{"id": "C120", "title": "Elastic constraints that are met change nothing", "statement": "A violation cost only matters when a constraint is violated. If a dispatch with violation costs reports no violation, it is a dispatch of the same market built without the violation costs (and without the calls that make constraints elastic), with the same cost, unit dispatch, flows and regional results. If the cheapest dispatch violates nothing, the cheapest dispatches that violate nothing are exactly the cheapest ones of the market without violation costs, and the prices are also prices of that market. If the market without violation costs is infeasible, a positive violation is reported. A constraint call with a violation cost binds every dispatch that reports no violation as the call without the cost does.", "quantifier": "all histories of calls with any violation costs, all feasible and optimal dispatches, all shadow prices", "why_tests_cant": "Two different programs are compared, for every market and every history; a test compares one pair of runs.", "anchors": ["src/nempy/markets.py:SpotMarket.make_constraints_elastic", "src/nempy/markets.py:SpotMarket.get_elastic_constraints_violation_degree", "src/nempy/markets.py:SpotMarket.set_unit_bid_capacity_constraints", "src/nempy/markets.py:SpotMarket.set_demand_constraints", "src/nempy/markets.py:SpotMarket.dispatch", "src/nempy/markets.py:SpotMarket.get_energy_prices"]}
{"id": "C121", "title": "Names do not matter", "statement": "Units, regions, interconnectors, links and constraint sets can be given any other names, different names for different things, in all tables: the market and each call are refused or accepted as before with the same exceptions, a program can be built for both markets or for neither, and the dispatches, costs, flows, regional results, violation degrees and prices that are possible are the same up to the names and the order of the rows of the reported tables.", "quantifier": "all injective renamings, all markets and histories of calls, all feasible and optimal dispatches and all shadow prices of either market", "why_tests_cant": "The volume bids are sorted by names and joins are made by names; a test uses one set of names.", "anchors": ["src/nempy/markets.py:SpotMarket.set_unit_volume_bids", "src/nempy/markets.py:SpotMarket.set_tie_break_constraints", "src/nempy/markets.py:SpotMarket.set_interconnectors", "src/nempy/markets.py:SpotMarket.set_generic_constraints", "src/nempy/markets.py:SpotMarket.dispatch", "src/nempy/spot_market_backend/variable_ids.py:bids", "src/nempy/spot_market_backend/unit_constraints.py:tie_break_constraints"]}
{"id": "C122", "title": "Regions that nothing connects are dispatched independently", "statement": "If no interconnector, no unit, no generic constraint and no FCAS requirement reaches from a group of regions to the others, then a change of demand, of prices of bids or of capacities outside the group leaves the dispatch of the group optimal: any optimal dispatch of the group before the change together with any optimal dispatch of the rest after the change is an optimal dispatch after the change. Without loss functions the energy prices of the group before the change are valid prices after it too.", "quantifier": "all markets and histories of calls, all groups of regions that are not connected with the others in the sense stated, all changes outside the group, all optimal dispatches and shadow prices of both markets", "why_tests_cant": "A test compares one pair of markets; an accidental join of a constraint with variables of another region shows only for particular names, ids or orders of calls.", "anchors": ["src/nempy/markets.py:SpotMarket.set_demand_constraints", "src/nempy/markets.py:SpotMarket.set_unit_price_bids", "src/nempy/markets.py:SpotMarket.set_unit_bid_capacity_constraints", "src/nempy/markets.py:SpotMarket.set_interconnectors", "src/nempy/markets.py:SpotMarket.set_interconnector_losses", "src/nempy/markets.py:SpotMarket.set_fcas_requirements_constraints", "src/nempy/markets.py:SpotMarket.set_generic_constraints", "src/nempy/markets.py:SpotMarket.set_tie_break_constraints", "src/nempy/markets.py:SpotMarket.dispatch", "src/nempy/markets.py:SpotMarket.get_energy_prices"]}
{"id": "C123", "title": "The program is the market", "statement": "If a market is created and each part of it is defined by one call that does not raise, then a schedule (the dispatch of every bid band, the flow and loss of every link) can be completed to a feasible solution of the program handed to the solver exactly if it does what each call asks: no call is lost, weakened or sharpened, and nothing else constrains the dispatch. It can be completed to an optimal solution exactly if among the schedules that do so it has the least cost of bids. With a correct solver dispatch therefore returns a least cost schedule and its cost, and raises ValueError exactly if no schedule does what each call asks.", "quantifier": "all markets, with and without bidirectional units (for those: no fast start profiles, ramp rates that are not negative with one initial output, and joint capacity trapeziums for the generator side of units that do not bid for lower regulation as loads; other units with a fast start profile in joint ramping bid as generators only), all orders and combinations of the calls that define them without violation costs and tie-breaks, all run types, all schedules, all correct solvers", "why_tests_cant": "The equivalence is between two infinite sets of schedules for arbitrary combinations of calls; a test shows that some constraint binds in one market, not that nothing else does.", "anchors": ["src/nempy/markets.py:SpotMarket.dispatch", "src/nempy/markets.py:SpotMarket.set_unit_volume_bids", "src/nempy/markets.py:SpotMarket.set_unit_price_bids", "src/nempy/markets.py:SpotMarket.set_unit_bid_capacity_constraints", "src/nempy/markets.py:SpotMarket.set_unit_ramp_rate_constraints", "src/nempy/markets.py:SpotMarket.set_demand_constraints", "src/nempy/markets.py:SpotMarket.set_fcas_requirements_constraints", "src/nempy/markets.py:SpotMarket.set_interconnectors", "src/nempy/markets.py:SpotMarket.set_interconnector_losses", "src/nempy/markets.py:SpotMarket.set_generic_constraints", "src/nempy/spot_market_backend/solver_interface.py:InterfaceToSolver"]}
{"id": "C124", "title": "Violation costs price what is missed", "statement": "If some of the calls that define a market give a violation cost, the program handed to the solver still is the market: a schedule can be completed to a feasible solution exactly if it does what the calls without a violation cost ask, so calls with a violation cost forbid nothing. The least objective value with which it can be completed is the cost of its bids plus, for each requirement of a call with a violation cost, the cost given times the amount by which the schedule misses it. For tie-break constraints this amount is, for every pair of tied bands, the difference of the fractions of their volumes that are dispatched. The optimal schedules are those with the least sum. With a correct solver dispatch returns such a schedule and this sum as objective value, and raises ValueError exactly if no schedule does what the calls without a violation cost ask.", "quantifier": "all markets, with and without bidirectional units (restricted as in C123), all orders and combinations of the calls that define them (violation costs that are not negative, as numbers or per constraint set, on capacity, UIGF, ramp rate, fast start, FCAS availability, joint ramping, joint capacity, energy and regulation, demand, FCAS requirement and generic constraints; tie-break constraints if no two pairs of tied bands are given the same name), all schedules, all correct solvers", "why_tests_cant": "Whether a price is charged for exactly the amount missed, on both sides of equations and for every requirement, in arbitrary combinations of calls, is a statement about all schedules and all their completions.", "anchors": ["src/nempy/markets.py:SpotMarket.dispatch", "src/nempy/markets.py:SpotMarket.make_constraints_elastic", "src/nempy/markets.py:SpotMarket.set_unit_bid_capacity_constraints", "src/nempy/markets.py:SpotMarket.set_unconstrained_intermittent_generation_forecast_constraint", "src/nempy/markets.py:SpotMarket.set_fcas_max_availability", "src/nempy/markets.py:SpotMarket.set_joint_capacity_constraints", "src/nempy/markets.py:SpotMarket.set_energy_and_regulation_capacity_constraints", "src/nempy/markets.py:SpotMarket.set_demand_constraints", "src/nempy/markets.py:SpotMarket.set_fcas_requirements_constraints", "src/nempy/markets.py:SpotMarket.set_generic_constraints", "src/nempy/spot_market_backend/elastic_constraints.py:create_deficit_variables", "src/nempy/markets.py:SpotMarket.set_unit_ramp_rate_constraints", "src/nempy/markets.py:SpotMarket.set_fast_start_constraints", "src/nempy/markets.py:SpotMarket.set_joint_ramping_constraints_reg", "src/nempy/markets.py:SpotMarket.set_tie_break_constraints"]}
{"id": "C125", "title": "A violation cost changes no call's outcome", "statement": "Giving a violation cost when setting constraints only makes them elastic: a call that is accepted without a violation cost is also accepted with one, and a call that raises an exception without a violation cost raises the same exception with one.", "quantifier": "all markets reached by calls of the API, all calls that take a violation cost with all their inputs, all numbers as violation cost", "why_tests_cant": "The violation cost is applied after the constraints are stored, in a step that depends on which constraint sets exist by then; which inputs and which earlier calls make that step fail cannot be enumerated.", "anchors": ["src/nempy/markets.py:SpotMarket.make_constraints_elastic", "src/nempy/markets.py:SpotMarket.set_unit_bid_capacity_constraints", "src/nempy/markets.py:SpotMarket.set_unconstrained_intermittent_generation_forecast_constraint", "src/nempy/markets.py:SpotMarket.set_unit_ramp_rate_constraints", "src/nempy/markets.py:SpotMarket.set_fast_start_constraints", "src/nempy/markets.py:SpotMarket.set_fcas_max_availability", "src/nempy/markets.py:SpotMarket.set_joint_ramping_constraints_reg", "src/nempy/markets.py:SpotMarket.set_joint_capacity_constraints", "src/nempy/markets.py:SpotMarket.set_energy_and_regulation_capacity_constraints", "src/nempy/markets.py:SpotMarket.set_demand_constraints", "src/nempy/markets.py:SpotMarket.set_fcas_requirements_constraints", "src/nempy/markets.py:SpotMarket.set_generic_constraints"]}
{"id": "C126", "title": "Only the volume offered at each price matters", "statement": "How a unit divides its offer into bid bands does not matter: if the bids of two otherwise equal markets offer, for every unit, service and dispatch type, the same volume at every price, then both permit the same dispatch of units, flows and losses at the same cost, dispatch fails for both or for neither, and the optimal dispatches of units, the flows and losses and the objective value are the same. The number, names and order of the bands and bands without volume have no influence.", "quantifier": "all pairs of markets made by the same calls (in any number, with and without violation costs; no tie-break constraints) apart from the bids, all volume and price tables, all schedules, all correct solvers", "why_tests_cant": "Compares two runs of the whole program for every pair of bid tables; bands become variables that enter every constraint set, so no set of examples settles that only their sums at a price count.", "anchors": ["src/nempy/markets.py:SpotMarket.set_unit_volume_bids", "src/nempy/markets.py:SpotMarket.set_unit_price_bids", "src/nempy/markets.py:SpotMarket.dispatch", "src/nempy/spot_market_backend/variable_ids.py:bids", "src/nempy/spot_market_backend/objective_function.py:bids"]}
{"id": "C127", "title": "Each call takes exactly the tables with its documented columns", "statement": "A table given to the constructor or to a call of the market (units, volume and price bids, capacities, forecasts, ramp rates, SCADA rates, fast start profiles, demand, FCAS requirements and availabilities, trapeziums, interconnectors, loss functions, break points, generic constraints and their coefficients, violation costs) passes its check exactly if it has the columns of that call and no others, each with cells of the right kind: names out of the known ones, finite numbers, finite numbers that are not negative, and so on; and if no two rows agree in the key columns. Values that may be missing are capacities, forecasts, SCADA rates, initial outputs for joint ramping and times since the end of mode two.", "quantifier": "all tables, all lists of units and regions, with and without dispatch types, all run types", "why_tests_cant": "Quantifies over all tables; a test tries a few rejected cells per call.", "anchors": ["src/nempy/markets.py:SpotMarket._validate_unit_info", "src/nempy/markets.py:SpotMarket._validate_volume_bids", "src/nempy/markets.py:SpotMarket._validate_price_bids", "src/nempy/markets.py:SpotMarket._validate_unit_limits", "src/nempy/markets.py:SpotMarket._validate_uigf_limits", "src/nempy/markets.py:SpotMarket._validate_ramp_rates", "src/nempy/spot_market_backend/dataframe_validator.py:DataFrameSchema.validate"]}
{"id": "C128", "title": "High violation costs are only paid when they have to be", "statement": "If the violation costs of a market are multiplied by a factor that is high enough, the cheapest dispatches are exactly those that violate as little as possible (violations weighed by their costs) and are the cheapest among these. In particular, if there is a dispatch that meets all constraints, then every cheapest dispatch meets them, and the cheapest dispatches are those of the same market without violation costs. The factor does not change which calls raise. With violation costs that are too low a constraint that could be met may be violated.", "quantifier": "all histories of calls without negative violation costs, with or without interconnector losses and tie breaks; all factors above a bound that depends on the history", "why_tests_cant": "Quantifies over all markets and all high factors, and compares sets of optimal solutions; a test solves one market with one cost.", "anchors": ["src/nempy/markets.py:SpotMarket.make_constraints_elastic", "src/nempy/markets.py:SpotMarket.dispatch", "src/nempy/spot_market_backend/elastic_constraints.py:create_deficit_variables"]}
{"id": "C129", "title": "A constraint that is met anyway changes nothing", "statement": "Calls that only add constraints or put a cost on parts of the dispatch never lower the least objective value. If a cheapest dispatch of a market does what further such calls ask, it stays a cheapest dispatch when they are made, at the same objective value, and every cheapest dispatch of the market with these calls is a cheapest dispatch of the market without them that does what they ask.", "quantifier": "all histories of calls (volume and price bids, capacities, forecasts, ramp rates, fast start profiles, demand, FCAS requirements and trapeziums, joint ramping, tie breaks, interconnectors with losses, generic constraints), with or without violation costs, and all further calls other than bids, prices, links, losses and terms of generic constraints", "why_tests_cant": "Compares the sets of optimal solutions of two markets for every market and all further calls; a test compares two runs of one market, where the solver may return either of several optima.", "anchors": ["src/nempy/markets.py:SpotMarket.dispatch", "src/nempy/markets.py:SpotMarket.set_unit_bid_capacity_constraints", "src/nempy/markets.py:SpotMarket.set_unit_ramp_rate_constraints", "src/nempy/markets.py:SpotMarket.set_generic_constraints", "src/nempy/markets.py:SpotMarket.make_constraints_elastic"]}
{"id": "C130", "title": "Small changes of price bids have small effects", "statement": "If price bids change and everything else stays the same, the objective value changes at least by the changes of the prices (at the reference node) times the dispatch after, and at most by the changes times the dispatch before. So if no price falls the objective value does not fall, and if every price changes by at most some amount, the objective value changes by at most this amount times the offered volume, and the dispatch before remains possible and is at most that far from the cheapest. Rounding of price bids therefore cannot move the cost of the dispatch by more than the rounding times the offered volume.", "quantifier": "all pairs of histories of calls that differ only in one set_unit_price_bids call (tie break constraints, which depend on prices, not set after it), all optimal solutions", "why_tests_cant": "Bounds the effect of every possible change of all prices; a test tries a few changes in one market.", "anchors": ["src/nempy/markets.py:SpotMarket.set_unit_price_bids", "src/nempy/markets.py:SpotMarket.dispatch", "src/nempy/spot_market_backend/objective_function.py:bids", "src/nempy/spot_market_backend/objective_function.py:scale_by_loss_factors"]}
{"id": "C131", "title": "The whole system balances", "statement": "In every feasible solution of a market with demand (not elastic) for all its regions the dispatched energy of all generators less that of all loads equals the demand of all regions plus the losses of all links with a loss function plus, for every link, its flow times the difference of its from and to region loss factors.", "quantifier": "all markets with interconnectors, loss factors and losses, all histories and all feasible solutions", "why_tests_cant": "Sums the balances of all regions of every market; a unit test has one or two regions.", "anchors": ["src/nempy/markets.py:SpotMarket.set_demand_constraints", "src/nempy/markets.py:SpotMarket.set_interconnectors", "src/nempy/markets.py:SpotMarket.set_interconnector_losses", "src/nempy/markets.py:SpotMarket.get_region_dispatch_summary"]}
{"id": "C132", "title": "Offering more never makes dispatch dearer", "statement": "If units offer more at the prices they offer at, or offer at further prices, for services they offer already, and everything else stays the same, every dispatch that was possible stays possible at the same cost: dispatch does not start to fail and the objective value does not rise.", "quantifier": "all pairs of histories of calls that differ only in the bids, the second offering at least as much at every price by the same units for the same services, with any of the constraints (firm or with violation costs), interconnectors and losses, without tie break constraints; all correct solvers", "why_tests_cant": "Compares every two markets of which one is offered more; a test adds one band to one market.", "anchors": ["src/nempy/markets.py:SpotMarket.set_unit_volume_bids", "src/nempy/markets.py:SpotMarket.set_unit_price_bids", "src/nempy/markets.py:SpotMarket.dispatch", "src/nempy/spot_market_backend/variable_ids.py:bids"]}
{"id": "C133", "title": "Calls refuse exactly the tables their checks refuse", "statement": "Every call that takes tables raises a validation error exactly if the data frames passed to it break the documented layout of one of its tables (columns, column types, known units and regions, allowed values, no negative amounts, no repeated keys); no later step of the call raises such an error, and no table that breaks the layout gets past the call.", "quantifier": "all markets reached by calls with well defined ids; all tables of typed rows written out as data frames: units, volume and price bids, capacities, forecasts, ramp rates with SCADA rates and fast start profiles, fast start profiles, demand, FCAS requirements, availabilities, joint ramping rates, trapeziums, interconnectors, loss functions, break points, generic constraints and their coefficients, violation costs", "why_tests_cant": "Ranges over all tables of every call; a test passes one table with one fault.", "anchors": ["src/nempy/spot_market_backend/dataframe_validator.py:DataFrameSchema.validate", "src/nempy/markets.py:SpotMarket.set_unit_volume_bids", "src/nempy/markets.py:SpotMarket.set_unit_price_bids", "src/nempy/markets.py:SpotMarket.set_unit_bid_capacity_constraints", "src/nempy/markets.py:SpotMarket.set_unit_ramp_rate_constraints", "src/nempy/markets.py:SpotMarket.set_demand_constraints", "src/nempy/markets.py:SpotMarket.set_interconnectors", "src/nempy/markets.py:SpotMarket.set_generic_constraints", "src/nempy/markets.py:SpotMarket.make_constraints_elastic"]}
{"id": "C134", "title": "The cost of the dispatch is convex in demands, limits and requirements", "statement": "Take three markets that differ only in the values passed to one call: demands, unit capacities, forecasts of intermittent generation, FCAS availabilities, FCAS requirements or right hand sides of generic constraints, the values of the third lying a share t of the way from those of the first to those of the second. A schedule of the first market and a schedule of the second, mixed in the same share, are a schedule of the third market, and the least cost of the third is at most the mixture of the least costs of the first two. This holds for markets without interpolated losses whose links are not alternatives to each other; with alternative links of one interconnector it fails.", "quantifier": "all histories of calls, all tables and pairs of values in their rows, all shares t between 0 and 1, all violation costs, all schedules", "why_tests_cant": "Ranges over all markets, tables and mixtures; a test compares three dispatches.", "anchors": ["src/nempy/markets.py:SpotMarket.set_demand_constraints", "src/nempy/markets.py:SpotMarket.set_unit_bid_capacity_constraints", "src/nempy/markets.py:SpotMarket.set_unconstrained_intermittent_generation_forecast_constraint", "src/nempy/markets.py:SpotMarket.set_fcas_max_availability", "src/nempy/markets.py:SpotMarket.set_fcas_requirements_constraints", "src/nempy/markets.py:SpotMarket.set_generic_constraints", "src/nempy/markets.py:SpotMarket.dispatch"]}
{"id": "C135", "title": "The cost of the dispatch is concave in the price bids", "statement": "Take three markets that differ only in the prices passed to set_unit_price_bids, the prices of the third lying a share t of the way from those of the first to those of the second. They have the same schedules, every schedule costs in the third the mixture of what it costs in the first two, and the least cost of the third is at least the mixture of the least costs. A dispatch that is cheapest with both tables of prices is cheapest with the prices in between; and if there is one and t lies strictly between 0 and 1, every dispatch that is cheapest in between is cheapest with both.", "quantifier": "all histories of calls that differ only in one set_unit_price_bids call (tie break constraints, which depend on prices, not set after it), with or without losses, all prices and shares t between 0 and 1, all optimal solutions", "why_tests_cant": "Ranges over all markets and all mixtures of prices; a test compares three dispatches.", "anchors": ["src/nempy/markets.py:SpotMarket.set_unit_price_bids", "src/nempy/markets.py:SpotMarket.dispatch", "src/nempy/spot_market_backend/objective_function.py:bids"]}
{"id": "C136", "title": "Raising violation costs never increases violations", "statement": "If all violation costs of a market are multiplied by a higher factor, the violations of the cheapest dispatch, weighed by their costs, do not grow, and the cost of the bids in it does not fall. The objective value rises at least by the raise of the costs of the violations after, and at most by the raise of the costs of the violations before. If the cheapest dispatch violates nothing, it remains a cheapest dispatch with all higher factors, every cheapest dispatch then violates nothing and the objective value stays the same.", "quantifier": "all histories of calls, with or without losses and tie breaks, all pairs of positive factors, all optimal solutions", "why_tests_cant": "Ranges over all markets and all pairs of factors; a test compares two dispatches.", "anchors": ["src/nempy/markets.py:SpotMarket.make_constraints_elastic", "src/nempy/markets.py:SpotMarket.get_elastic_constraints_violation_degree", "src/nempy/markets.py:SpotMarket.dispatch", "src/nempy/spot_market_backend/elastic_constraints.py:create_deficit_variables"]}
{"id": "C137", "title": "Offers that are not taken do not matter", "statement": "If a cheapest dispatch takes of each unit, for each service and at each price, no more than some smaller offer of the same units for the same services, then with the smaller offers the same dispatch of all units, the same flows and losses are cheapest, at the same objective value. More generally a schedule of one market is possible, with the same results and cost, in each market that differs in the bids only and is offered at each price at least what the schedule takes.", "quantifier": "all histories of calls without tie breaks, all pairs of tables of bids, all schedules, all correct solvers", "why_tests_cant": "Ranges over all markets, all offers that could be withdrawn and all optimal solutions; a test compares two dispatches.", "anchors": ["src/nempy/markets.py:SpotMarket.set_unit_volume_bids", "src/nempy/markets.py:SpotMarket.set_unit_price_bids", "src/nempy/markets.py:SpotMarket.dispatch", "src/nempy/spot_market_backend/variable_ids.py:bids"]}
{"id": "C138", "title": "Price changes that leave the dispatch as it is", "statement": "If in set_unit_price_bids bands that a cheapest dispatch does not use do not become cheaper for the market, bands that it uses completely do not become dearer, and no other price changes, then the dispatch remains a cheapest dispatch. Every cheapest dispatch with the new prices was a cheapest dispatch before, and uses each band that costs the market another price just as much. If only prices of unused bands change, the objective value stays the same. A load that lowers its energy price becomes dearer for the market.", "quantifier": "all histories of calls, with or without losses and violation costs, all pairs of tables of price bids, all positive loss factors, all optimal solutions", "why_tests_cant": "Ranges over all markets, all changes of prices and all optimal solutions; a test compares two dispatches.", "anchors": ["src/nempy/markets.py:SpotMarket.set_unit_price_bids", "src/nempy/markets.py:SpotMarket.dispatch", "src/nempy/spot_market_backend/objective_function.py:bids", "src/nempy/spot_market_backend/objective_function.py:scale_by_loss_factors"]}
{"id": "C139", "title": "Limits that do not bind do not matter", "statement": "In a market without losses and alternative links, take a cheapest dispatch with some unit capacities, intermittent generation forecasts, FCAS availabilities, FCAS requirements or right hand sides of generic constraints. If it also meets tighter values, then it is a cheapest dispatch, at the same cost, with the tighter values, and with all values that are looser in the same proportion, however much. So only limits that bind influence the cost of the dispatch.", "quantifier": "all histories of calls without losses, with or without violation costs, all tables of limits, all optimal solutions", "why_tests_cant": "Ranges over all markets, all changes of limits and all optimal solutions; a test compares two dispatches.", "anchors": ["src/nempy/markets.py:SpotMarket.set_unit_bid_capacity_constraints", "src/nempy/markets.py:SpotMarket.set_unconstrained_intermittent_generation_forecast_constraint", "src/nempy/markets.py:SpotMarket.set_fcas_max_availability", "src/nempy/markets.py:SpotMarket.set_fcas_requirements_constraints", "src/nempy/markets.py:SpotMarket.set_generic_constraints", "src/nempy/markets.py:SpotMarket.dispatch"]}
{"id": "C140", "title": "Only differences of energy prices matter", "statement": "If all energy price bids, of generators and of loads, are raised by the same amount at the regional reference node (that is, by the amount times the loss factor of the unit), then the possible schedules stay the same, and each costs the amount more for every MW of the demand of all regions and of losses. If nothing is lost on links, the cheapest dispatches stay the same and the objective value rises by the amount times the demand of all regions. If there are losses, those of the cheapest dispatch do not rise.", "quantifier": "all histories of calls with firm demand for every region, all tables of price bids, all amounts, all positive loss factors, all optimal solutions", "why_tests_cant": "Ranges over all markets, all amounts and all optimal solutions; a test compares two dispatches.", "anchors": ["src/nempy/markets.py:SpotMarket.set_unit_price_bids", "src/nempy/markets.py:SpotMarket.set_demand_constraints", "src/nempy/markets.py:SpotMarket.set_interconnector_losses", "src/nempy/markets.py:SpotMarket.dispatch", "src/nempy/spot_market_backend/objective_function.py:scale_by_loss_factors"]}
{"id": "C141", "title": "FCAS beyond the requirement has no price", "statement": "If the FCAS requirements in which a region provides a service are all exceeded, the price of the service in the region is zero. A price that is not zero comes from a requirement that is met exactly (or, with violation prices, not met). Without violation prices too, requirements of at least a volume give no negative prices.", "quantifier": "all histories of calls, all FCAS requirements over any regions and services, with or without violation prices, all shadow prices of the linear model", "why_tests_cant": "Ranges over all markets, all overlapping requirement sets and all dual solutions; a test reads the prices of one dispatch.", "anchors": ["src/nempy/markets.py:SpotMarket.set_fcas_requirements_constraints", "src/nempy/markets.py:SpotMarket.make_constraints_elastic", "src/nempy/markets.py:SpotMarket.dispatch", "src/nempy/markets.py:SpotMarket.get_fcas_prices"]}
