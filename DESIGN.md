# Formal model of nempy in Lean 4

## Approach

The model is a shallow embedding: every modelled Python function is a total computable Lean
function over lists of row structures (a `pd.DataFrame` is a list of rows, an inner merge is a
`flatMap`, a left merge keeps unmatched rows, `drop_duplicates` keeps the first row of a key).
Python exceptions are values (`Err`); setters return the new market together with the error, so
partial updates before an exception are modelled. The solver (CBC/Gurobi through python-mip) is
an oracle: theorems quantify over *every* assignment that is feasible (or optimal) for the linear
program that `dispatch()` assembles, and over every dual value it may report.

Layout of `lean/Verif`:

* `Model/*`: the program. Every definition cites the file and lines in /repo it models and says
  where it simplifies.
* `Spec/*`: the words that theorems use (feasible, optimal, trapezium, physical ramping, fast
  start profile, interpolation, stack machine, calendar, well formed table, ...). They do not use
  the builders of the model.
* `Proofs/*`: lemmas, invariants, simulations. Not part of any claim.
* `Props/*`: the property theorems `Cxx_...`. Beside each there is an `example` in which its
  hypotheses are met by a concrete case.

Most market properties have the form: take a market reached by *any* history of calls, in which
some call succeeded and later calls did not touch the same constraint set; then every feasible
assignment of the assembled program, read through `get_unit_dispatch` or the interconnector
getters, satisfies the property. Where it says "exact", the theorem is an iff: the constraint
holds of the assignment exactly if the property holds, so it is not too strong either.

## Trusted base

* Lean 4.33.0 kernel. Mathlib lemmas are checked by the kernel as well.
* Axioms: no axioms are added; no `sorry`, `native_decide`, `bv_decide`, `implemented_by` or
  `unsafe`. By `#print axioms`:
* `propext`, `Classical.choice`, `Quot.sound`: 426 of the theorems in MANIFEST.json, all that are not named below.
* `propext` only: C10_missing_scada_keeps_bid_rate, C68_exact_columns_skipped, C68_none, C84_lower_5min_negation, C88_nothing_downloaded.
* `Quot.sound`, `propext` only: C41_seed, C41_bidirectional_negation, C68_used_months, C73_present_partial, C73_stale, C73_negation, C74_repeated_negation, C77_succeeds, C79_prices_partial, C79_text_negation, C80_initial_conditions, C80_fast_start, C80_forecasts, C81_violations, C81_violations_intervention, C81_rhs, C82_links, C83_violation_prices, C83_types, C84_prices_partial, C84_no_error, C88_last_download, C89_bid_rates, C89_scada_rates, C93_rejected, C95_names, C101_file, C115_refused, C117_any_database, C117_repair, C121_refused.
* no axioms: C84_intervention_negation.

* That the model says what the Python does. The code was read, not run. This includes the reading
  of pandas (merge order, `drop_duplicates`, group-by, NaN in comparisons), of xmltodict (one
  element is a dict, several are a list) and of python-mip.
* That the solver returns a feasible (or optimal, where a theorem says so) assignment of the
  program. C94 states what follows for `dispatch` if it does. Shadow prices are an arbitrary
  function in C30 and C31 apart from `C30_marginal_bid`, which states what it needs of them.

## Simplifications that apply everywhere

* Floating point numbers are rationals; rounding, tolerances of the solver and overflow are not
  modelled. NaN and infinity appear as `Option` where the code branches on them. The rounding that
  the code itself does (`round(., 5)` in the FCAS conditions) is modelled.
* Division by zero: Python (numpy) gives infinity or NaN, Lean gives 0. Calls in which the code would divide by zero are not
  part of histories (`Op.benign`): loss factors of zero, mode lengths of zero in the mode a fast start unit ends in, regulation
  trapeziums with maximum availability zero, a dispatch interval of zero.
* Tables have the right columns and types when they reach market operations; the validator that
  ensures this is modelled on raw tables separately (C35). Value checks that setters make (known
  units, repeated keys, signs) are in the model of the setters.
* Rows keep the order pandas gives them; where a theorem does not need the order it is stated with
  membership and counts, so it holds for other orders too.

## What is modelled and what is not

| file in src/nempy | modelled | not modelled |
|---|---|---|
| markets.py | all setters, `dispatch`, all getters, re-run, availability, names, elastic | printing, `solver_name` choice, timing, `validate_inputs=False` (tables are assumed valid) |
| spot_market_backend/variable_ids, unit_constraints, fcas_constraints, market_constraints, interconnectors, objective_function, elastic_constraints, ramp_rate_processing | all functions | - |
| spot_market_backend/solver_interface.py | program assembly, linear model for prices, duals by id, infeasibility search | the solver; `get_optimal_values_*` are reads of the assignment; options and emphasis |
| spot_market_backend/dataframe_validator.py | everything that is called | `_check_row_monatonic_increasing`, never called (this is C35_monotone_negation) |
| spot_market_backend/check.py | `ModelBuildError` | decorators, never used |
| time_sequential.py | all | - |
| historical_inputs/units.py | everything between raw tables and returned tables | test set-up; column renaming |
| historical_inputs/rhs_calculator.py | constructor, evaluator, updates, queries | - |
| historical_inputs/interconnectors.py, demand.py, constraints.py | all functions; constructors as pipelines of tables | test set-up |
| historical_inputs/xml_cache.py | cache, naming, search, populate, all readers | the network and unzip, as outcomes given from outside; the XML parser (trees are inputs) |
| historical_inputs/mms_db.py | queries, accumulation, `create_tables`, populate, months, market days, versions, addresses of downloads | SQL (tables are lists), the network and CSV reading, as outcomes given from outside |
| historical_inputs/loaders.py | delegation is inlined where used | - |
| help_functions/helper_functions.py | what is called | `stack_columns` and index helpers are inlined in the builders |

## Behaviour found that a user would not expect

Each is a theorem (`_negation`, `_fails`, ...) with a concrete witness in Props unless marked (*),
which were found by reading and are documented in comments of the model.

* Break points for an unknown link put coefficients into constraints built later (C02).
* `set_joint_ramping_constraints_reg` with a violation cost raises `ModelBuildError` if units bid for
  only one of the two regulation services (C125).
* Bidirectional units: the left edge of contingency trapeziums is not kept (C17), joint ramping
  misses energy of the other side if the service is bid on one side (C16), availability is wrong (C34), initial
  outputs are doubled between intervals (C41).
* Setting a set again without violation cost after it was elastic leaves the old violation
  variables and dispatch raises `KeyError` (C25). Fast start and joint ramping sets stay (C25).
* Tie break names of different pairs can be the same, the pairs are then mixed (C27).
* The re-run relaxes equalities to one side (C31); pricing can cut off the dispatched point with
  uneven break points (C32).
* The region summary drops regions without links when there are links, and does not balance with
  regional loss factors (C33).
* Tiny coefficients are taken as no constraint (C34). A constraint without variables is dropped
  (C36). Rejected input may leave partial changes (C37). Unpriced bids are free (C39).
* Decreasing price bids are accepted (C35); minimum and maximum of single columns are not checked (*).
* RHS calculator: `ADD` and constants differ from the guidelines (C51), some groups are ignored
  (C52), missing SCADA ids raise `KeyError` (C54), nested generic equations are not found (C55).
* A unit that is off keeps time in mode zero (C56). Regulation bids without initial conditions
  are dropped (C58). Ended rows are returned (C67). Months with exactly the columns of a table are
  skipped (C68). After a failed load the old data stay under the new interval (C71). One bad
  archive ends the search (C72). Missing attributes take the value of the trade before (C73).
  A missing direction can repeat a bid (C74). A folder with gaps is not filled (C78). Prices stay
  text (C79). The price attribute of LOWER5MIN is misspelt (C84).
* Region coefficients of FCAS sets are not used (C65, C97).
* A fast start unit that ends in mode four with length zero of mode four gets a constraint with a NaN right hand side (*).
* `set_generic_constraints` with an empty table makes the next id NaN (*); tie breaks without ties
  raise `ValueError` (*); a `ValueError` is built and not raised at markets.py:2733 (*);
  `get_file_name` takes the OCD branch always when the plain file is missing (*);
  `populate` of the MMS database drops all earlier tables (C77 states it).

## Testing the theorems against wrong programs

`seeded/LOG.jsonl` has 302 edits of the model, each made in a scratch copy that was rebuilt with
`lake build`. `failed` lists the property theorems that no longer check, because their proof or a
lemma they depend on fails; it is computed from the failing declarations and the dependency graph
of the theorems. An edit after which the theorem for the claim still checked led to a stronger
theorem, named in `tightened`. Edits that were not caught at first and what was done about them
are in the log as well.

## Plan and result per property

* **C01 Decision variables never share an id** (proved) - Market state machine (all setters as operations on a state holding every variable table); invariant by induction over histories: ids of all tables are pairwise distinct and below the counter.
* **C02 Constraints never share an id and never leak coefficients** (partial) - Same state machine; invariant: ids occurring in the tables of different constraint sets are disjoint and below the counter. The code violates it (break points of an unknown link): negation witness plus partial theorem for histories whose break points refer to known links. Result: Proved for histories whose loss break points name existing links. For an unknown link the code leaks coefficients into later constraints: C02_unknown_break_point_link_leaks.
* **C03 Dispatch never exceeds the bid volume** (proved) - LP assembled from the state; for all feasible assignments, the dispatch table rows are bounded by sums of the bid bands.
* **C04 Every bid band becomes exactly one variable** (proved) - Builder for bid variables; permutation/filter characterisation and bijection with bid bands.
* **C05 Objective equals the cost of the bids** (proved) - Objective assembly; identity of linear forms over all assignments.
* **C06 Capacity limits hold** (proved) - Row evaluation lemma for unit level maps + frame lemma over later operations + id invariant.
* **C07 UIGF limits hold** (proved) - As C06.
* **C08 Ramp rate limits hold** (proved) - As C06, with the ramp rate pipeline modelled before it.
* **C09 Composite ramp rates follow the physical trajectory** (proved) - Pure rational functions against a small physical specification (walk to zero, then continue).
* **C10 SCADA ramp rates only tighten** (proved) - Pure list functions, case analysis.
* **C11 Fast start units follow their profile** (proved) - As C06 for the profile builder; removal as erasure lemma. Result: Profiles whose mode two (ending in mode two) or mode four (ending in mode four) has length zero are not valid histories (Op.benign): the code divides by zero there and passes a NaN right hand side on.
* **C12 Fast start ramp adjustment** (proved) - Pure list functions; rational arithmetic.
* **C13 Regional energy balance** (proved) - Row evaluation lemma for regional maps, with interconnector and loss maps expanded.
* **C14 FCAS requirements hold** (proved) - As C13 for requirement sets.
* **C15 FCAS maximum availability holds** (proved) - As C06.
* **C16 Joint ramping holds** (partial) - As C06 for joint ramping builders. Result: Proved for generators, loads and bidirectional units that bid the service on both sides. For a bidirectional unit bidding on one side only, the constraint built does not see the energy of the other side: C16_bidirectional_fails. C16_joint_ramping_exact gives the rows in all cases.
* **C17 Joint capacity keeps contingency FCAS inside the trapezium** (partial) - As C06, then equivalence with a trapezium specification (Option valued height function). Result: Proved for all units with one direction; for bidirectional units the right edge and part of the left edge. The full left edge is false of the code: C17_bidirectional_left_edge_fails. C17_bidirectional_load_side_fails shows that trapeziums of the load side of bidirectional units count the consumption twice.
* **C18 Regulation FCAS stays inside its trapezium** (proved) - As C17.
* **C19 Interconnectors respect limits and conserve energy** (proved) - Bounds from the LP, identity of the regional coefficients, sum over regions.
* **C20 Losses interpolate the loss function** (proved) - Rows of the loss builder + SOS2 predicate imply interpolation between adjacent break points.
* **C21 Losses are fully allocated** (proved) - Identity on the coefficient map.
* **C22 Generic constraints hold** (proved) - Row evaluation lemma for the three generic sources.
* **C23 Elastic constraints can never make the market infeasible** (proved) - Deficit builder: existence, exactness and zero case, rows of all senses.
* **C24 Reported violation degree** (proved) - Optimality (spec level: minimal objective among feasible assignments) gives deficit = violation.
* **C25 Setting a constraint set again replaces it** (partial) - Compare the market after the full history with the market after the history without the earlier calls about the same sets: simulation up to renaming of constraint and variable ids, then equality of the sets of possible reports. Negation witnesses for the cases the code gets wrong. Result: Proved for all setters of single constraint sets and, unless a call in between reads them, for bids, interconnectors and links, for any history before and after, with the exceptions shown false: earlier violation variables stay when the new call is inelastic (C25_negation_elastic), fast start profiles without constraints replace nothing (C25_negation_fast_start), ramp rates of bidirectional units with joint ramping (C25_negation_joint_ramping), volume bids set again after the price bids (C25_negation_stale_prices).
* **C26 Setters do not interfere** (proved) - Frame lemma over all operations.
* **C27 Tie break constraints share dispatch pro rata** (partial) - Negation witness (name collisions); partial theorem for collision free names. Result: Proved for pairs of bands whose set name is not shared with another pair; names of pairs can collide: C27_negation.
* **C28 Merit order** (proved) - Exchange argument on the assembled LP.
* **C29 Unit dispatch is the sum of its bands** (proved) - Group-by sum model.
* **C30 Prices come from the right constraints** (proved) - Group-by sum model, dual values as an arbitrary function.
* **C31 Over constrained dispatch re-run** (partial) - Decision function and right hand side shift; theorem about original assignment in relaxed LP. Result: Price-only effect, condition, errors and untouched rows are proved in full; relaxation is proved for inequalities. Equality constraints are relaxed in one direction only and the original solution can violate the new row: C31_equality_negation.
* **C32 The priced linear model contains the dispatched solution** (partial) - Negation witness for uneven break points; partial theorem for evenly spaced ones. Result: Proved for break points where no segment is longer than the next two together (true for the even spacing nempy uses). False otherwise: C32_uneven_negation.
* **C33 Region summary balances** (partial) - Negation witnesses; partial theorem for unit loss factors. Result: Columns and rows exactly characterised; by how much a row misses the balance is computed exactly (C33_imbalance_partial), and with loss factors of at most 1 a row balances exactly if the loss factors in use are 1 (C33_balance_iff_partial). A region with units and no link is dropped (C33_region_dropped_negation) and other loss factors break the balance (C33_balance_negation).
* **C34 FCAS availability is attainable and not below dispatch** (partial) - Slack computation; theorem about raising one variable. Witness for tiny coefficients. Result: At least dispatch: proved. Attainable and maximal: proved for units with one direction and for bidirectional units with generator side trapeziums, coefficients not tiny. False otherwise: C34_bidirectional_negation, C34_tiny_negation.
* **C35 Input validation accepts exactly well formed tables** (partial) - Validator modelled on raw tables; iff specification. Witness that non monotone price bids are accepted. Result: Iff proved against an independent description of well formed tables. The check that price bids do not decrease is never called: C35_monotone_negation.
* **C36 Every constraint reaches the solver** (partial) - Row assembly; witness that rows without variables are dropped; partial theorem otherwise. Result: Every constraint with a variable reaches the solver with summed coefficients and nothing else does. A constraint with no variable is dropped even if it cannot hold: C36_negation.
* **C37 Rejected input leaves the market unchanged** (partial) - Every setter: validation error implies unchanged state; witness for empty tables. Result: Proved for exceptions of the validator and ModelBuildError, single violation cost. Ramp rates with a violation cost, tables of costs and other exceptions leave partial changes: C37_negation.
* **C38 Call order requirements are enforced** (proved) - Decision logic per setter, as functions from state to state and error.
* **C39 Bids that cannot be placed are not free energy** (partial) - Negation witnesses; partial theorem for bids with matching unit rows and price bids. Result: Proved for bids with a price and a listed unit. False otherwise: C39_unpriced_bid_is_free, C39_bid_for_unlisted_side_is_unconstrained.
* **C40 Updating right hand sides** (proved) - Pure list function.
* **C41 Dispatch chains between intervals** (partial) - Pure list functions; witness for bidirectional units (two rows). Result: Proved for units with at most one energy row in the last dispatch. A bidirectional unit has two rows and is doubled: C41_bidirectional_negation.
* **C42 Market interconnector links are used one at a time** (proved) - SOS1 predicate of the assembled LP.
* **C50 RHS equations without operators are weighted sums** (proved) - RPN machine, induction over the equation.
* **C51 RPN operators follow the constraint implementation guidelines** (partial) - RPN machine, per operator equations against a stack specification. Result: Everything the machine computes the calculator computes (C51_follows_machine); the converse up to terms the code tolerates, which are listed by the predicate Tolerated. C51_add_negation and C51_constant_negation show that these are real differences.
* **C52 Groups evaluate as sub equations** (partial) - Group collection and evaluation; witness for groups ending an equation. Result: C52_groups_partial covers groups headed or followed by a header, of any nesting depth, including groups that begin with a group and end with groups. Missing: headers carrying the name of their own group, groups that end with a group but do not begin with one, and groups at the end of an equation without a header; the code gives a wrong value or raises (three negations).
* **C53 RHS results do not depend on history** (proved) - State machine over computes and updates; invariant that stored values of resolved terms are never read before being overwritten.
* **C54 Updating an SPD value takes effect and is local** (partial) - Lookup/update laws. Result: Effect and locality proved in full; rejected ids: SCADA types raise KeyError instead of ValueError (C54_scada_negation).
* **C55 Dependency query is complete** (partial) - Negation witness (two level generic equations); partial theorem otherwise. Result: Proved when generic equations do not use further generic equations; false otherwise: C55_nested_negation.
* **C56 Fast start modes advance by exactly the interval** (partial) - Pure function with rational times against a time walk specification; witness for carried over mode 0 time. Result: Proved in full apart from units that are off and have spent time in mode zero (C56_off_time_negation).
* **C57 AGC enablement scaling uses the tighter limits** (proved) - Pure function, slopes preserved, tightening.
* **C58 AGC ramp scaling keeps trapezium slopes** (partial) - Pure function, slopes and height monotonicity. Result: Slopes, availability at every energy level and no errors proved; regulation bids of units without a row of initial conditions are dropped: C58_dropped_negation.
* **C59 UIGF scaling** (proved) - Pure function.
* **C60 FCAS enabling conditions** (proved) - Filter pipeline against one predicate; one to one matching.
* **C61 Loss factor round trip for prices** (proved) - Round trip identity.
* **C62 Bidirectional units get the secondary loss factor when generating** (proved) - Pure function.
* **C63 Loss functions have the published marginal loss equation** (proved) - Identity over all flows.
* **C64 Link loss models mirror the interconnector** (proved) - Identity.
* **C65 Generic and FCAS constraints partition the constraint sets** (proved) - List partition. Result: C65_region_coefficients_unused records that region coefficients of FCAS sets are not used.
* **C66 Effective dated tables return the latest valid version** (proved) - Query model against a declarative selection.
* **C67 Start and end dated tables** (partial) - Query model; witness that ended rows are returned. Result: Latest start proved for any sorting algorithm; rows that have ended are returned: C67_ended_negation.
* **C68 Historical accumulation keeps the newest version of each key** (proved) - Fold over months. Result: C68_exact_columns_skipped: a month whose file has exactly the table's columns is skipped, the statement says so.
* **C69 Populate downloads exactly the requested months** (proved) - Loop model, exact month list.
* **C70 Interval numbers and file names are one to one** (proved) - Calendar arithmetic on minutes, injectivity.
* **C71 Loading an interval never returns data of another interval** (proved) - Cache model with download outcomes. Result: C71_stale_negation: after a call that raises, the object names the new interval with the old data; the statement is about calls that return.
* **C72 Violation search respects its limit and range** (proved) - Loop invariant. Result: Assumes that the archive can be reached; C72_bad_archive_negation shows that other download errors end the search.
* **C73 Missing XML attributes are not filled with other values** (partial) - Negation witness; partial theorem for complete trades. Result: Rows, order and attributes present in the file proved; an absent attribute has the value of the previous trade: C73_negation, with C73_stale saying exactly which value.
* **C74 Missing bid directions are taken from the price bids** (partial) - List model. Result: Proved if a bid without direction matches at most one price bid; otherwise it is repeated: C74_repeated_negation.
* **C75 Trapezium getters need and reflect the processed bids** (proved) - State of the call order as fields of the model of UnitData; getters as functions of processed bids.
* **C76 Interconnector definitions** (proved) - Table pipeline, characterised row by row.
* **C77 Dispatch tables hold exactly the requested months** (proved) - Populate as a fold over months into an abstract database, query as a filter; success condition as an iff.
* **C78 After populate the requested months are available offline** (proved) - Cache model (file name to contents), day loop; calendar arithmetic. Result: Assumes that folders have complete days only; C78_gap_negation shows that gaps are not filled.
* **C79 Price bids are read exactly** (partial) - XML tree reader in the error monad; row by row correspondence (Forall2) with the trades of the file. Result: Rows, order, directions proved; prices are left as text: C79_text_negation.
* **C80 Initial conditions, fast start parameters and forecasts are those of the file** (proved) - As C79.
* **C81 Violations and right hand sides are those of the run without intervention** (proved) - As C79, with the choice of the run as a function of the intervention flag.
* **C82 Terms of generic constraints are read completely** (proved) - As C79, including the single element case of xmltodict.
* **C83 Violation prices and constraint types are those of the file** (proved) - As C79 for the case attributes; exact table of kinds.
* **C84 Prices of services are those of the file** (partial) - As C79; negation witnesses for the misspelt attribute and interventions. Result: Which attributes are read is proved; the attribute for LOWER5MIN is misspelt (C84_lower_5min_negation) and intervention runs are not left out (C84_intervention_negation).
* **C85 The rerun flag says which file was loaded** (proved) - Cache model: which of the two files the file name function names.
* **C86 Each interval belongs to one market day** (proved) - Calendar arithmetic on minutes.
* **C87 Generic constraint versions are the ones used in the interval** (proved) - Join of three tables as a filter, exact characterisation.
* **C88 Replaced tables have the last download** (proved) - Fold over downloads.
* **C89 Ramp rates in the file limit dispatch** (proved) - Composition of the reader model (ramp rates, initial output), the ramp rate pipeline and C08, C09.
* **C90 Regulation stays inside the trapezium bid in the file** (proved) - Composition: scaling of bids only shrinks the trapezium (C57-C59 strengthened to every energy level) and C18.
* **C91 Contingency services stay inside the trapezium bid in the file** (partial) - As C90 with C17. Result: Proved for units with one direction. For bidirectional units the constraint that is built does not imply it: C17_bidirectional_left_edge_fails.
* **C92 Volumes, availabilities and forecasts in the file limit dispatch** (proved) - Composition of C60, C03, C06, C07.
* **C93 Right hand sides are computed from the data of the file** (proved) - Model of the constructor of the calculator (reformatting of the file); lookup laws; then the evaluator of C50-C52.
* **C94 Dispatch fails exactly if there is no optimal dispatch** (proved) - Solver as an oracle that returns a result and is correct (predicate on all programs); loop of the search for infeasible constraints by induction.
* **C95 Names of constraint sets** (proved) - Invariant over histories on the keys of the constraint tables.
* **C96 Generic constraints of a NEMDE file hold in the dispatch** (proved) - Model/ConstraintFile reads the file into the tables of Model/ConstraintData; Spec/ConstraintFile evaluates the terms of a constraint of the file in a dispatch; compose C65, C79-C81 and C22_generic_exact.
* **C97 Constraints of a NEMDE file with region terms hold in the dispatch** (partial) - As C96 with C14 and the requirements of ConstraintData; witness for factors that are not one. Result: Region factors other than one are not used by the code (C97_factor_negation). C97_requirements_exact says what the constraints of the market are for all factors, C97_requirements_partial has the full claim for factors of one. FCAS requirements only: no region term of energy.
* **C98 Flow limits of the MMS tables hold in the dispatch** (proved) - Compose C63/C76 (tables to definitions) with C19 (flow limits and one direction).
* **C99 Losses in the dispatch follow the loss equations of the MMS tables** (proved) - The loss function is determined by its derivative and f(0)=0; compose C64 with C20 (interpolation between break points). Result: Market links with a factor other than one or minus one are not covered: the code truncates the factor when it scales the loss segment numbers.
* **C100 Every region balances with the demand and loss shares of the MMS tables** (proved) - Compose C63, C64 and demand with C13 (balance in a region); the links of the tables in a permutation.
* **C101 Fast start units follow their profile through both runs** (proved) - Compose C80 (file), C29 (reported dispatch), C56 (modes) and C11 (profile constraints) over two markets. Result: Modes five and above are excluded; a unit in mode zero has mode time zero (see C56).
* **C102 Violation prices cap market prices** (proved) - The reduced cost of a violation variable is its price minus the shadow price times its sign; it is not negative because the variable has no upper bound. Then C30 for what is reported.
* **C103 Prices and dispatch are an equilibrium for units** (proved) - Lagrangian bound of the shadow prices with complementary slackness row by row; a change of bids of a group changes regional rows by the change of supply; sums over regions and units exchanged.
* **C104 Interconnectors earn the most they can at market prices; prices differ by marginal losses** (proved) - The same Lagrangian bound with a change of network variables only; the change of the balance rows is the change of net import less charged losses; one link for the relation of two prices.
* **C105 Settlement at the reported prices balances** (proved) - Multiply the balance of each region (C13) by its price and add; exchange of sums. With elastic demand, C119 for the price of unserved energy.
* **C106 Prices move with demand** (proved) - Two runs side by side (Alike: equal tables except right hand sides of one set), C30 applied at the solution of the other market, both ways.
* **C107 Raising a price bid never increases dispatch** (proved) - Two runs side by side with equal feasible schedules; each optimum is compared with the other at its own prices (C05).
* **C108 Loosening a limit never makes dispatch dearer** (proved) - Two runs side by side; rows of the loosened set matched by constraint id, right hand sides compared; the optimum of the first is feasible for the second.
* **C109 The order of independent setter calls does not matter** (proved) - Simulation up to a renaming of variable and constraint ids that exchanges the id blocks of the two calls; induction over the exchanges and over the rest of the history. Result: Which parts a call is about and which it reads is listed in Spec/History.lean (Op.parts) and Spec/Reads.lean (Op.needs); independent calls are defined from the two in Spec/Order.lean. An empty table of generic constraints stops all further calls and is excluded. Histories are Benign (no division by zero).
* **C110 The currency does not matter** (proved) - Converting the amounts in the state of a market commutes with every call and with building the program, by induction over the history; programs that differ by a positive factor in the objective have the same optima and proportional shadow prices.
* **C111 All raw inputs are of one interval** (partial) - A loader is a manager of files, tables and an interval; set_interval is a step on it, getters are functions of the state. For any list of earlier calls the state after a call that returns is determined by the interval; the queries reuse C66, C67 and C71. Result: Holds when the last set_interval returned. If it raised and the caller goes on, the database methods answer for the new interval and the file methods still for the old one (C111_exception_negation): loaders.py:68 stores the interval before the file is loaded.
* **C112 A market whose constraints can be met has an optimal dispatch** (proved) - Invariant over histories: no violation variable has a negative cost. Then the objective is bounded on the box of the variables. Fourier-Motzkin/Farkas over the rationals gives attained minima of bounded linear programs; special ordered sets are split into finitely many cases by the set of variables that are zero. Result: C112_negative_cost shows that the condition on violation costs is needed: make_constraints_elastic accepts negative ones.
* **C113 Prices exist** (proved) - The affine Farkas lemma applied to the linear model gives multipliers of rows and bounds; those of the rows are shadow prices (distinct ids of rows from C01). Feasibility of the linear model from C32.
* **C114 If everything is elastic a dispatch always exists** (proved) - Fill in the violation variables set by set; each step leaves other sets' rows and variables alone (they are disjoint, C24). Start from zero dispatch and flow.
* **C115 The order of the rows of input tables does not matter** (partial) - Simulation up to a permutation of rows and a renaming of variable and constraint ids: every setter maps related markets and permuted tables to related markets (induction over histories); related markets have the same program up to order and renaming, hence the same solutions, reports and shadow prices. Result: Missing: set_tie_break_constraints with bidirectional units, for which the property fails (C115_tie_break_negation: of the tied bids to generate and to consume only the pair that comes first is constrained). C115_fcas_volumes_negation: rows of one requirement set with different volumes are accepted and their order decides on the requirement.
* **C116 The unit of power does not matter** (partial) - A map on markets that multiplies amounts of power commutes with every setter (induction over histories). Invariants on ids separate variables and constraints about shares from those about power; with them the program of the converted market is the original one with variables and rows multiplied, so solutions, reports and shadow prices correspond. Result: C116_negation: a cheap band of 0.0005 is dropped when amounts are given in a unit ten times as large (variable_ids.bids drops bands below 0.0001). Proved for histories in which no band crosses that limit. Not stated for the over constrained dispatch re-run, which uses absolute tolerances (0.0001 and 0.01).
* **C117 Filling the database again repairs it** (proved) - The calls of populate are a list; each works on its own table (frame lemmas), and the projection to one table is the month by month model of C77, C88 and C68. Induction over the list of calls, for every prefix of it. Result: A call that is broken off inside a download is taken as not made (the insertion of rows is one transaction).
* **C118 Every table and month has its own address** (proved) - Addresses as lists of characters; digits have no slash, so year and month can be read off, and the rest cancels.
* **C119 A shortage sets the price** (proved) - A violation variable above zero can go down as well as up, so its reduced cost is zero; the row of the constraint shows that one is above zero. The original left hand sides are the balance of the region and the supply of the set.
* **C120 Elastic constraints that are met change nothing** (proved) - A simulation between the two histories up to renaming of variables and constraints, where the violation variables have no partner on the rigid side; setting them to zero maps the rows and the cost of the one program to those of the other. Tie break constraints and interpolation weights keep their violation variables in both markets. Result: Violation degrees of tie-break constraints (always elastic) and interpolation weights are left as they are. C120_prices assumes that the solution of the linear pricing run violates nothing either (it may differ from the dispatch). C120_builds says when the program without violation costs can be built at all: nempy's solver interface fails when no constraint has coefficients.
* **C121 Names do not matter** (partial) - Every call except the one for volume bids commutes with the renaming of all tables (equations); the volume bids are sorted by unit, so the ids are exchanged as in C115. The program, the reports and the prices of the renamed market are those of the market with names replaced. Result: Missing: tie-break constraints, for which the statement is false (C121_tie_break_negation: names of tied pairs are concatenated, and two pairs can have the same name), and loss functions for some of the defined links only. Names of bid bands stay.
* **C122 Regions that nothing connects are dispatched independently** (proved) - Invariant over histories: every row of a constraint set is about one unit, one region, one named set, one pair of tied bids of one region or one interconnector. So every row and every special ordered set of the program has its variables on one side, the program falls into two parts, and solutions and multipliers of the parts can be combined. Result: Prices: markets without loss functions. Capacities: calls without a violation cost.
* **C123 The program is the market** (proved) - Spec/Whole.lean says call by call what is asked of a schedule. The exactness theorems of the single sets are put together over the history (every set of rows in the final market comes from exactly one call, sets without a call have no rows), the loss weights are constructed from the interpolation, and C05 and C94 give cost and solver. Result: The restrictions are part of the quantifier: histories with violation costs (C124) or tie-breaks are not covered, and units other than bidirectional ones with a fast start profile in joint ramping bid as generators only (for loads the code uses the rate adjusted for a generator). For bidirectional units all calls are covered except fast start profiles and joint capacity trapeziums of the load side or together with lower regulation bids of the load side, since the code treats the load side with the wrong sign or coefficient there (C11, C17). What joint ramping asks of a bidirectional unit is stated with the energy of the sides that bid for the regulation service, as the code does it; this is the net output if both sides bid (C16 shows the difference). The specification of losses includes the bound on loss variables set by the code: a loss is not larger than the largest flow the link allows.
* **C124 Violation costs price what is missed** (proved) - Spec/Soft.lean says for each call with a violation cost by how much a schedule misses what it asks, and at which price. The calls without a cost are treated as in C123. For the others the violation variables are filled one set after the other (C23), their sum is the price of what is missed (C24), and no smaller values are feasible. Existence of an optimal solution is C112. Result: Bidirectional units are covered as in C123: a violation cost on ramp rates is charged for what the net output of the unit is beyond its reach, one on joint ramping for what the energy of the sides that bid for regulation, with the regulation of both sides, is beyond it. Tie-break constraints are covered if names of pairs do not clash (see C27_negation for what happens if they do). A call of make_constraints_elastic after the call that sets the constraints is the same as giving the cost there (C38).
* **C125 A violation cost changes no call's outcome** (partial) - Spec/Priced.lean gives each call its violation cost. The step that makes a set elastic succeeds if the set is there and, unless it is empty, has a row of a known type; an invariant over histories shows this for the sets that may be left from earlier calls. Result: Fails for set_joint_ramping_constraints_reg (C125_joint_ramping_negation): with a violation cost it raises ModelBuildError unless there are constraints for raise regulation and constraints for lower regulation, for example if no unit bids for lower regulation. C125_joint_ramping says exactly when it is accepted. Proved for all other calls; the types of generic constraints, which the code does not check, are assumed to be <=, >= or =.
* **C126 Only the volume offered at each price matters** (proved) - Spec/Bands.lean sums the volume of the bands at a price. What calls ask and what is missed depends on the bids only through the dispatch of units and who bids (Proofs/Twin.lean); a schedule of one market is carried over by sharing what is dispatched at a price among the bands of that price in proportion to their volume. C124 then gives the statements about the program and dispatch. Result: Bands of less than 0.0001 MW do not count, the code drops them. Tie break constraints are left out by the quantifier: C126_ties_fails shows that they make the bands matter, as every band at a price is tied on its own. Bidirectional units and fast start profiles as in C123.
* **C127 Each call takes exactly the tables with its documented columns** (proved) - Spec/Layouts.lean lists the columns of each table with a rule per column, independently of the schema objects. Each theorem says that the check of the call accepts a regular table iff it has the layout. Proved from C35 (`C35_accepts_iff_partial`) and the equality of the schema with the one the layout stands for. Result: The check that price bids increase is not part of it, see C35.
* **C128 High violation costs are only paid when they have to be** (proved) - Spec/Dearer.lean defines the history with violation costs multiplied by a factor, and what violations cost. Multiplying the costs commutes with every call (Proofs/Dearer). The program is then a base and a multiple of a penalty; on each of the finitely many pieces of the feasible set given by the special ordered sets, Farkas' lemma bounds what a unit of penalty can save (Proofs/ExactPenalty). C120 and C112 give the comparison with the market without violation costs. Result: The factor exists for each market; no value is given for it. C119 gives prices against which violation costs can be compared.
* **C129 A constraint that is met anyway changes nothing** (proved) - Spec/Irrelevant.lean says which calls only restrict a market and when a schedule does what a call asks. The meaning of every call (Spec/Whole, Spec/Soft) depends only on the bids, links, losses and generic terms, which restricting calls leave alone; C124 reduces the programs to schedules of least total. Result: A dispatch that misses part of a call whose violation cost is zero pays nothing for it, so `C129_no_others` says that nothing is paid, rather than that nothing is missed, for calls with violation costs.
* **C130 Small changes of price bids have small effects** (proved) - Histories that differ in one price call have the same rows (Alike, Proofs/Alike), so the same feasible schedules, and C05 gives the difference of the objectives; the bounds follow from optimality of both dispatches and the bounds of bid variables. Result: Prices are those at the reference node (divided by the loss factor, negative for the energy of loads).
* **C131 The whole system balances** (proved) - Spec/System.lean defines total supply and total loss. The regional balances of C13 are summed over the regions; imports and charged losses are summed link by link (C21). Result: Every region must have an energy bid or a link; the balance of a region without either is no constraint (C13).
* **C132 Offering more never makes dispatch dearer** (proved) - Spec/Bands.lean says when a market is offered more. The dispatch of a unit at a price is spread over the larger bands in proportion to their sizes (Proofs/Offers); constraints, flows, losses and payments depend on the totals of units only (Proofs/Twin), and C124 turns this into the result of dispatch. Result: Units must offer the services already: C132_first_offer_fails shows that a first offer can make dispatch dearer, as ramp rates given for a unit come into force with its first bid. Tie break constraints, which depend on the bands, are left out.
* **C133 Calls refuse exactly the tables their checks refuse** (proved) - Spec/Frames.lean writes the typed rows of the model out as data frames with the documented columns. Proofs/Frames computes what the layouts of C127 demand of such frames, and Props/Frames compares this with the errors of every call of the market model. Result: Violation costs passed to the setters are numbers. Ramp rates: if bidirectional units lack one of their two rows the call raises another error before the other tables are checked, so this is a hypothesis (hbi). Price bids, capacities and forecasts are called after the volume bids, as otherwise a call order error is raised first.
* **C134 The cost of the dispatch is convex in demands, limits and requirements** (proved) - Spec/Mixture.lean defines tables with two values in every row and the three calls made from them. Props/Mixture shows that the three linear programs differ only in the right hand sides of one constraint set (the relation of C106 to C108) and that these right hand sides are mixtures, so mixtures of feasible points are feasible. Result: C134_alternative_links_fails shows that the claim is false if two links of one interconnector exclude each other: the assumption PlainLinks is needed.
* **C135 The cost of the dispatch is concave in the price bids** (proved) - Spec/Concave.lean says when price bids lie between two tables of price bids. Props/Concave uses that a change of prices leaves the constraints alone (C107, C130) and that the objective is linear in the prices (C05). Result: Holds with losses and alternative links, as the set of schedules is the same in the three markets.
* **C136 Raising violation costs never increases violations** (proved) - Same histories with factors on the violation costs as in C128 (Spec/Dearer). Props/Fines writes the objective as the rest and the factor times the fines, over the same set of schedules, and compares two optimal schedules. Result: Violations are weighed by their violation costs (Market.fines); for a single constraint set with one violation cost this is the sum of its violations. C136_once_met assumes that no violation cost is negative.
* **C137 Offers that are not taken do not matter** (proved) - Spec/Bands: Market.takenAt is what a schedule takes at a price, OtherOffers two markets that differ in the bids. Proofs/Offers spreads what is taken at each price over the bands of the other market; Props/Withdrawn combines this with C132. Result: A unit has to keep some offer for each service and side it offers: constraints of a unit come into force with its bids (C132). No tie breaks: these make the split into bands matter (C126).
* **C138 Price changes that leave the dispatch as it is** (proved) - Two histories that differ in one set_unit_price_bids (OneCall, as in C130). Spec/KeptPrices says which prices may change; Props/KeptPrices shows that no other schedule gains from the change. Result: Loss factors are not zero (SpotMarket accepts no negative ones; the price bid is divided by the loss factor).
* **C139 Limits that do not bind do not matter** (proved) - Three histories that differ in one table of values (C134). Props/Slack mixes the dispatch with any schedule of the looser market, which gives a schedule of the market in between. Result: Interconnector links have the name of their interconnector and there are no losses, as in C134: with alternative links a limit that does not bind can matter.
* **C140 Only differences of energy prices matter** (proved) - Two histories that differ in one set_unit_price_bids (as in C130); Spec/Level says that the energy prices are shifted. The difference of the costs is the amount times the net output of all units (C05), which C131 relates to demand and losses. Result: Demand is firm and set for every region. Loss factors are not zero (negative ones are not accepted). Losses are those of loss functions and of link loss factors (Market.totalLoss of C131); C140_no_losses says when there are none.
* **C141 FCAS beyond the requirement has no price** (proved) - Complementary slackness of the shadow prices (Spec/Price) for the rows of FCAS requirements; the left hand side of the row is the supply of the set plus linked terms (C14). Result: The prices are assumed to be shadow prices of the linear model, at its solution xl; C141_dispatch is about the dispatch itself where the linear model finds nothing cheaper (as in C119). Without violation prices some unit of the region must offer the service.
