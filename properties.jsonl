{"id": "C01", "title": "Internal flows and depths solve the discretised Saint-Venant system", "statement": "After a step, for every superlink whose interior depths were not clipped, the reported link flows and junction depths satisfy, exactly in real arithmetic, the momentum equation of every link and the continuity equation of every interior junction that the step assembled, with the two end depths as boundary data.", "quantifier": "every superlink, every number of internal links, every value of the momentum/continuity coefficients with non-zero pivots, every pair of end depths", "why_tests_cant": "the elimination is a recurrence of arbitrary length; a test only sees particular lengths and coefficients and compares with tolerances", "anchors": ["pipedream_solver/nsuperlink.py:numba_forward_recurrence", "pipedream_solver/nsuperlink.py:numba_backward_recurrence", "pipedream_solver/nsuperlink.py:numba_solve_internals"]}
{"id": "C02", "title": "The elimination never divides by zero for physical inputs", "statement": "If every link has positive flow area, positive length and non-negative friction, and dt > 0, then every pivot of the forward and backward sweeps is strictly positive, so the guard that silently replaces a division by zero with 0 is never taken.", "quantifier": "every superlink of any length, all velocities of either sign, all friction methods, all dt > 0", "why_tests_cant": "a vanishing pivot is a measure-zero event that sampling misses; the guard would hide it", "anchors": ["pipedream_solver/nsuperlink.py:T_ik", "pipedream_solver/nsuperlink.py:O_ik", "pipedream_solver/nsuperlink.py:safe_divide", "pipedream_solver/nsuperlink.py:numba_b_ik"]}
{"id": "C03", "title": "Superlinks do not interfere with each other", "statement": "The coefficients and internal states computed for one superlink depend only on that superlink's own links and junctions: changing the data of any other superlink, or their number, leaves them unchanged.", "quantifier": "every network with any number of superlinks of any lengths laid out in consecutive index ranges", "why_tests_cant": "index-range overlap bugs only show for particular layouts; the claim ranges over all layouts", "anchors": ["pipedream_solver/nsuperlink.py:numba_forward_recurrence", "pipedream_solver/nsuperlink.py:numba_backward_recurrence", "pipedream_solver/nsuperlink.py:numba_solve_internals"]}
{"id": "C04", "title": "Superlink end flows are consistent with both sweeps and the end-head relations", "statement": "The reported inflow Q_uk and outflow Q_dk of a superlink, the end depths h_uk and h_dk and the two superjunction heads satisfy simultaneously the backward relation for Q_uk, the forward relation for Q_dk and the two head-loss relations at the pipe ends.", "quantifier": "every superlink and every value of recurrence and head coefficients for which the 2x2 determinant is not zero", "why_tests_cant": "six independent closed formulas must agree identically; tests only check sampled values", "anchors": ["pipedream_solver/nsuperlink.py:numba_alpha_uk", "pipedream_solver/nsuperlink.py:numba_beta_uk", "pipedream_solver/nsuperlink.py:numba_chi_uk", "pipedream_solver/nsuperlink.py:numba_alpha_dk", "pipedream_solver/nsuperlink.py:numba_beta_dk", "pipedream_solver/nsuperlink.py:numba_chi_dk", "pipedream_solver/superlink.py:solve_superlink_flows", "pipedream_solver/superlink.py:solve_superlink_depths"]}
{"id": "C05", "title": "The superlink boundary determinant is bounded away from zero", "statement": "For physical inputs with the default end-head method the determinant used to eliminate the end depths of a superlink is at least 1, so the end-flow coefficients are always well defined.", "quantifier": "every superlink, any length, any flow direction and any head", "why_tests_cant": "needs the sign structure of the complete sweep for all lengths", "anchors": ["pipedream_solver/nsuperlink.py:numba_D_k_star", "pipedream_solver/nsuperlink.py:gamma_uk", "pipedream_solver/nsuperlink.py:gamma_dk"]}
{"id": "C06", "title": "The network head system always has exactly one solution", "statement": "For every network whose superjunctions have positive storage area and whose links are physical, the assembled head equations (superlinks, orifices, weirs, pumps and fixed-head rows together) have exactly one solution for every right-hand side.", "quantifier": "all network topologies (including parallel pipes, loops and self-loops), all control settings, all boundary-condition masks", "why_tests_cant": "singularity depends on topology and data jointly; no finite test set covers all graphs", "anchors": ["pipedream_solver/nsuperlink.py:sparse_matrix_equations", "pipedream_solver/nsuperlink.py:numba_create_A_matrix", "pipedream_solver/nsuperlink.py:numba_create_OWP_matrix", "pipedream_solver/nsuperlink.py:solve_sparse_matrix"]}
{"id": "C07", "title": "Superjunction mass balance", "statement": "At every superjunction without a fixed head whose new head was not clipped, storage change over the step (surface area times head change, plus the half pipe-end volumes) equals dt times external inflow plus all superlink, orifice, weir and pump flows of the linearised relations entering minus leaving.", "quantifier": "all topologies, all inputs, all dt > 0, all previous states", "why_tests_cant": "a sign or index error in scatter-add assembly can cancel in any particular tested network", "anchors": ["pipedream_solver/nsuperlink.py:sparse_matrix_equations", "pipedream_solver/nsuperlink.py:numba_add_at", "pipedream_solver/nsuperlink.py:numba_create_A_matrix", "pipedream_solver/nsuperlink.py:numba_create_OWP_matrix"]}
{"id": "C08", "title": "Fixed-head superjunctions take exactly the prescribed head", "statement": "After a step every superjunction marked as boundary condition has head equal to the supplied H_bc, limited to the interval [invert, invert + max_depth].", "quantifier": "all networks, all boundary masks, all coefficients", "why_tests_cant": "boundary rows interact with control matrices and clearing of stale entries", "anchors": ["pipedream_solver/nsuperlink.py:sparse_matrix_equations", "pipedream_solver/nsuperlink.py:numba_create_OWP_matrix", "pipedream_solver/nsuperlink.py:numba_clear_off_diagonals", "pipedream_solver/nsuperlink.py:solve_sparse_matrix"]}
{"id": "C09", "title": "Superjunction heads stay between invert and invert + max_depth for ever", "statement": "After construction and after any sequence of steps, with any inputs and step sizes, every superjunction head lies between its invert elevation and invert elevation plus max_depth.", "quantifier": "all operation histories of any length", "why_tests_cant": "invariant over unbounded histories", "anchors": ["pipedream_solver/nsuperlink.py:solve_sparse_matrix", "pipedream_solver/nsuperlink.py:solve_banded_matrix", "pipedream_solver/superlink.py:__init__"]}
{"id": "C10", "title": "Internal depths never fall below min_depth and interior depths never exceed the superlink maximum", "statement": "After any sequence of steps every junction depth is at least min_depth, and every interior junction depth is at most the superlink max_depth (when that is at least min_depth).", "quantifier": "all histories, all superlinks, all numbers of links", "why_tests_cant": "invariant over unbounded histories and loop lengths", "anchors": ["pipedream_solver/nsuperlink.py:numba_solve_internals", "pipedream_solver/nsuperlink.py:solve_internals_backwards", "pipedream_solver/nsuperlink.py:solve_internals_forwards"]}
{"id": "C11", "title": "Assembled equations do not depend on earlier steps", "statement": "Rebuilding the network matrices over matrices left by any previous assembly of the same network gives the same matrices as building them from zero: no stale coefficient survives from one step to the next.", "quantifier": "all previous matrix contents reachable by earlier assemblies, all topologies including parallel and reversed elements", "why_tests_cant": "stale entries need particular histories of topology and boundary masks", "anchors": ["pipedream_solver/nsuperlink.py:numba_clear_off_diagonals", "pipedream_solver/nsuperlink.py:numba_create_A_matrix", "pipedream_solver/nsuperlink.py:numba_create_OWP_matrix"]}
{"id": "C12", "title": "Ordering of elements does not matter", "statement": "Listing the superlinks (or orifices, weirs, pumps) in a different order, or renumbering superjunctions, gives the same assembled equations up to the renumbering, hence the same heads.", "quantifier": "all permutations of all networks", "why_tests_cant": "factorially many permutations", "anchors": ["pipedream_solver/nsuperlink.py:numba_add_at", "pipedream_solver/nsuperlink.py:numba_create_A_matrix", "pipedream_solver/superlink.py:_initialize_with_permuted_columns"]}
{"id": "C13", "title": "Banded and dense solves agree", "statement": "For an automatically permuted model the banded storage contains every non-zero entry of the system matrix, so the banded and the dense solve give the same heads.", "quantifier": "all networks", "why_tests_cant": "depends on the sparsity pattern of the graph; particular gap patterns break it", "anchors": ["pipedream_solver/superlink.py:_compute_bandwidth", "pipedream_solver/nsuperlink.py:numba_create_banded", "pipedream_solver/nsuperlink.py:solve_banded_matrix"]}
{"id": "C14", "title": "Still water stays still", "statement": "If all superjunctions are at one common head, every pipe is filled to that head, all flows are zero and there is no inflow, then a step changes nothing: heads, depths and flows are reproduced exactly.", "quantifier": "all networks of ponded pipes, all slopes, geometries, lengths and dt", "why_tests_cant": "well-balancedness must hold for every bed profile; tests check a tolerance on one", "anchors": ["pipedream_solver/nsuperlink.py:numba_P_ik", "pipedream_solver/nsuperlink.py:D_Ik", "pipedream_solver/nsuperlink.py:numba_chi_uk", "pipedream_solver/nsuperlink.py:sparse_matrix_equations"]}
{"id": "C15", "title": "More inflow never lowers any head", "statement": "With the same linearised coefficients, increasing the external inflow at some superjunctions (or raising a fixed head) never decreases the solved (unclipped) head of any superjunction.", "quantifier": "all networks, all increments", "why_tests_cant": "needs the sign structure (M-matrix) for all topologies", "anchors": ["pipedream_solver/nsuperlink.py:sparse_matrix_equations", "pipedream_solver/nsuperlink.py:solve_sparse_matrix"]}
{"id": "C16", "title": "Network-wide volume conservation of a step", "statement": "Summed over a network without fixed heads and without clipping, the volume gained by superjunctions and pipe interiors in one step equals dt times the total external inflow: links, orifices, weirs and pumps only move water.", "quantifier": "all networks, all inputs, all dt", "why_tests_cant": "global cancellation over arbitrary topologies", "anchors": ["pipedream_solver/nsuperlink.py:sparse_matrix_equations", "pipedream_solver/nsuperlink.py:numba_node_coeffs", "pipedream_solver/nsuperlink.py:numba_solve_internals"]}
{"id": "C17", "title": "Friction and local losses always oppose motion", "statement": "For each friction law and any flow of either sign the resistance added to the momentum equation is non-negative, it does not depend on the flow direction, and the link coefficient b minus its neighbours' coupling is at least dx/dt.", "quantifier": "all flows, roughnesses, areas, radii", "why_tests_cant": "continuous domain with several branches", "anchors": ["pipedream_solver/nsuperlink.py:friction_slope", "pipedream_solver/nsuperlink.py:numba_b_ik", "pipedream_solver/nsuperlink.py:numba_a_ik", "pipedream_solver/nsuperlink.py:numba_c_ik"]}
{"id": "C18", "title": "Junction velocities are interpolations of the neighbouring link velocities", "statement": "The velocity used at a junction always lies between the velocities of the two adjoining links of the same superlink and is finite; at a superlink end it equals the end link velocity; a dry link has zero velocity.", "quantifier": "all link lengths and velocities", "why_tests_cant": "continuous domain, division guard", "anchors": ["pipedream_solver/nsuperlink.py:numba_u_ik", "pipedream_solver/nsuperlink.py:numba_u_Ik", "pipedream_solver/nsuperlink.py:numba_u_Ip1k"]}
{"id": "C19", "title": "Flow responds to heads in the physical direction", "statement": "Raising the upstream head never decreases either end flow of a superlink and raising the downstream head never increases either; the response of the inflow to the upstream head is at least that of the outflow.", "quantifier": "all physical superlinks of any length", "why_tests_cant": "sign structure of a composed elimination", "anchors": ["pipedream_solver/nsuperlink.py:superlink_flow_coefficients"]}
{"id": "C20", "title": "Orifice flow goes from high to low head and vanishes at equal heads", "statement": "The reported orifice discharge is non-negative when the upstream head is at least the downstream head, non-positive otherwise, and zero when the two heads are equal.", "quantifier": "all heads, openings, orientations", "why_tests_cant": "case analysis over a continuous domain with four regimes; the equal-head boundary is measure zero", "anchors": ["pipedream_solver/nsuperlink.py:numba_solve_orifice_flows"]}
{"id": "C21", "title": "One-way orifices never flow backwards", "statement": "An orifice declared oneway never reports a negative discharge and contributes nothing to the head equations when the downstream head is at least the upstream head.", "quantifier": "all heads and openings", "why_tests_cant": "continuous domain and several overlapping masks", "anchors": ["pipedream_solver/nsuperlink.py:numba_solve_orifice_flows", "pipedream_solver/nsuperlink.py:numba_orifice_flow_coefficients"]}
{"id": "C22", "title": "Closed or unsubmerged controls pass no water", "statement": "An orifice with opening 0, or with both heads at or below its bottom, a weir with both heads at or below the (raised) crest, and a pump whose upstream head is at or below its inlet, all report zero discharge.", "quantifier": "all heads, geometries and control settings", "why_tests_cant": "boundary cases of nested conditions", "anchors": ["pipedream_solver/nsuperlink.py:numba_solve_orifice_flows", "pipedream_solver/nsuperlink.py:numba_solve_weir_flows", "pipedream_solver/nsuperlink.py:numba_solve_pump_flows", "pipedream_solver/nsuperlink.py:numba_orifice_geometry"]}
{"id": "C23", "title": "An orifice never removes more water than its source holds", "statement": "The discharge of each orifice times dt is at most the volume stored at the superjunction it drains; the same should hold for all orifices draining a superjunction together.", "quantifier": "all states and dt", "why_tests_cant": "needs quantification over any number of orifices on a node", "anchors": ["pipedream_solver/nsuperlink.py:solve_orifice_flows"]}
{"id": "C24", "title": "Linearised control relations agree with the nonlinear law at convergence", "statement": "If the flow used for linearisation equals the flow given by the nonlinear orifice, weir or pump law at the same heads, then the linear relation alpha*H_u + beta*H_d + chi put into the head equations returns exactly that flow.", "quantifier": "all heads and settings in every regime with non-zero flow", "why_tests_cant": "agreement of two independently coded case analyses", "anchors": ["pipedream_solver/nsuperlink.py:numba_orifice_flow_coefficients", "pipedream_solver/nsuperlink.py:numba_solve_orifice_flows", "pipedream_solver/nsuperlink.py:numba_weir_flow_coefficients", "pipedream_solver/nsuperlink.py:numba_solve_weir_flows", "pipedream_solver/nsuperlink.py:numba_pump_flow_coefficients", "pipedream_solver/nsuperlink.py:numba_solve_pump_flows"]}
{"id": "C25", "title": "Weir flow direction, magnitude and monotonicity", "statement": "Weir discharge is directed from the higher to the lower head, is zero when heads are equal, and does not decrease when the higher head rises with the lower head at or below the crest.", "quantifier": "all heads, crest levels, coefficients", "why_tests_cant": "continuous domain with regimes", "anchors": ["pipedream_solver/nsuperlink.py:numba_solve_weir_flows"]}
{"id": "C26", "title": "Pump discharge is non-negative, follows the pump curve and decreases with lift", "statement": "With dH_max not above the shut-off head, pump discharge is non-negative, satisfies Q^c * b = u (a - dH) with dH limited to [dH_min, dH_max], and does not increase with the head difference.", "quantifier": "all heads and settings", "why_tests_cant": "real powers over a continuous domain", "anchors": ["pipedream_solver/nsuperlink.py:numba_solve_pump_flows", "pipedream_solver/nsuperlink.py:numba_pump_flow_coefficients"]}
{"id": "C27", "title": "Reported control flows equal the flows used in the mass balance", "statement": "The orifice, weir and pump discharges reported after a step are the ones that moved water in the head equations of that step.", "quantifier": "all steps", "why_tests_cant": "difference only visible away from convergence", "anchors": ["pipedream_solver/nsuperlink.py:solve_orifice_flows", "pipedream_solver/nsuperlink.py:orifice_flow_coefficients", "pipedream_solver/nsuperlink.py:gamma_o"]}
{"id": "C28", "title": "Cross-section area is non-negative, non-decreasing in depth, and constant once full", "statement": "For every supported section the flow area is non-negative, does not decrease when depth increases, and does not change once depth exceeds the section height.", "quantifier": "all depths and section parameters", "why_tests_cant": "continuous domain, transcendental formulas", "anchors": ["pipedream_solver/ngeometry.py:Circular_A_ik", "pipedream_solver/ngeometry.py:Rect_Closed_A_ik", "pipedream_solver/ngeometry.py:Rect_Open_A_ik", "pipedream_solver/ngeometry.py:Triangular_A_ik", "pipedream_solver/ngeometry.py:Trapezoidal_A_ik", "pipedream_solver/ngeometry.py:Parabolic_A_ik", "pipedream_solver/ngeometry.py:Elliptical_A_ik", "pipedream_solver/ngeometry.py:Wide_A_ik", "pipedream_solver/ngeometry.py:Force_Main_A_ik", "pipedream_solver/ngeometry.py:Floodplain_A_ik"]}
{"id": "C29", "title": "Top width is the derivative of area", "statement": "For every open section the reported top width equals the derivative of the reported area with respect to depth at every depth strictly between empty and full.", "quantifier": "all depths and parameters", "why_tests_cant": "a derivative identity over the continuum", "anchors": ["pipedream_solver/ngeometry.py:Circular_B_ik", "pipedream_solver/ngeometry.py:Rect_Open_B_ik", "pipedream_solver/ngeometry.py:Triangular_B_ik", "pipedream_solver/ngeometry.py:Trapezoidal_B_ik", "pipedream_solver/ngeometry.py:Parabolic_B_ik", "pipedream_solver/ngeometry.py:Elliptical_B_ik", "pipedream_solver/ngeometry.py:Floodplain_B_ik"]}
{"id": "C30", "title": "Hydraulic radius is non-negative, finite and at most area over wetted bottom", "statement": "The hydraulic radius returned for any section is non-negative, is area divided by wetted perimeter when the perimeter is positive and 0 otherwise.", "quantifier": "all areas and perimeters", "why_tests_cant": "guarded division", "anchors": ["pipedream_solver/ngeometry.py:Circular_R_ik", "pipedream_solver/ngeometry.py:Rect_Closed_R_ik"]}
{"id": "C31", "title": "Full-section geometry is exact", "statement": "A full closed section has the textbook area and wetted perimeter: circle pi r^2 and 2 pi r, rectangle b*h and 2(b+h), ellipse pi a b.", "quantifier": "all parameters", "why_tests_cant": "boundary of a piecewise formula", "anchors": ["pipedream_solver/ngeometry.py:Circular_A_ik", "pipedream_solver/ngeometry.py:Rect_Closed_A_ik", "pipedream_solver/ngeometry.py:Rect_Closed_Pe_ik", "pipedream_solver/ngeometry.py:Elliptical_A_ik"]}
{"id": "C32", "title": "Compound (floodplain) section area is continuous across its tiers", "statement": "The area of a compound channel section has no jump where the water enters the floodplain.", "quantifier": "all section parameters", "why_tests_cant": "limit statement over the continuum", "anchors": ["pipedream_solver/ngeometry.py:Floodplain_A_ik", "pipedream_solver/ngeometry.py:Floodplain_B_ik"]}
{"id": "C33", "title": "Storage volume is the integral of storage area", "statement": "For functional and tabular storages, the reported volume is zero when empty, increases with depth, and its derivative with respect to depth is the reported surface area.", "quantifier": "all depths, all curves", "why_tests_cant": "derivative/integral identity; tables of any length", "anchors": ["pipedream_solver/storage.py:Functional", "pipedream_solver/storage.py:Tabular", "pipedream_solver/nsuperlink.py:numba_compute_functional_storage_volumes", "pipedream_solver/nsuperlink.py:numba_compute_tabular_storage_volumes", "pipedream_solver/nsuperlink.py:configure_storages"]}
{"id": "C34", "title": "Tabular storage area stays within the table and is monotone", "statement": "Tabulated surface area lookups return a value between the smallest and largest tabulated area, return the tabulated value at tabulated depths and are monotone for monotone tables.", "quantifier": "tables of any length, all depths", "why_tests_cant": "quantifies over all tables", "anchors": ["pipedream_solver/nsuperlink.py:numba_compute_tabular_storage_areas", "pipedream_solver/storage.py:Tabular"]}
{"id": "C35", "title": "Soil moisture deficit stays within its physical range", "statement": "In any sequence of Green-Ampt steps with non-negative rainfall, the moisture deficit stays between 0 and its maximum, ponding depth and runoff stay non-negative.", "quantifier": "all rainfall histories and soil parameters", "why_tests_cant": "invariant over unbounded histories with case transitions", "anchors": ["pipedream_solver/ninfiltration.py:nGreenAmpt", "pipedream_solver/ninfiltration.py:run_green_ampt_newton"]}
{"id": "C36", "title": "Infiltration never exceeds available water", "statement": "In every step the infiltration rate is at most the rainfall plus ponded-water supply rate.", "quantifier": "all steps of all histories", "why_tests_cant": "several regimes and an implicit solve", "anchors": ["pipedream_solver/infiltration.py:unsaturated_case_1", "pipedream_solver/infiltration.py:unsaturated_case_2", "pipedream_solver/ninfiltration.py:unsaturated_case_3", "pipedream_solver/ninfiltration.py:saturated_case"]}
{"id": "C37", "title": "Surface water balance of the infiltration model", "statement": "Over a step, the change of ponded depth equals dt times (rainfall minus infiltration minus runoff), never creating water.", "quantifier": "all steps", "why_tests_cant": "dimension error only visible for dt != 1", "anchors": ["pipedream_solver/infiltration.py:compute_ponding_depth", "pipedream_solver/infiltration.py:compute_runoff"]}
{"id": "C38", "title": "Interpolated forcing stays between neighbouring samples and reproduces samples", "statement": "The input value used at a time t is the recorded sample when t is a sample time, lies between the two bracketing samples otherwise, and is the first/last sample outside the record (linear and nearest modes).", "quantifier": "records of any length, all query times", "why_tests_cant": "quantifies over all tables and times", "anchors": ["pipedream_solver/nutils.py:interpolate_sample", "pipedream_solver/simulation.py:_step"]}
{"id": "C39", "title": "Bracketed root finder stays in its bracket and converges when it returns", "statement": "The bounded Newton iteration evaluates the function only inside the caller's interval and keeps a bracket of the root; if it returns, the value lies in the interval and its last correction is below the tolerance; otherwise it raises.", "quantifier": "all functions and intervals with a sign change", "why_tests_cant": "iteration over arbitrary functions", "anchors": ["pipedream_solver/nutils.py:bounded_newton_raphson", "pipedream_solver/nutils.py:newton_raphson"]}
{"id": "C40", "title": "Simulation time advances by exactly the accepted step", "statement": "After Simulation.step with any subdivisions and retries, simulation time has advanced by the accepted step size (the requested one halved at most retries times), which is the step recorded at the head of the step-size history, and is above min_dt whenever it was halved.", "quantifier": "all error sequences, subdivisions, retries", "why_tests_cant": "recursion depth and data-dependent branching", "anchors": ["pipedream_solver/simulation.py:step", "pipedream_solver/superlink.py:step", "pipedream_solver/superlink.py:_solve_step"]}
{"id": "C41", "title": "Rejected steps leave no trace in the model state", "statement": "When a step is rejected and retried with half the step size, the final hydraulic state is the one obtained by performing the accepted (subdivided) step from the state before the first attempt.", "quantifier": "all retry sequences", "why_tests_cant": "history property over failure points", "anchors": ["pipedream_solver/simulation.py:step", "pipedream_solver/superlink.py:save_state", "pipedream_solver/superlink.py:load_state"]}
{"id": "C42", "title": "Retries keep the caller's tolerance and norm", "statement": "A retried step is judged with the tolerance and error norm the caller supplied.", "quantifier": "all tolerances", "why_tests_cant": "only visible with non-default tolerance and several retries", "anchors": ["pipedream_solver/simulation.py:step"]}
{"id": "C43", "title": "Adaptive step sizes stay within the configured limits", "statement": "The step-size controllers return a value within [min_dt, max_dt] for every error history once enough history exists, and grow when the error is below tolerance / shrink when above.", "quantifier": "all histories and coefficients", "why_tests_cant": "continuous domain", "anchors": ["pipedream_solver/simulation.py:compute_step_size", "pipedream_solver/simulation.py:filter_step_size"]}
{"id": "C44", "title": "Step-size and error histories keep the most recent three entries", "statement": "After any sequence of steps the histories hold the most recent at most three accepted step sizes and errors in order.", "quantifier": "all histories", "why_tests_cant": "unbounded histories with rejections", "anchors": ["pipedream_solver/simulation.py:step"]}
{"id": "C45", "title": "Saving and loading a state round-trips", "statement": "Loading a state saved at the start of a step restores time, heads, depths and flows exactly, and mutating the model afterwards does not change the saved state.", "quantifier": "all states", "why_tests_cant": "aliasing", "anchors": ["pipedream_solver/superlink.py:save_state", "pipedream_solver/superlink.py:load_state"]}
{"id": "C46", "title": "Fixed-point iteration advances time once", "statement": "SuperLink.step with any num_iter advances time by dt once and the step counter by one, performs at most num_iter solves, and stops early only when successive heads agree within head_tol.", "quantifier": "all num_iter, all convergence behaviours", "why_tests_cant": "data-dependent loop", "anchors": ["pipedream_solver/superlink.py:step", "pipedream_solver/superlink.py:_setup_step", "pipedream_solver/superlink.py:_solve_step"]}
{"id": "C47", "title": "Pipes run downhill after construction", "statement": "After construction the upstream invert of every superlink is not below its downstream invert.", "quantifier": "all networks and offsets", "why_tests_cant": "depends on combination of offsets and inverts", "anchors": ["pipedream_solver/superlink.py:__init__"]}
{"id": "C48", "title": "Generated internal discretisation is consistent", "statement": "Automatically generated internal links of a superlink have positive lengths summing to the superlink length, junction inverts interpolate linearly between the end inverts, and index tables link each junction to its neighbours.", "quantifier": "all lengths, link counts and numbers of superlinks", "why_tests_cant": "index arithmetic over all sizes", "anchors": ["pipedream_solver/superlink.py:_configure_internals_variable"]}
{"id": "C49", "title": "Repositioning a mobile junction keeps the discretisation valid", "statement": "Moving the mobile junction keeps junction positions sorted, keeps the total length, keeps depth between neighbouring depths and keeps the number of links.", "quantifier": "all positions, depths, superlinks", "why_tests_cant": "sorting and index permutation for all layouts", "anchors": ["pipedream_solver/nsuperlink.py:numba_reposition_junctions", "pipedream_solver/nsuperlink.py:reposition_junctions"]}
{"id": "C50", "title": "Kalman update keeps covariance symmetric positive semidefinite and does not increase it", "statement": "With symmetric PSD prior, process and measurement covariance and an invertible innovation covariance, the posterior covariance is symmetric, PSD and at most the predicted covariance; the corrected state solves the head system with the corrected right-hand side; with perfect agreement the state is unchanged.", "quantifier": "all dimensions and matrices", "why_tests_cant": "matrix inequality for all sizes", "anchors": ["pipedream_solver/nutils.py:_kalman_semi_implicit", "pipedream_solver/simulation.py:kalman_filter"]}
{"id": "C51", "title": "Square-root Kalman option can be used", "statement": "Simulation.kalman_filter(SR=True) completes and updates the covariance.", "quantifier": "all inputs", "why_tests_cant": "arity mismatch is independent of data", "anchors": ["pipedream_solver/simulation.py:kalman_filter", "pipedream_solver/utils.py:_square_root_kalman_semi_implicit"]}
{"id": "C52", "title": "State-space form equals the step equations", "statement": "The semi-implicit system exposed by the model (A_1, A_2, b) satisfies A_1 H_next = A_2 H_prev + inputs exactly as used by step, with boundary rows decoupled.", "quantifier": "all networks", "why_tests_cant": "matrix identity for all sizes", "anchors": ["pipedream_solver/superlink.py:_semi_implicit_system", "pipedream_solver/superlink.py:state_space_system"]}
{"id": "C53", "title": "Concentrations stay within the configured limits", "statement": "After any sequence of water-quality steps every concentration is between c_min and c_max.", "quantifier": "all histories", "why_tests_cant": "invariant over unbounded histories and several clamps", "anchors": ["pipedream_solver/nquality.py:solve_sparse_matrix", "pipedream_solver/nquality.py:solve_boundary_states", "pipedream_solver/nquality.py:numba_solve_internals", "pipedream_solver/nquality.py:step"]}
{"id": "C54", "title": "Internal concentrations solve the discretised transport equations", "statement": "Where no clamp is active, the computed link and junction concentrations satisfy every link transport equation and every interior junction equation assembled for the step.", "quantifier": "superlinks of any length, all coefficients with non-zero pivots", "why_tests_cant": "recurrence of arbitrary length", "anchors": ["pipedream_solver/nquality.py:numba_forward_recurrence", "pipedream_solver/nquality.py:numba_backward_recurrence", "pipedream_solver/nquality.py:numba_solve_internals"]}
{"id": "C55", "title": "Uniform concentration is preserved", "statement": "If water everywhere, including inflow, has one concentration, there is no reaction, and the hydraulics balance volume, then the uniform concentration satisfies the transport equations of the step for links and junctions.", "quantifier": "all flows of either sign, all diffusion coefficients", "why_tests_cant": "identity over upwinding branches", "anchors": ["pipedream_solver/nquality.py:alpha_ik", "pipedream_solver/nquality.py:beta_ik", "pipedream_solver/nquality.py:chi_ik", "pipedream_solver/nquality.py:gamma_ik", "pipedream_solver/nquality.py:kappa_Ik", "pipedream_solver/nquality.py:lambda_Ik", "pipedream_solver/nquality.py:mu_Ik", "pipedream_solver/nquality.py:eta_Ik"]}
{"id": "C56", "title": "Contaminant enters a pipe from its upstream superjunction", "statement": "With forward flow, the concentration at the upstream end of a pipe is influenced by the concentration at the upstream superjunction.", "quantifier": "all diffusion coefficients including zero", "why_tests_cant": "degenerate coefficient only at exactly zero dispersion", "anchors": ["pipedream_solver/nquality.py:solve_boundary_states", "pipedream_solver/nquality.py:boundary_coefficients"]}
{"id": "C57", "title": "Contaminant mass is conserved", "statement": "Without reaction, the change of contaminant mass in a link or junction control volume over a step equals what flowed in minus what flowed out.", "quantifier": "all states", "why_tests_cant": "discrepancy is second order in the step", "anchors": ["pipedream_solver/nquality.py:beta_ik", "pipedream_solver/nquality.py:gamma_ik", "pipedream_solver/nquality.py:lambda_Ik", "pipedream_solver/nquality.py:eta_Ik"]}
{"id": "C58", "title": "Controls move contaminant without creating it", "statement": "The contribution of orifices, weirs and pumps to the superjunction concentration equations moves as much contaminant out of the source as into the destination, at the concentration of the source.", "quantifier": "all networks and flow directions", "why_tests_cant": "scatter-add over arbitrary topologies", "anchors": ["pipedream_solver/nquality.py:sparse_matrix_equations", "pipedream_solver/nquality.py:numba_create_OWP_matrix"]}
{"id": "C59", "title": "Step without an explicit dt uses the default step size", "statement": "Calling step() on the hydraulic or the water-quality model without dt uses the dt given at construction.", "quantifier": "all states", "why_tests_cant": "control-flow property of an optional argument", "anchors": ["pipedream_solver/superlink.py:step", "pipedream_solver/superlink.py:_solve_step", "pipedream_solver/nquality.py:step"]}
{"id": "C60", "title": "Internal least-squares solve uses each superlink's own coefficients", "statement": "For any mixture of link counts per superlink, the least-squares internal solver reads the coefficients belonging to that superlink.", "quantifier": "all lists of link counts", "why_tests_cant": "index arithmetic over all layouts", "anchors": ["pipedream_solver/superlink.py:__init__", "pipedream_solver/nsuperlink.py:numba_solve_internals_ls"]}
{"id": "C61", "title": "Error norm detects disagreement", "statement": "The normed truncation error is at its floor only when coarse and fine solutions agree, for each supported norm.", "quantifier": "all error vectors", "why_tests_cant": "cancellation needs particular vectors", "anchors": ["pipedream_solver/simulation.py:_normed_error", "pipedream_solver/simulation.py:_scaled_error"]}
{"id": "C62", "title": "End-head coefficients describe momentum balance with losses opposing the flow (bc_method 'b')", "statement": "With bc_method 'b' the head lost between a superjunction and the end of a superlink grows with the friction at that end: friction enters the upstream head relation with the same sign as the other losses and in units of head.", "quantifier": "all flows, areas, friction values and time steps", "why_tests_cant": "the relation must hold for every state; a regression test only fixes numbers", "anchors": ["pipedream_solver/nsuperlink.py:kappa_uk", "pipedream_solver/nsuperlink.py:kappa_dk", "pipedream_solver/nsuperlink.py:mu_uk", "pipedream_solver/nsuperlink.py:mu_dk"]}
{"id": "C63", "title": "Irregular section tables are consistent", "statement": "For an irregular section given by stations in order, the flow area is zero below the section, non-negative and non-decreasing in the water level, the top width is its rate of growth between any two levels and lies between zero and the total width, and the wetted perimeter is at least the top width.", "quantifier": "any number of stations, all elevations and water levels", "why_tests_cant": "continuum of water levels and arbitrary station lists", "anchors": ["pipedream_solver/ngeometry.py:Transect_A_ik", "pipedream_solver/ngeometry.py:Transect_B_ik", "pipedream_solver/ngeometry.py:Transect_Pe_ik"]}
{"id": "C64", "title": "Geometry at superlink ends is recomputed from the current depth", "statement": "The wetted perimeter and hydraulic radius at the ends of a superlink are functions of the current depths and section parameters only, never of values stored earlier.", "quantifier": "all shapes, depths and histories", "why_tests_cant": "staleness shows only for particular shapes and histories", "anchors": ["pipedream_solver/nsuperlink.py:numba_boundary_geometry", "pipedream_solver/nsuperlink.py:handle_elliptical_perimeter"]}
{"id": "C65", "title": "Every tabular storage uses its own table", "statement": "A superjunction whose storage column names a table computes its surface area and volume from that table, whatever the order in which the storages dictionary lists the tables.", "quantifier": "all dictionaries of tables (any number, lengths, order of names) and all superjunctions", "why_tests_cant": "a test fixes one dictionary order; the bug appears only for orders other than the alphabetical one", "anchors": ["pipedream_solver/nsuperlink.py:configure_storages", "pipedream_solver/nsuperlink.py:numba_compute_tabular_storage_areas", "pipedream_solver/nsuperlink.py:numba_compute_tabular_storage_volumes"]}
{"id": "C66", "title": "Cumulative infiltration is never negative", "statement": "In any sequence of Green-Ampt steps with non-negative rainfall from a fresh soil, the reported cumulative infiltration F is at least zero.", "quantifier": "all rainfall histories, step sizes and soil parameters", "why_tests_cant": "the violation needs a short shower followed by a dry spell shorter than the recovery time; tests use one storm", "anchors": ["pipedream_solver/infiltration.py:unsaturated_case_1", "pipedream_solver/ninfiltration.py:unsaturated_case_3"]}
{"id": "C67", "title": "Slopes of end stretches follow the pipe", "statement": "For a superlink with end stretches (dx_uk, dx_dk), the bed slope stored for the upstream and for the downstream stretch equals the slope of the pipe.", "quantifier": "all inverts, lengths and end stretches", "why_tests_cant": "The downstream slope is only wrong for the combination dx_uk = 0 < dx_dk, which no test model contains.", "anchors": ["pipedream_solver/superlink.py:__init__"]}
{"id": "C68", "title": "Reversing a superlink keeps its ends in place", "statement": "When the constructor exchanges sj_0 and sj_1 of a superlink to make it run downhill, the pipe still meets each superjunction at the elevation that was entered.", "quantifier": "all superjunction inverts and offsets", "why_tests_cant": "Needs a pipe entered uphill with unequal offsets; the property ranges over all elevations and offsets.", "anchors": ["pipedream_solver/superlink.py:__init__"]}
{"id": "C69", "title": "A permuted model is the same network and its results are labelled correctly", "statement": "With auto_permute=True rows, element ends and forcing are moved consistently, and the recorded column of each superjunction carries the label of that superjunction.", "quantifier": "all networks and permutations", "why_tests_cant": "Ranges over all permutations produced by the reordering; a test sees one.", "anchors": ["pipedream_solver/superlink.py:_initialize_with_permuted_columns", "pipedream_solver/superlink.py:__init__", "pipedream_solver/simulation.py:__init__"]}
{"id": "C70", "title": "Filtering does not move fixed-head boundaries", "statement": "After kalman_filter a superjunction with a fixed boundary condition still has the head given in H_bc.", "quantifier": "all networks, covariances, observations", "why_tests_cant": "depends on the structure of the noise covariance, not on one data set", "anchors": ["pipedream_solver/simulation.py:kalman_filter", "pipedream_solver/superlink.py:_semi_implicit_system"]}
{"id": "C71", "title": "Square-root and plain Kalman update agree", "statement": "_square_root_kalman_semi_implicit returns the same corrected right-hand side and covariance as _kalman_semi_implicit on the same inputs.", "quantifier": "all dimensions and covariance matrices", "why_tests_cant": "agree exactly for diagonal covariances and differ for correlated ones", "anchors": ["pipedream_solver/utils.py:_square_root_kalman_semi_implicit", "pipedream_solver/nutils.py:_kalman_semi_implicit"]}
{"id": "C72", "title": "Kalman filter is usable with its default settings", "statement": "Simulation(...).kalman_filter(Z) works with the default covariances of the constructor.", "quantifier": "all networks and observations", "why_tests_cant": "holds or fails for all data at once", "anchors": ["pipedream_solver/simulation.py:__init__", "pipedream_solver/simulation.py:kalman_filter"]}
{"id": "C73", "title": "The covariance is carried with the transition of the head equations", "statement": "The right transition matrix A_2 used by the filter is the response of the assembled right-hand side to the previous heads, also after a subdivided step.", "quantifier": "all networks, steps and subdivisions", "why_tests_cant": "a missing storage term only changes the size of the covariance", "anchors": ["pipedream_solver/superlink.py:_semi_implicit_system", "pipedream_solver/nsuperlink.py:sparse_matrix_equations"]}
{"id": "C74", "title": "No new extremes of concentration", "statement": "With positive dispersion, hydraulics that balance water and non-negative decay, a water-quality step satisfies all its transport equations and every new concentration lies between the smallest and largest value among old concentrations, boundary values and inflows, so the limits never act; the same holds over any sequence of steps.", "quantifier": "all networks, flows of either sign, step sizes, volume changes and histories", "why_tests_cant": "a bound for every network and every history", "anchors": ["pipedream_solver/nquality.py:step", "pipedream_solver/nquality.py:sparse_matrix_equations", "pipedream_solver/nquality.py:solve_internals_backwards"]}
{"id": "C75", "title": "The superjunction concentration system has one solution", "statement": "With positive dispersion and hydraulics that balance water, the matrix assembled for the superjunction concentrations is invertible: the system has exactly one solution for every right-hand side, whatever the size of the step.", "quantifier": "all networks with orifices, weirs and pumps, all flows", "why_tests_cant": "non-singularity over all networks", "anchors": ["pipedream_solver/nquality.py:sparse_matrix_equations", "pipedream_solver/nquality.py:solve_sparse_matrix", "pipedream_solver/nquality.py:solve_banded_matrix"]}
{"id": "C76", "title": "Contaminant accounting of the network", "statement": "Over a step the contaminant stored in all control volumes changes by inflow plus exchange with the fixed superjunctions minus reaction, up to the sum of (V - V_prev)(c - c_prev); with steady water levels and no fixed superjunction it changes by exactly the inflow.", "quantifier": "all networks and states", "why_tests_cant": "telescoping of internal fluxes over arbitrary topologies", "anchors": ["pipedream_solver/nquality.py:step", "pipedream_solver/nquality.py:sparse_matrix_equations", "pipedream_solver/nquality.py:numba_create_A_matrix"]}
{"id": "C77", "title": "Moving the mobile junction carries the flows with the water", "statement": "When reposition_junctions moves a mobile junction past other junctions, every new link that lies within one old link keeps the flow of that old link, and the link that replaces the two links around the old position gets a flow between theirs.", "quantifier": "all layouts, positions and flows; moves upstream and downstream past any number of junctions", "why_tests_cant": "the index permutation differs for every pair of old and new positions; the visible effect of a wrong flow is a small transient", "anchors": ["pipedream_solver/nsuperlink.py:numba_reposition_junctions"]}
{"id": "C78", "title": "The water-quality model receives a balanced water budget", "statement": "The flows, areas and volumes that QualityBuilder takes over from the hydraulic model balance water in every control volume (superjunction, junction, link) over the hydraulic step, so that a uniform concentration stays uniform in the coupled models.", "quantifier": "all networks, states and hydraulic steps", "why_tests_cant": "an imbalance shows only as a slow drift of concentration, and depends on the pipe shape and on which pipe ends are submerged", "anchors": ["pipedream_solver/nquality.py:import_hydraulic_states", "pipedream_solver/nquality.py:node_quantities", "pipedream_solver/nquality.py:link_coeffs", "pipedream_solver/nquality.py:node_coeffs", "pipedream_solver/nquality.py:geometry_WQ1"]}
{"id": "C79", "title": "The water-quality model sees the flow areas of the pipes", "statement": "For every link and pipe end the flow area that the water-quality model computes from the imported depths is the flow area of that pipe's own shape at those depths; shapes it does not support are rejected.", "quantifier": "all networks, shapes and depths", "why_tests_cant": "networks of a single shape and equal diameters hide a wrong index", "anchors": ["pipedream_solver/nquality.py:import_hydraulic_states", "pipedream_solver/nquality.py:geometry_WQ1", "pipedream_solver/nquality.py:geometry_WQ2"]}
{"id": "C80", "title": "The water-quality filter predicts with the model", "statement": "Before correcting, Kalman_Filter_WQ2 predicts exactly the superjunction concentrations the last step solved for; in particular the first call starts from the model's concentrations. The matrices of KF_Multi_WQ reproduce the step.", "quantifier": "all systems, states and call sequences", "why_tests_cant": "a wrong start is forgotten at a rate that depends on the network, so end results look plausible", "anchors": ["pipedream_solver/nquality.py:Kalman_Filter_WQ2", "pipedream_solver/nquality.py:KF_WQ2", "pipedream_solver/nquality.py:KF_Multi_WQ", "pipedream_solver/nquality.py:__init__"]}
{"id": "C81", "title": "Filtered concentrations stay admissible", "statement": "After Kalman_Filter_WQ2 every superjunction concentration lies between c_min and c_max and prescribed boundary concentrations keep their values.", "quantifier": "all systems, covariances and measurements", "why_tests_cant": "violations need unusual measurements or correlated noise", "anchors": ["pipedream_solver/nquality.py:Kalman_Filter_WQ2", "pipedream_solver/nquality.py:KF_WQ2"]}
{"id": "C82", "title": "The water-quality filter is a Kalman filter", "statement": "The covariance stays symmetric positive semidefinite over any sequence of calls and never exceeds the predicted one; the estimate at the observed superjunction lies between prediction and measurement; exact measurements are reproduced, agreeing ones change nothing; calls with some noise complete; Kalman_Filter_WQ1 does not alter the model.", "quantifier": "all systems, covariances, measurements and call sequences", "why_tests_cant": "definiteness is a statement about all directions and all call sequences", "anchors": ["pipedream_solver/nquality.py:Kalman_Filter_WQ1", "pipedream_solver/nquality.py:Kalman_Filter_WQ2", "pipedream_solver/nquality.py:KF_WQ2"]}
{"id": "C83", "title": "The water-quality filter propagates errors like the step", "statement": "The transition matrix A_k maps an error of the superjunction concentrations to the error of the next step's superjunction concentrations.", "quantifier": "all networks, states and errors", "why_tests_cant": "a wrong covariance changes only the weights of later corrections", "anchors": ["pipedream_solver/nquality.py:Kalman_Filter_WQ2", "pipedream_solver/nquality.py:sparse_matrix_equations"]}
{"id": "C84", "title": "A simulation begins at its start time", "statement": "After Simulation(model, ..., t_start) the simulation's time t equals t_start, the first recorded row carries that time, and inputs are sampled from there on; without t_start the start is the earliest time of the input tables (the model's time if there are none).", "quantifier": "all models, input tables, t_start and later sequences of steps, reloads and records", "why_tests_cant": "tests pass t_start rarely and with models whose clock happens to be at that value; that an argument has no effect on any later operation is a statement about all continuations", "anchors": ["pipedream_solver/simulation.py:__init__"]}
{"id": "C85", "title": "Recorded rows are the states of the model at their times", "statement": "For every sequence of steps, reloads and records, the row of a recorded variable at time t is the value the model had when it was last recorded at t, and there are no other rows.", "quantifier": "all sequences of step, record_state and load_state, all variables", "why_tests_cant": "a wrong or stale row has the right shape and a plausible value; that later operations never alter it quantifies over all continuations", "anchors": ["pipedream_solver/simulation.py:__init__", "pipedream_solver/simulation.py:record_state"]}
{"id": "C86", "title": "Recording loses nothing", "statement": "A loop of step and record_state with positive steps leaves one row per step, in the order of strictly increasing times, whatever subdivisions and retries shortened the steps.", "quantifier": "all numbers and sizes of steps, subdivisions, retries", "why_tests_cant": "needs induction over the number of steps with data-dependent step sizes", "anchors": ["pipedream_solver/simulation.py:record_state", "pipedream_solver/simulation.py:step", "pipedream_solver/simulation.py:__exit__"]}
{"id": "C87", "title": "Inputs of a step are those at the end of each of its substeps", "statement": "Every hydraulic solve of a step uses the inputs at the time that (sub)step reaches, a keyword argument taking precedence over the tables; inputs at other times have no influence on the result.", "quantifier": "all inputs, step sizes, subdivisions and retries", "why_tests_cant": "independence from all other times is a statement about pairs of input functions", "anchors": ["pipedream_solver/simulation.py:_step", "pipedream_solver/simulation.py:step"]}
{"id": "C88", "title": "The prescribed inflow arrives in full", "statement": "Over a run, the volume taken in at a superjunction equals the integral over time of the prescribed (linearly interpolated) inflow.", "quantifier": "all input tables, runs of any length and step size", "why_tests_cant": "a test compares with the same sampling rule; the loss depends on how sample and step times interleave", "anchors": ["pipedream_solver/simulation.py:_step", "pipedream_solver/nutils.py:interpolate_sample"]}
{"id": "C89", "title": "The progress bar is well-formed", "statement": "print_progress never raises, prints at most once per checkpoint, and prints bars of 50 characters.", "quantifier": "all start and end times, all sequences of times", "why_tests_cant": "the failing cases depend on coincidences of start and end time", "anchors": ["pipedream_solver/simulation.py:print_progress"]}
{"id": "C90", "title": "Spin-up prepares the state and resets the clock", "statement": "After spinup with reset_counters time and step counter are zero, the hydraulic state is that of n ordinary steps, and load_state() returns to the state and clock before the last step.", "quantifier": "all numbers and sizes of steps", "why_tests_cant": "clock and saved state are inspected by no test after a spin-up", "anchors": ["pipedream_solver/superlink.py:spinup", "pipedream_solver/superlink.py:load_state"]}
{"id": "C91", "title": "A free outfall takes critical or backwater depth", "statement": "With exit_hydraulics=True, the depth at the downstream end of a superlink whose superjunction stands below the pipe crown is the superjunction depth when that exceeds critical depth, the critical depth on a mild slope, and the computed depth on a steep slope, never below the minimum depth; a submerged end is left alone and the step completes.", "quantifier": "all heads, flows, diameters and slopes", "why_tests_cant": "the outcome depends on the order of four depths, one of which is never computed", "anchors": ["pipedream_solver/superlink.py:exit_conditions", "pipedream_solver/superlink.py:solve_exit_hydraulics", "pipedream_solver/superlink.py:_solve_step"]}
{"id": "C92", "title": "Critical depth is found and has Froude number one", "statement": "For every discharge the search returns the depth at which Q^2 B = g A^3, which exists and is unique below the crown.", "quantifier": "all discharges and diameters", "why_tests_cant": "the bracket ends have equal signs only for extreme discharges", "anchors": ["pipedream_solver/superlink.py:solve_critical_depth", "pipedream_solver/superlink.py:_critical_depth"]}
{"id": "C93", "title": "The non-negative internal solve is exact and non-negative", "statement": "With the nnls internal method the interior depths are never negative, and whenever the momentum and continuity equations of a superlink have a non-negative solution, depths and flows returned are that solution, for superlinks of any and of unequal link counts.", "quantifier": "all networks, coefficients and end depths", "why_tests_cant": "the optimality argument covers all sign patterns", "anchors": ["pipedream_solver/superlink.py:solve_internals_nnls"]}
{"id": "C94", "title": "Depths recovered from flows agree with the solved depths", "statement": "superlink_depth_from_recurrence and solve_superlink_depths_alt recover from the flows of the solved state the depths of that state.", "quantifier": "all superlinks and solved states", "why_tests_cant": "agreement of two different elimination orders for all coefficients", "anchors": ["pipedream_solver/superlink.py:superlink_depth_from_recurrence", "pipedream_solver/superlink.py:solve_superlink_depths_alt"]}
{"id": "C95", "title": "The augmented system reproduces the step", "statement": "_augmented_system returns matrices and a vector with A_1 (H_next, 1) = A_2 (H_prev, 1) + (Q_in, 0) for the heads before and after the step, at every superjunction.", "quantifier": "all networks, states and inputs", "why_tests_cant": "matrix identity for all sizes; fixed-head rows are the exception", "anchors": ["pipedream_solver/superlink.py:_augmented_system", "pipedream_solver/superlink.py:state_space_system"]}
{"id": "C96", "title": "The inverse Courant number is the travel time", "statement": "superlink_inverse_courant gives for each superlink the time water takes to pass it, so that steps limited by it carry water over at most one superlink.", "quantifier": "all link lengths, areas and flows", "why_tests_cant": "depends on how areas, lengths and flows vary along a superlink", "anchors": ["pipedream_solver/superlink.py:superlink_inverse_courant"]}
{"id": "C97", "title": "An open orifice below a filled storage discharges", "statement": "An open orifice whose upstream water level is above its lower edge and above the downstream level passes water, in the recorded flow and in the mass balance of the following steps.", "quantifier": "all storages, heads, openings and runs", "why_tests_cant": "the failing case needs a table of constant area, where flow stays zero for ever", "anchors": ["pipedream_solver/nsuperlink.py:solve_orifice_flows", "pipedream_solver/nsuperlink.py:compute_storage_volumes", "pipedream_solver/nsuperlink.py:configure_storages"]}
{"id": "C98", "title": "Inertial damping depends continuously and monotonically on the Froude number", "statement": "With inertial_damping the Froude number of a link is velocity over wave speed; the damping coefficient is 1 below 0.5, 0 from 1, falls linearly between, does not depend on the flow direction and does not increase with the flow.", "quantifier": "all flows, areas and widths", "why_tests_cant": "continuity and monotonicity over all real arguments", "anchors": ["pipedream_solver/superlink.py:compute_flow_regime", "pipedream_solver/superlink.py:Fr"]}
{"id": "C99", "title": "Reported volumes belong to the reported heads", "statement": "After a step V_j is the volume stored at the heads H_j.", "quantifier": "all storages and steps", "why_tests_cant": "the lag disappears in every steady test", "anchors": ["pipedream_solver/nsuperlink.py:compute_storage_volumes", "pipedream_solver/superlink.py:_setup_step"]}
{"id": "C100", "title": "Steady flow is a fixed point of the step, and nothing else is", "statement": "With the default end method, a step from a state inside the enforced bounds returns the same heads, depths and flows if and only if the state is steady: in every link friction, local loss and advection balance gravity and pressure, every pipe junction and free superjunction passes on what it receives, end depths follow from the superjunction heads less the entrance loss (plus the exit loss), and controls discharge what their laws say. The step size plays no role, the state is kept through any number of steps and iterations, and for a Manning pipe of constant depth the condition is exactly the normal discharge A R^(2/3) sqrt(S)/n.", "quantifier": "all consistent networks, geometries, positive step sizes, inputs, scratch contents and states strictly inside the bounds; orifices not throttled by the volume limit", "why_tests_cant": "a test can only run one network to near-steadiness and compare within a tolerance; it cannot show that every steady state is kept exactly, nor that no other state is", "anchors": ["pipedream_solver/nsuperlink.py:725-1035", "pipedream_solver/nsuperlink.py:1133-1341", "pipedream_solver/nsuperlink.py:1385-1613", "pipedream_solver/superlink.py:4015-4150"]}
{"id": "C101", "title": "Stored volume follows the water delivered over a run", "statement": "Over any sequence of steps the volume stored in a superjunction (read off its storage curve) changes by exactly the water delivered to it.", "quantifier": "all networks, runs of any length, step sizes, inputs and functional storages a*h^b+c with a wet, unclipped superjunction", "why_tests_cant": "the error per step is second order in the level change and accumulates; a test with a tolerance on a short run passes", "anchors": ["pipedream_solver/nsuperlink.py:666-697", "pipedream_solver/nsuperlink.py:1133-1295", "pipedream_solver/nsuperlink.py:1615-1649"]}
{"id": "C102", "title": "Soil recovers after rain", "statement": "After rain has ended, a soil element recovers: its upper-zone deficit grows back to the maximum at the documented rate, and after the recovery time has passed the next storm starts a new event (no cumulative infiltration, recovered deficit).", "quantifier": "all soils, all step sizes, dry periods of any length, all states reachable by rain", "why_tests_cant": "whether an element ever leaves saturation depends on an inequality between the root finder's bracket and the supply; tests cover single storms", "anchors": ["pipedream_solver/ninfiltration.py:122-170", "pipedream_solver/ninfiltration.py:172-203", "pipedream_solver/infiltration.py:114-154"]}
{"id": "C103", "title": "Infiltration does not depend on whether numba is installed", "statement": "hydrology.GreenAmpt gives the same result (up to solver tolerance) whether it is the numba class or the pure numpy/scipy fallback.", "quantifier": "all soils, rain, step sizes and states", "why_tests_cant": "the two classes are never compared; the fallback is only taken where numba is missing, and its root finder fails only for particular states", "anchors": ["pipedream_solver/hydrology.py:1-10", "pipedream_solver/infiltration.py:191-319", "pipedream_solver/infiltration.py:376-407", "pipedream_solver/ninfiltration.py:45-203"]}
{"id": "C104", "title": "A model can be built and stepped, with and without numba", "statement": "Constructing a SuperLink and calling step() binds every argument of every internal call to a parameter of the callee, so neither raises TypeError from argument binding, whichever of the two solver classes the package picked at import (numba present or not).", "quantifier": "all models, states, inputs, step options, and behaviours of the numerical routines", "why_tests_cant": "the class used depends on what is installed; the test environment only ever exercises one of the two", "anchors": ["pipedream_solver/superlink.py:SuperLink._setup_step", "pipedream_solver/superlink.py:SuperLink._solve_step", "pipedream_solver/superlink.py:SuperLink.step", "pipedream_solver/nsuperlink.py:nSuperLink", "pipedream_solver/hydraulics.py"]}
{"id": "C105", "title": "A sound model never fails and its run is determined", "statement": "Take a model whose tables are consistent, whose sections, storages and end stretches are usable (positive sizes, positive minimum depth) and whose controls are within range. Then every sequence of calls of the hydraulic step, with any heads, inflows and admissible control settings, first iterations or later ones, goes through: the geometry the step computes for itself is physical, no division fails and the head equations have a solution; two runs of the same sequence from the same object end in the same state.", "quantifier": "all sound models (any topology, any section shape including tables), all reachable objects, all finite sequences of calls and inputs", "why_tests_cant": "an unbounded product of shapes, depths, heads and histories; failures need particular ones", "anchors": ["pipedream_solver/nsuperlink.py:nSuperLink", "pipedream_solver/superlink.py:_setup_step", "pipedream_solver/superlink.py:_solve_step"]}
{"id": "C106", "title": "The height datum is arbitrary", "statement": "Adding the same number to every elevation of a model (superjunction inverts, inverts of superlink ends and controls), to its heads and to the prescribed heads gives the same depths and flows, and heads larger by that number, after any sequence of steps; a sequence of steps is possible with one datum exactly when it is possible with the other.", "quantifier": "all consistent models, all objects, all finite histories of calls, all shifts", "why_tests_cant": "an equality of two runs for all shifts and histories", "anchors": ["pipedream_solver/nsuperlink.py:nSuperLink", "pipedream_solver/superlink.py:_setup_step", "pipedream_solver/superlink.py:_solve_step"]}
{"id": "C107", "title": "Whether a step is accepted does not depend on the height datum", "statement": "The error estimate of the adaptive driver compares a coarse and a fine solution; describing the same water with heads measured from another datum gives the same estimate and the same decision to accept or reject.", "quantifier": "all states, all datums, all tolerances", "why_tests_cant": "the decision flips only for particular combinations of error and elevation", "anchors": ["pipedream_solver/simulation.py:_scaled_error", "pipedream_solver/simulation.py:_normed_error", "pipedream_solver/simulation.py:step"]}
{"id": "C108", "title": "The order of rows in the tables does not matter", "statement": "Listing superjunctions, superlinks, orifices, weirs or pumps in another order (with the inputs reordered alike) gives the same heads, depths and flows at the corresponding rows, through every sequence of steps.", "quantifier": "for every sound network, every renumbering of its tables, every sequence of steps, starting from corresponding states", "why_tests_cant": "The renumberings of a network and the step sequences are unbounded; tests use one ordering.", "anchors": ["pipedream_solver/nsuperlink.py:nSuperLink", "pipedream_solver/superlink.py:SuperLink"]}
{"id": "C109", "title": "A disconnected part behaves as if simulated alone", "statement": "If no superlink or control joins a part of the network to the rest, stepping the whole network gives on that part exactly the heads, depths and flows of stepping the part as a model of its own with the same step sizes and inputs.", "quantifier": "for every sound part, every surrounding network, every sequence of steps", "why_tests_cant": "Requires comparing models of different size for all surroundings; the head equations are solved jointly.", "anchors": ["pipedream_solver/nsuperlink.py:nSuperLink", "pipedream_solver/superlink.py:SuperLink"]}
{"id": "C110", "title": "What happens elsewhere does not influence an isolated part", "statement": "Two runs of the same network with the same step sizes whose inputs and starting states agree on a part to which nothing else is attached, but are arbitrary elsewhere, agree on that part after every sequence of steps.", "quantifier": "for every network with a sound isolated part, every pair of runs that agree on the part", "why_tests_cant": "Non-interference is a statement about pairs of runs; tests look at single runs.", "anchors": ["pipedream_solver/nsuperlink.py:nSuperLink", "pipedream_solver/superlink.py:SuperLink"]}
{"id": "C111", "title": "It does not matter which end of a superlink is called upstream", "statement": "Entering a superlink from its other end (superjunctions exchanged, links and junctions listed in the opposite order, slopes negated, end lengths, inverts and losses exchanged) changes nothing but the bookkeeping: after every sequence of steps with the same inputs both models report the same superjunction heads and control flows, the same depths in the opposite order, and the same flows in the opposite order with the opposite sign.", "quantifier": "for every sound model, every choice of superlinks to enter from the other end, every pair of starting objects showing the same water, every sequence of calls with the same inputs", "why_tests_cant": "Reversal symmetry ties the forward and the backward recurrence, upwinding, both end conditions and the order of the interior solve together; a test fixes one direction.", "anchors": ["pipedream_solver/nsuperlink.py:nSuperLink", "pipedream_solver/superlink.py:SuperLink"]}
{"id": "C112", "title": "The two geometry libraries compute the same sections", "statement": "For every cross-section shape and every set of depths, the vectorised pure-Python class of geometry.py and the numba function of ngeometry.py return the same area, wetted perimeter, hydraulic radius and top width, link by link.", "quantifier": "for every shape, every array of parameters and every array of end depths", "why_tests_cant": "The two libraries are written in different styles (masks versus branches); a test compares them at the sampled depths of one shape.", "anchors": ["pipedream_solver/geometry.py:Circular", "pipedream_solver/geometry.py:Rect_Closed", "pipedream_solver/geometry.py:Rect_Open", "pipedream_solver/geometry.py:Triangular", "pipedream_solver/geometry.py:Trapezoidal", "pipedream_solver/geometry.py:Parabolic", "pipedream_solver/geometry.py:Elliptical", "pipedream_solver/geometry.py:Wide", "pipedream_solver/geometry.py:Force_Main", "pipedream_solver/geometry.py:Floodplain", "pipedream_solver/ngeometry.py:Circular_A_ik"]}
{"id": "C113", "title": "Wetted perimeter of an elliptical pipe is the length of its wetted arc", "statement": "The perimeter reported for an elliptical pipe is the arc length of the part of the ellipse below the water surface; it is 0 in a dry pipe, never decreases with depth, is at least twice the depth and equals the circular formula when both axes are equal.", "quantifier": "for every pair of axes and every pair of end depths", "why_tests_cant": "The formula goes through incomplete elliptic integrals of a parameter of either sign; a test compares a few numbers computed by the same library.", "anchors": ["pipedream_solver/geometry.py:Elliptical", "pipedream_solver/nsuperlink.py:handle_elliptical_perimeter"]}
{"id": "C114", "title": "Every link uses the section its row names", "statement": "After construction every link is computed with the shape and, for irregular sections, the transect named in its row, whatever other models were constructed in the same process; a name which is not known is reported to the user.", "quantifier": "for every link table, every set of transects, every sequence of earlier constructions, all depths", "why_tests_cant": "The names go through shared mutable dictionaries with a default; tests use correct names in a fresh process.", "anchors": ["pipedream_solver/nsuperlink.py:nSuperLink.configure_hydraulic_geometry", "pipedream_solver/nsuperlink.py:nSuperLink.link_hydraulic_geometry", "pipedream_solver/nsuperlink.py:numba_hydraulic_geometry", "pipedream_solver/nsuperlink.py:numba_transect_geometry", "pipedream_solver/geometry.py:geom_code"]}
{"id": "C115", "title": "The unit of concentration does not matter", "statement": "Entering every concentration (initial, inflow, boundary, lower and upper limit) in a unit s times smaller gives every computed concentration s times larger, after any number of steps.", "quantifier": "for every network, hydraulic state, coefficients, limits, positive unit factor and sequence of steps", "why_tests_cant": "Tests run in one unit; a single additive constant in any of some sixty expressions would break this.", "anchors": ["pipedream_solver/nquality.py:QualityBuilder.step", "pipedream_solver/nquality.py:QualityBuilder.solve_sparse_matrix", "pipedream_solver/nquality.py:QualityBuilder.solve_internals_backwards", "pipedream_solver/nquality.py:QualityBuilder.solve_boundary_states"]}
{"id": "C116", "title": "Substances in the same water superpose", "statement": "With the default limits, simulating a mixture a*c1 + b*c2 of two substances (initial values, inflows, boundary values mixed alike) gives, everywhere and after any number of steps, the same mixture of the concentrations simulated separately.", "quantifier": "for every network, nonnegative a and b, sequence of steps with balanced water and nonnegative inputs", "why_tests_cant": "The clipping at c_min and the choice of the sweep direction per superlink are nonlinear; only a proof excludes that they act.", "anchors": ["pipedream_solver/nquality.py:QualityBuilder.step", "pipedream_solver/nquality.py:QualityBuilder.solve_sparse_matrix", "pipedream_solver/nquality.py:QualityBuilder.solve_internals_backwards", "pipedream_solver/nquality.py:QualityBuilder.solve_boundary_states"]}
{"id": "C117", "title": "More contaminant in, nowhere less contaminant", "statement": "Raising initial, inflow or boundary concentrations lowers no concentration anywhere in the network at any later step.", "quantifier": "for every network, every pair of ordered inputs, sequence of steps with balanced water", "why_tests_cant": "A monotonicity over pairs of runs; sampled runs cannot establish it.", "anchors": ["pipedream_solver/nquality.py:QualityBuilder.step", "pipedream_solver/nquality.py:QualityBuilder.solve_sparse_matrix", "pipedream_solver/nquality.py:QualityBuilder.solve_internals_backwards", "pipedream_solver/nquality.py:QualityBuilder.solve_boundary_states"]}
{"id": "C118", "title": "Water quality does not depend on how the network was entered", "statement": "Given the same water, a water-quality model whose superjunctions, superlinks and controls are listed in another order, whose superlinks are entered from their other end, or which contains only a part no superlink or control connects to the rest, shows the same concentrations at corresponding places after every step.", "quantifier": "for every network, renumbering, choice of reversed superlinks, complete part, sequence of steps with balanced water", "why_tests_cant": "The code eliminates each superlink in a fixed direction and mixes forward and backward recurrences; only a proof shows that the result does not depend on it.", "anchors": ["pipedream_solver/nquality.py:QualityBuilder.step", "pipedream_solver/nquality.py:QualityBuilder.solve_sparse_matrix", "pipedream_solver/nquality.py:QualityBuilder.solve_internals_backwards", "pipedream_solver/nquality.py:QualityBuilder.solve_boundary_states"]}
{"id": "C119", "title": "The origin of time is arbitrary", "statement": "Shifting the index of every input table, given start and end times, loaded states and the model's clock by the same amount shifts the times of the run and of the recorded rows by this amount and changes nothing else: same states, step sizes, retries, error estimates, exceptions and progress bar. If the start is taken from the tables, the model itself need not be changed.", "quantifier": "for every hydraulic model, tables, settings, shift, and sequence of step / record_state / load_state calls", "why_tests_cant": "Over all drivers and all sequences of calls; floating point aside, any hidden reference to an absolute time would break it.", "anchors": ["pipedream_solver/simulation.py:Simulation.__init__", "pipedream_solver/simulation.py:Simulation.step", "pipedream_solver/simulation.py:Simulation._step", "pipedream_solver/simulation.py:Simulation.record_state", "pipedream_solver/simulation.py:Simulation.print_progress", "pipedream_solver/nutils.py:interpolate_sample", "pipedream_solver/superlink.py:SuperLink.step"]}
{"id": "C120", "title": "Similar models behave similarly (Froude's law)", "statement": "A model L times as large in every direction, with the same gravity, run with time steps sqrt(L) times as long and inflows L^(5/2) times as large, gives heads and depths L times as large and flows L^(5/2) times as large, after any number of steps; the same holds for the general change of units in which gravity is converted as well. Roughness, weir coefficients, pump and storage curves are converted as their dimensions say. Friction by Darcy and Weisbach is the exception, since the viscosity is a constant in the code: no roughness makes the two models agree.", "quantifier": "for every model and geometry (friction other than Darcy-Weisbach, pump exponents not 0), every scale, every initial object, every history of steps", "why_tests_cant": "Over all scales, models and histories; any dimensionally inconsistent term or hidden dimensional constant anywhere in the step breaks it.", "anchors": ["pipedream_solver/superlink.py:SuperLink.step", "pipedream_solver/superlink.py:SuperLink._setup_step", "pipedream_solver/superlink.py:SuperLink._solve_step", "pipedream_solver/nsuperlink.py:friction_slope", "pipedream_solver/nsuperlink.py:numba_b_ik", "pipedream_solver/nsuperlink.py:numba_orifice_flow_coefficients", "pipedream_solver/nsuperlink.py:numba_weir_flow_coefficients", "pipedream_solver/nsuperlink.py:numba_pump_flow_coefficients", "pipedream_solver/nsuperlink.py:numba_compute_functional_storage_areas", "pipedream_solver/nsuperlink.py:numba_hydraulic_geometry"]}
{"id": "C121", "title": "Both solvers have the same storage curves", "statement": "The storage area and volume which the base class computes from a formula or a table are those which the numba class computes: for formulas at every depth that is not negative (so at every depth the solvers use), for tables inside the table, and everywhere if the area never shrinks with depth; below and above the table exactly if the first area (volume) is the smallest and the last one the largest.", "quantifier": "for all coefficients, all tables with increasing depths, all depths", "why_tests_cant": "Two independent implementations over a continuum of tables and depths; tests compare them at a few depths inside one table.", "anchors": ["pipedream_solver/storage.py:Functional.A_sj", "pipedream_solver/storage.py:Functional.V_sj", "pipedream_solver/storage.py:Tabular.A_sj", "pipedream_solver/storage.py:Tabular.V_sj", "pipedream_solver/nsuperlink.py:numba_compute_functional_storage_areas", "pipedream_solver/nsuperlink.py:numba_compute_functional_storage_volumes", "pipedream_solver/nsuperlink.py:numba_compute_tabular_storage_areas", "pipedream_solver/nsuperlink.py:numba_compute_tabular_storage_volumes"]}
{"id": "C122", "title": "Every superjunction gets the storage curve it names", "statement": "A functional superjunction has the area of its formula, a tabular one that of the dictionary entry it names. A table of superjunctions for which that is impossible (unknown kind, missing or unknown name) is rejected by the constructor; an entry that no superjunction uses does no harm, nor does a name in a row whose kind does not use it.", "quantifier": "for all tables of superjunctions, all dictionaries of storages, all depths", "why_tests_cant": "Over all tables and dictionaries, with names shared, missing, unused or left over; tests have one alphabetical dictionary.", "anchors": ["pipedream_solver/nsuperlink.py:nSuperLink.configure_storages", "pipedream_solver/nsuperlink.py:nSuperLink.compute_storage_areas", "pipedream_solver/superlink.py:SuperLink.configure_storages", "pipedream_solver/superlink.py:SuperLink.compute_storage_areas"]}
{"id": "C123", "title": "Link values can be recovered from the junction values", "statement": "After a superlink has been solved, its link flows are recovered from its junction depths, in both directions and by both classes (superlink_flow_from_recurrence), and its link concentrations from its junction concentrations (link_concentrations_from_recurrence).", "quantifier": "for all networks whose links are listed superlink by superlink, all coefficients, all solved states", "why_tests_cant": "An identity between two elimination orders, for every length of superlink; no test calls the two methods on anything but a single network.", "anchors": ["pipedream_solver/nsuperlink.py:nSuperLink.superlink_flow_from_recurrence", "pipedream_solver/nsuperlink.py:numba_Q_i_next_b", "pipedream_solver/nsuperlink.py:numba_Q_im1k_next_f", "pipedream_solver/superlink.py:SuperLink.superlink_flow_from_recurrence", "pipedream_solver/nquality.py:QualityBuilder.link_concentrations_from_recurrence"]}
{"id": "C124", "title": "The sweeps of the two classes leave the same coefficients", "statement": "The vectorised loops of SuperLink, which advance all superlinks together, stop and leave for every link the recurrence coefficients T, U, V, W, O, X, Y, Z which nSuperLink computes superlink by superlink, and the forward and the backward sweep describe the same flows.", "quantifier": "for all networks whose links are listed superlink by superlink (any mixture of lengths), all physical coefficients, all previous contents of the arrays, all end methods", "why_tests_cant": "The loops have different shapes (a frontier of junctions against two nested loops); agreement is an induction over rounds for every mixture of lengths, and depends on an option whose branch no test takes.", "anchors": ["pipedream_solver/superlink.py:SuperLink.forward_recurrence", "pipedream_solver/superlink.py:SuperLink.backward_recurrence", "pipedream_solver/superlink.py:SuperLink.T_ik", "pipedream_solver/superlink.py:SuperLink.O_ik", "pipedream_solver/nsuperlink.py:numba_forward_recurrence", "pipedream_solver/nsuperlink.py:numba_backward_recurrence"]}
{"id": "C125", "title": "Both classes discretise the same momentum and continuity equations", "statement": "Given the same state, SuperLink and nSuperLink compute the same velocities and the same coefficients a, b, c, P of the momentum equation of every link and E, D of the continuity equation of every junction.", "quantifier": "for all networks whose links are listed superlink by superlink, all flows, areas, widths, depths, slopes, roughnesses, time steps, with and without damping and control structures", "why_tests_cant": "The two implementations are separate code; agreement on a sample says nothing about the options (damping, control structures, end stretches) and iterates the sample does not visit.", "anchors": ["pipedream_solver/superlink.py:SuperLink.u_ik", "pipedream_solver/superlink.py:SuperLink.b_ik", "pipedream_solver/superlink.py:SuperLink.P_ik", "pipedream_solver/superlink.py:SuperLink.link_coeffs", "pipedream_solver/superlink.py:SuperLink.node_coeffs", "pipedream_solver/nsuperlink.py:numba_b_ik", "pipedream_solver/nsuperlink.py:nSuperLink.link_coeffs", "pipedream_solver/nsuperlink.py:numba_node_coeffs"]}
{"id": "C126", "title": "Both classes close a superlink with the same end relations, and the reported end depths go with the reported end flows", "statement": "For every boundary condition method, SuperLink and nSuperLink compute the same end flows and end depths of a superlink; these satisfy the forward and the backward relation of the superlink, and a head relation linearised at a state reproduces that state.", "quantifier": "for all recurrence coefficients with nonzero determinant, all heads, flows, discharge coefficients, areas, widths, inverts, depths, all method names", "why_tests_cant": "The differences show only for discharge coefficients other than one, heads below an invert or sections that are not rectangular; each is an exact condition over all real inputs.", "anchors": ["pipedream_solver/superlink.py:SuperLink.gamma_uk", "pipedream_solver/superlink.py:SuperLink.kappa_uk", "pipedream_solver/superlink.py:SuperLink.mu_uk", "pipedream_solver/superlink.py:SuperLink.superlink_upstream_head_coefficients", "pipedream_solver/superlink.py:SuperLink.superlink_flow_coefficients", "pipedream_solver/superlink.py:SuperLink.solve_superlink_depths", "pipedream_solver/nsuperlink.py:nSuperLink.superlink_upstream_head_coefficients"]}
{"id": "C127", "title": "Marching through a superlink in either direction leaves the solution of its equations", "statement": "solve_internals_forwards and solve_internals_backwards of SuperLink stop and, from any contents of the arrays, leave in every superlink the depths and flows that solve the discretised equations with the given ends; both directions and the numba class agree; with supercritical_only and subcritical_only each touches only its own superlinks.", "quantifier": "for all networks whose links are listed superlink by superlink (any mixture of lengths), all physical coefficients, ends, minimum and maximum depths, previous contents", "why_tests_cant": "The loops advance all superlinks together and read what earlier rounds wrote; agreement is an induction over rounds for every mixture of lengths, and fails exactly where a depth is clipped.", "anchors": ["pipedream_solver/superlink.py:SuperLink.solve_internals_forwards", "pipedream_solver/superlink.py:SuperLink.solve_internals_backwards", "pipedream_solver/superlink.py:SuperLink._h_Ik_next_f", "pipedream_solver/superlink.py:SuperLink._h_Ik_next_b", "pipedream_solver/nsuperlink.py:numba_solve_internals"]}
{"id": "C128", "title": "Irregular sections of the pure-Python library follow the survey", "statement": "geometry.Irregular returns, for every depth above the lowest surveyed point, the flow area of the section through its sampled stations; the top width is the rate at which the area grows and never exceeds the span; an empty link has area zero and no lookup raises.", "quantifier": "for all surveys (stations in order, any elevations), numbers of horizontal and vertical sampling points, depths", "why_tests_cant": "The tables depend on an arbitrary survey and two sampling densities; the defects are proportional to the step and vanish on the flat or deep examples a test would use.", "anchors": ["pipedream_solver/geometry.py:Irregular", "pipedream_solver/geometry.py:Irregular.A_ik_lut", "pipedream_solver/geometry.py:Irregular.B_ik_lut", "pipedream_solver/geometry.py:Irregular.Pe_ik_lut", "pipedream_solver/geometry.py:Irregular.A_ik"]}
{"id": "C129", "title": "Values read from the model are snapshots and assigned arrays stay the user's", "statement": "An array obtained by reading a state of the model before a step still shows the old state afterwards, an array assigned to a state or passed to a step is not changed by later steps, and a difference of a state across a step is the change of that state.", "quantifier": "for all states with a getter, models, methods for the internals, numbers of iterations, runs of steps and reloads, and contents written", "why_tests_cant": "Aliasing depends on which of twenty attributes is overwritten in place by which of a dozen methods and on the histories of reads, assignments and reloads; a test looks at values after one step, not at the identity of arrays over runs.", "anchors": ["pipedream_solver/superlink.py:SuperLink.h_Ik", "pipedream_solver/superlink.py:SuperLink.step", "pipedream_solver/superlink.py:SuperLink._setup_step", "pipedream_solver/superlink.py:SuperLink._solve_step", "pipedream_solver/superlink.py:SuperLink.load_state", "pipedream_solver/nsuperlink.py:nSuperLink.solve_internals_backwards", "pipedream_solver/nsuperlink.py:nSuperLink.link_hydraulic_geometry"]}
{"id": "C130", "title": "The element type of an assigned state does not matter", "statement": "Assigning whole numbers to a state (`model.h_Ik = [1, 1, 1]` or an integer array) has the same effect as assigning the equal floats.", "quantifier": "for all states with a setter, integer arrays, numbers of steps, values computed by the steps", "why_tests_cant": "The conversion happens silently at each later write; a test that assigns floats, as all examples do, never meets it.", "anchors": ["pipedream_solver/superlink.py:SuperLink.h_Ik", "pipedream_solver/superlink.py:SuperLink.Q_ik", "pipedream_solver/superlink.py:SuperLink.A_ik", "pipedream_solver/superlink.py:SuperLink.solve_internals_backwards", "pipedream_solver/superlink.py:SuperLink.step"]}
{"id": "C131", "title": "The constants of the upper soil zone are those of the method in SI units", "statement": "A `GreenAmpt` model built with conductivities in metres per second has the upper-zone depth `4 √Ks` in, recovery rate `√Ks/75` per hour and recovery time `4.5/√Ks` hours (Ks in inches per hour) converted to metres and seconds.", "quantifier": "for all conductivities", "why_tests_cant": "A wrong conversion factor changes all results by less than one percent and in a consistent way; tests compare with previous outputs of the same code.", "anchors": ["pipedream_solver/infiltration.py:GreenAmpt.__init__"]}
{"id": "C132", "title": "The suction head is the Brooks–Corey conductivity integrated over the suction", "statement": "`GreenAmpt.suction_head` returns the relative conductivity integrated over the suction between initial and saturated moisture; it is positive, at most `psi_b/(1+3 λ)`, decreases with the initial moisture, and does not depend on the conductivity passed.", "quantifier": "for all moistures from residual to below saturation, bubbling pressures, pore-size indices and conductivities", "why_tests_cant": "The closed form is only related to the definition by an integral over a power function; a test evaluates single points of the closed form against itself.", "anchors": ["pipedream_solver/infiltration.py:GreenAmpt._s2", "pipedream_solver/infiltration.py:GreenAmpt.suction_head"]}
{"id": "C133", "title": "The pure-Python class solves the same head equations as the compiled class", "statement": "`SuperLink` and `nSuperLink` built from the same tables solve the same equations for the superjunction heads: storage gained over the time step, including that of the pipe ends, equals what flows in from superlinks, controls and `Q_in`; and limit the heads to the same range.", "quantifier": "for all networks, superlink and control coefficients, boundary conditions, time steps, heads, and contents of the matrices left by earlier assemblies", "why_tests_cant": "Both classes produce plausible heads; a test of one network cannot tell which terms a class leaves out, because these vanish in small or steady examples.", "anchors": ["pipedream_solver/superlink.py:SuperLink.sparse_matrix_equations", "pipedream_solver/superlink.py:SuperLink.solve_sparse_matrix", "pipedream_solver/superlink.py:SuperLink.solve_banded_matrix", "pipedream_solver/nsuperlink.py:nSuperLink.sparse_matrix_equations", "pipedream_solver/nsuperlink.py:nSuperLink.solve_sparse_matrix"]}
{"id": "C134", "title": "Controls act the same in the pure-Python class", "statement": "For the same heads and settings, orifices, weirs and pumps of `SuperLink` have the coefficients and flows of those of `nSuperLink`; in particular one-way orifices pass nothing backwards and pumps can be used.", "quantifier": "for all heads, settings, geometries and earlier contents of the coefficient arrays; for any number of pumps", "why_tests_cant": "The test-suite's controls are driven in one direction with distinct heads and single elements; a flag never read is invisible there.", "anchors": ["pipedream_solver/superlink.py:SuperLink.orifice_flow_coefficients", "pipedream_solver/superlink.py:SuperLink.weir_flow_coefficients", "pipedream_solver/superlink.py:SuperLink.pump_flow_coefficients", "pipedream_solver/superlink.py:SuperLink.solve_orifice_flows", "pipedream_solver/superlink.py:SuperLink.solve_weir_flows", "pipedream_solver/superlink.py:SuperLink.solve_pump_flows", "pipedream_solver/superlink.py:SuperLink.__init__"]}
{"id": "C135", "title": "Repositioning in the pure-Python class keeps the superlinks intact", "statement": "`SuperLink.reposition_junctions` puts each mobile junction where the downstream level meets the bed (or in the centre), keeps all other junctions, lengths, inverts and depths as the compiled class does, lets links that did not move keep their flows, and leaves superlinks excluded by `reposition` alone.", "quantifier": "for all valid superlinks, downstream levels, depths, flows and masks, for any legal order of ties in the sorts", "why_tests_cant": "What a call does to flows depends on how many junctions are passed; a mask affects arrays the caller does not look at.", "anchors": ["pipedream_solver/superlink.py:SuperLink.reposition_junctions", "pipedream_solver/nsuperlink.py:numba_reposition_junctions"]}
{"id": "C136", "title": "The profile plot shows the path and fits its axes", "statement": "`plot_profile(js)` draws the superjunctions of the path in order, between two neighbours the superlink that joins them, each beginning where the last shape ended, and sets axes limits that contain everything drawn.", "quantifier": "for all networks, paths, widths, heads and depths", "why_tests_cant": "An image test compares pixels for one network; which superlinks are silently left out depends on directions the constructor chose.", "anchors": ["pipedream_solver/visualization.py:plot_profile", "pipedream_solver/visualization.py:_plot_superlink_profile", "pipedream_solver/visualization.py:_plot_superjunction_profile", "pipedream_solver/superlink.py:SuperLink.__init__"]}
{"id": "C137", "title": "The map plots show each superlink between its superjunctions", "statement": "`plot_network_2d` and `plot_network_3d` place the junctions of a superlink on the straight line between its superjunctions, the first and the last at them, spaced as on the ground; the vertical axis of the three-dimensional plot contains beds and water surfaces.", "quantifier": "for all coordinates, link lengths, end stretches, inverts and depths", "why_tests_cant": "Sample networks have no end stretches, and an image does not reveal what lies outside its axes.", "anchors": ["pipedream_solver/visualization.py:plot_network_2d", "pipedream_solver/visualization.py:plot_network_3d", "pipedream_solver/superlink.py:SuperLink.__init__"]}
{"id": "C138", "title": "A step does not amplify errors of the inflows", "statement": "Two calls of `step` from the same state with different `Q_in`: the differences of the reported heads, each counted with the free surface of its superjunction and attached end stretches, add up to no more than `dt` times the differences of the inflows. A step moves the heads, counted the same way, by no more than the water out of balance at the previous heads.", "quantifier": "for all networks with physical coefficients, states, inflows, controls and step sizes, any fixed heads, with or without clipping", "why_tests_cant": "A bound over all perturbations of all states; a test can only compare single pairs of runs.", "anchors": ["pipedream_solver/nsuperlink.py:nSuperLink.sparse_matrix_equations", "pipedream_solver/nsuperlink.py:nSuperLink.solve_sparse_matrix", "pipedream_solver/superlink.py:SuperLink._solve_step"]}
{"id": "C139", "title": "An infiltration step completes", "statement": "`GreenAmpt.step` (the numba class) raises nothing and meets no nan: its root finder finishes within its 50 iterations for every soil, every state reached from a fresh element, every rain and step size, unless the water infiltrated so far plus the water on offer reaches 10^7 metres. Weather of bounded intensity and length cannot stop a run.", "quantifier": "for all physical soils, all sequences of non-negative rain and positive step sizes", "why_tests_cant": "Whether an iteration finishes within its budget is a statement about every soil and every state; a test runs a few.", "anchors": ["pipedream_solver/ninfiltration.py:nGreenAmpt.step", "pipedream_solver/ninfiltration.py:run_green_ampt_newton", "pipedream_solver/nutils.py:bounded_newton_raphson"]}
{"id": "C140", "title": "The pure-Python root finder makes the same search as the compiled one", "statement": "`utils.bounded_newton_raphson` returns what `nutils.bounded_newton_raphson` returns for the same budget and tolerance; where that raises it returns None. A value it returns lies in the caller's interval and was reached by a correction below the tolerance. With their own defaults the two differ.", "quantifier": "for all functions, derivatives, guesses, intervals, budgets and tolerances", "why_tests_cant": "The two loops are never run side by side; the failing branch needs functions that exhaust the budget.", "anchors": ["pipedream_solver/utils.py:bounded_newton_raphson", "pipedream_solver/nutils.py:bounded_newton_raphson"]}
{"id": "C141", "title": "The depth of an irregular channel is measured from its lowest point", "statement": "The flow area that a link with a surveyed cross-section has at a depth is the area of the section filled to that depth above its lowest station, whatever the datum of the survey. In the code this holds exactly for surveys whose lowest station has elevation zero: with a positive lowest station a wet channel may report no area, with a negative one a dry channel holds water, and with no station above zero every depth reports the same area.", "quantifier": "for all surveyed sections, sample numbers and depths", "why_tests_cant": "The tables agree with the section for the surveys one usually writes by hand; the datum matters for all others.", "anchors": ["pipedream_solver/nsuperlink.py:nSuperLink.configure_hydraulic_geometry", "pipedream_solver/nsuperlink.py:numba_transect_geometry", "pipedream_solver/geometry.py:Irregular"]}
{"id": "C142", "title": "Assimilating data leaves the controls as they are", "statement": "`Simulation.kalman_filter` solves the state again from corrected heads. With the control signals of the step it reproduces the flows the step would have for those heads. Without them every pump reports zero flow and is missing from the next head equations, every weir is raised by its full height, and a freely discharging orifice reports more than its flow.", "quantifier": "for all networks, states, control signals and corrected heads", "why_tests_cant": "Needs a filter run on a network with active controls; no test combines them.", "anchors": ["pipedream_solver/simulation.py:Simulation.kalman_filter", "pipedream_solver/superlink.py:SuperLink._solve_step", "pipedream_solver/nsuperlink.py:nSuperLink.solve_pump_flows", "pipedream_solver/nsuperlink.py:nSuperLink.solve_weir_flows", "pipedream_solver/nsuperlink.py:nSuperLink.solve_orifice_flows"]}
{"id": "C143", "title": "A new water-quality model starts with the concentrations it was given", "statement": "After `QualityBuilder(hydraulics, superjunction_params, superlink_params, ...)` the concentrations are the `c_0` of the tables. In the code the constructor ends with a step of 1e-6 s that reads the change of the water levels over the last hydraulic step whatever its size. A tank keeps its concentration exactly if it is zero or the change of depth offsets the reaction; a tank that was filled from a to b starts with b/(2b-a) of the given value; one that lost more than half its depth starts with zero.", "quantifier": "for all networks, tables, hydraulic states and step sizes of the hydraulic model", "why_tests_cant": "The existing test builds the quality model on a hydraulic model at rest, where the hidden step changes almost nothing.", "anchors": ["pipedream_solver/nquality.py:QualityBuilder.__init__", "pipedream_solver/nquality.py:QualityBuilder.step", "pipedream_solver/nquality.py:QualityBuilder.import_hydraulic_states"]}
{"id": "C144", "title": "A decaying substance decays in all the water", "statement": "A substance with rate K loses the factor 1/(1+K dt) per step, everywhere the same in uniform water; a closed tank follows the exponential law from above and converges to it as the steps are refined. In the code the two end stretches of every superlink have rate zero whatever the tables say: uniformly decaying water is reproduced exactly if the model has no superlink; in every superlink both end stretches keep more than the law leaves.", "quantifier": "for all networks, flows that balance water, rates, step sizes and runs", "why_tests_cant": "The rate of the end stretches is hidden in an argument of a coefficient function; the effect is a small excess mixed with advection.", "anchors": ["pipedream_solver/nquality.py:QualityBuilder.link_coeffs", "pipedream_solver/nquality.py:beta_ik", "pipedream_solver/nquality.py:QualityBuilder.step"]}
{"id": "C145", "title": "Infiltration follows the Green–Ampt law", "statement": "While water is on offer, cumulative infiltration grows at the supply rate limited by the capacity Ks(1 + psi theta_d/F): the result of a step is, up to the tolerance of the root finder, the value at its end of the unique solution of that differential equation, so dividing a wet period into other steps does not matter. In the code this holds except for elements flagged as saturated which begin to pond during the step: they infiltrate at capacity for the whole step, more than the law allows.", "quantifier": "for all soils, states with non-negative cumulative infiltration, supplies, step sizes and sequences of wet steps", "why_tests_cant": "Tests compare with the code's own integrated equation; whether ponding times, sub-steps and brackets add up to the law for every state is a statement about a differential equation.", "anchors": ["pipedream_solver/ninfiltration.py:unsaturated_case_3", "pipedream_solver/ninfiltration.py:saturated_case", "pipedream_solver/ninfiltration.py:run_green_ampt_newton", "pipedream_solver/infiltration.py:unsaturated_case_2"]}
{"id": "C146", "title": "More rain means no less infiltration, runoff and ponding", "statement": "Of two steps from the same state, the one with more rain leaves no less cumulative infiltration, no less runoff and no less ponded water, up to the tolerance of the root finder; and infiltration grows by no more than the rain does.", "quantifier": "for all soils, states with non-negative cumulative infiltration, saturated or not, step sizes and pairs of rain intensities", "why_tests_cant": "The branch taken depends on the rain; monotonicity has to hold across all pairs of branches.", "anchors": ["pipedream_solver/ninfiltration.py:step", "pipedream_solver/ninfiltration.py:unsaturated_case_3", "pipedream_solver/ninfiltration.py:saturated_case", "pipedream_solver/infiltration.py:compute_runoff", "pipedream_solver/infiltration.py:compute_ponding_depth"]}
{"id": "C147", "title": "A new hydraulic model starts in the state it was given", "statement": "A model built from tables of initial depths and flows reports these as its first state. In the code the constructor ends with a hidden time step of a millionth of a second without inflows and with closed controls. A given state is kept exactly if and only if it is steady for these inputs. If the depths in the pipes fit the heads at their ends, heads move only by what the flows carry in that time. If they do not fit, the depths given at the ends are replaced by those belonging to the heads, and a million times the missing volume is reported as end flow, which then throttles the next step through the entrance loss. A model with a circular or elliptical orifice cannot be built. The given state stays the saved state, so load_state() restores it.", "quantifier": "for all sound models and all given depths and flows", "why_tests_cant": "Tests start from tables which fit; what the hidden step does to other tables depends on the whole network.", "anchors": ["pipedream_solver/superlink.py:__init__", "pipedream_solver/superlink.py:step", "pipedream_solver/nsuperlink.py:orifice_hydraulic_geometry"]}
{"id": "C148", "title": "A step does not create flow from nothing", "statement": "If the depths at the ends of a superlink fit the heads there and there is no lateral inflow, then after a step no link of it carries more than the largest flow before it plus the impulse which gravity and the slope of the water surface give a link during the step (with corrections for the movement of the two heads); inner depths move by no more than such flows fill in the time step, and heads by no more than such flows, external inflow and controls bring.", "quantifier": "for all networks, states whose end depths fit the heads, step sizes and heads at the ends, with or without friction, local losses and advection", "why_tests_cant": "A maximum principle for a linear system of any size; instances show single values, not the absence of amplification.", "anchors": ["pipedream_solver/nsuperlink.py:link_coeffs", "pipedream_solver/nsuperlink.py:node_coeffs", "pipedream_solver/nsuperlink.py:numba_forward_recurrence", "pipedream_solver/nsuperlink.py:numba_backward_recurrence", "pipedream_solver/superlink.py:solve_internals_backwards"]}
{"id": "C149", "title": "The limits on depths and heads neither create nor destroy water", "statement": "After a step the water in superjunctions and pipes has grown by exactly what was supplied, also when a depth or a head reached one of its limits (min_depth, max_depth, invert). In the code the limits are applied after the equations are solved and no flow is corrected: the difference is, exactly, the surface of every pipe junction times the change of its depth by the limit plus a weight (at least the free surface) times the change of every head by its limit. Raised depths create water, lowered heads destroy it. An end of a pipe above the head of its superjunction, without exit loss, creates surface times min_depth in every step, whatever its size, so that the water created grows with the number of steps: two empty tanks joined by a dry perched channel fill to the level of the channel in any time.", "quantifier": "for all networks without fixed heads, all states and step sizes; the filling network for all lists of step sizes", "why_tests_cant": "Tests compare states with a tolerance in runs whose pipes are wet; the amount created per step is small and only its accumulation over many steps shows.", "anchors": ["pipedream_solver/superlink.py:solve_sparse_matrix", "pipedream_solver/nsuperlink.py:solve_internals_backwards", "pipedream_solver/nsuperlink.py:numba_solve_internals", "pipedream_solver/superlink.py:solve_superlink_depths"]}
{"id": "C150", "title": "Symmetric networks stay symmetric", "statement": "If exchanging superjunctions, pipes and controls among each other leaves the network, the starting state and every input unchanged, then it leaves every state of the run unchanged: whatever is alike at the start stays alike for ever. In particular two identical pipes (orifices, weirs, pumps) laid in parallel between the same superjunctions, started alike and set alike, show identical depths and flows after every step.", "quantifier": "for all networks, all symmetries of them, all symmetric states and inputs, all sequences of steps of any sizes, and from the constructor on", "why_tests_cant": "A test compares two parallel pipes of one network for some steps; that no order of evaluation, no accumulation and no stale memory ever treats one of two alike parts differently is a statement about all networks and runs.", "anchors": ["pipedream_solver/superlink.py:step", "pipedream_solver/superlink.py:_setup_step", "pipedream_solver/superlink.py:_solve_step", "pipedream_solver/nsuperlink.py:numba_create_A_matrix", "pipedream_solver/nsuperlink.py:numba_create_OWP_matrix"]}
{"id": "C151", "title": "An option either takes effect or is refused", "statement": "The constructor takes the strings method, bc_method and end_method. Whatever string a user gives, the model either behaves in the way documented for it or refuses it with an error; a string which is not understood never silently selects something else or switches part of the computation off.", "quantifier": "for all strings, all networks, all states and all sequences of steps", "why_tests_cant": "Tests are run with the strings the author had in mind; that no other string is silently accepted is a statement about all strings, and what a silently accepted one does about all runs.", "anchors": ["pipedream_solver/superlink.py:__init__", "pipedream_solver/superlink.py:_solve_step", "pipedream_solver/nsuperlink.py:superlink_upstream_head_coefficients", "pipedream_solver/nsuperlink.py:superlink_downstream_head_coefficients", "pipedream_solver/nsuperlink.py:superlink_flow_coefficients"]}
{"id": "C152", "title": "Water at rest rises nowhere above its highest level and falls nowhere below its lowest", "statement": "Start from a network in which nothing moves, with any levels whatever in the superjunctions and along the pipes. One step without inflows, lateral inflows or running pumps, whatever its length, leaves every head at or below the highest level there was (and at or above the lowest), fixed heads included among the levels; a model just constructed shows no water level higher than the highest it was given.", "quantifier": "for all networks, all starting levels, all settings of the controls, and all step sizes", "why_tests_cant": "Tests watch two tanks settle for one step size; that no step size and no arrangement of levels produces an overshoot above the highest level is a maximum principle for the assembled linear system, over all networks at once.", "anchors": ["pipedream_solver/nsuperlink.py:superlink_upstream_head_coefficients", "pipedream_solver/nsuperlink.py:superlink_downstream_head_coefficients", "pipedream_solver/nsuperlink.py:numba_forward_recurrence", "pipedream_solver/nsuperlink.py:numba_backward_recurrence", "pipedream_solver/superlink.py:sparse_matrix_equations", "pipedream_solver/superlink.py:solve_sparse_matrix", "pipedream_solver/superlink.py:_setup_step", "pipedream_solver/superlink.py:__init__"]}
{"id": "C153", "title": "A short step changes little", "statement": "Reducing the step size reduces what a step changes: from any state and with given inputs there is a rate such that, for all sufficiently small dt, step(dt) moves no head, no depth and no link flow by more than that rate times dt. In particular the results of a step tend to the state it started from as dt tends to zero, so that the step size can be used to control the error of a simulation.", "quantifier": "for all networks, all states, all inputs, and all step sizes tending to zero", "why_tests_cant": "A test compares two or three step sizes; that the change is of the order of the step size, with a constant which does not depend on it, is a statement about all step sizes.", "anchors": ["pipedream_solver/superlink.py:step", "pipedream_solver/superlink.py:_setup_step", "pipedream_solver/superlink.py:_solve_step", "pipedream_solver/nsuperlink.py:link_coeffs", "pipedream_solver/nsuperlink.py:node_coeffs", "pipedream_solver/nsuperlink.py:superlink_upstream_head_coefficients", "pipedream_solver/nsuperlink.py:superlink_downstream_head_coefficients", "pipedream_solver/superlink.py:sparse_matrix_equations"]}
{"id": "C154", "title": "A step creates no energy", "statement": "Water which is let go does not become faster than its levels allow: in a step from rest without inflow the kinetic energy of the reported flows plus the potential energy of the reported levels (about the level of the fixed heads) is at most the potential energy of the levels before the step, the difference being friction and damping. With inflow, the excess is at most the energy which the inflow brings in. In general the energies before and after a step differ exactly by losses, advection, supplies, the work of orifices, weirs and pumps, and a damping which is never negative, whatever the step size.", "quantifier": "for all networks, all states at rest (balance: all states), all step sizes, all levels of reference", "why_tests_cant": "Energy is not reported, and a test compares one run with tolerances; that damping has the right sign for every step size and every network is an identity summed over all links and junctions.", "anchors": ["pipedream_solver/superlink.py:step", "pipedream_solver/superlink.py:_solve_step", "pipedream_solver/nsuperlink.py:link_coeffs", "pipedream_solver/nsuperlink.py:node_coeffs", "pipedream_solver/nsuperlink.py:superlink_upstream_head_coefficients", "pipedream_solver/nsuperlink.py:superlink_downstream_head_coefficients", "pipedream_solver/superlink.py:sparse_matrix_equations", "pipedream_solver/superlink.py:solve_superlink_flows", "pipedream_solver/nsuperlink.py:numba_solve_internals"]}
{"id": "C155", "title": "The documented simulation loops end", "statement": "`while simulation.t <= simulation.t_end: simulation.step(dt=dt)` ends for every finite end time and every positive `dt`: no step raises, each advances the clock by exactly `dt`, and the loop ends at the first of these times beyond `t_end`. The adaptive loop (`step` with subdivisions and retries, then `filter_step_size`, until `t >= t_end`) ends as well, within as many iterations as steps of the smallest size would need, and less than one largest step beyond `t_end`; no step and no call of the filter raises.", "quantifier": "for all sound models, all good states, all forcing, all step sizes, limits, tolerances, filter coefficients and numbers of retries; adaptive: two or more subdivisions", "why_tests_cant": "A test runs a loop that ends; whether the step size can shrink towards zero, or a step or filter call can fail after some hours, depends on every state on the way.", "anchors": ["pipedream_solver/simulation.py:step", "pipedream_solver/simulation.py:filter_step_size", "pipedream_solver/simulation.py:__init__", "pipedream_solver/superlink.py:step", "pipedream_solver/superlink.py:load_state"]}
{"id": "C156", "title": "More lateral inflow lowers no level", "statement": "Two calls of `step` from the same state with the same arguments, except that the second is given more lateral inflow `Q_0Ik` into some junctions of pipes: no head of a superjunction and no depth of a junction is lower after the second call than after the first.", "quantifier": "for all models, states, step sizes, boundary heads, control settings and all pairs of lateral inflows", "why_tests_cant": "A test compares two runs; whether somewhere a level drops when water is added depends on velocities, losses, areas and step size of every link.", "anchors": ["pipedream_solver/superlink.py:step", "pipedream_solver/nsuperlink.py:node_coeffs", "pipedream_solver/nsuperlink.py:link_coeffs", "pipedream_solver/nsuperlink.py:solve_internals_backwards"]}
{"id": "C157", "title": "Depth limits act only where they are reached", "statement": "A model built without the columns `max_depth` runs: every sequence of calls of `step` gives the states that the same model with sufficiently large limits gives, so everything true of models with limits holds for it. A step whose heads and interior depths stay below the limits gives exactly the state the same model without these limits gives. Limits may be missing at some superjunctions and superlinks and present at others.", "quantifier": "for all models, limits present or missing at each superjunction and superlink, states, inputs and sequences of calls", "why_tests_cant": "A test runs one network with and without one limit; that a limit which nobody reaches has no effect on any state ever reported is a statement about all runs.", "anchors": ["pipedream_solver/superlink.py:SuperLink.__init__", "pipedream_solver/superlink.py:step", "pipedream_solver/nsuperlink.py:solve_banded_matrix", "pipedream_solver/nsuperlink.py:numba_solve_internals"]}
{"id": "C158", "title": "Normal depth carries the flow", "statement": "`solve_normal_depth` determines, for each superlink that leaves freely, the depth at which its last pipe carries the flow uniformly (Manning's formula for a circular pipe): every zero of the residual is such a depth, there is one for every flow, and only one, so that the result does not depend on where the search starts.", "quantifier": "for all flows, diameters, roughnesses, slopes and starting depths", "why_tests_cant": "Existence and uniqueness of a root over all flows are statements about a transcendental function on an interval; a test evaluates it at points.", "anchors": ["pipedream_solver/superlink.py:solve_normal_depth", "pipedream_solver/superlink.py:_normal_depth"]}
{"id": "C159", "title": "Fixed heads supply what the rest of the network gains", "statement": "In a step in which no limit acts, the water gained by the superjunctions without a fixed head and by the pipes is exactly what is supplied to them during the step plus what left the superjunctions with a fixed head: by the reported end flows of the superlinks, and by the flows of the step's linear relations for orifices, weirs and pumps. Where limits act, the difference is exactly what the limits add. An inflow given to a superjunction with a fixed head has no effect at all, on any result of any later step.", "quantifier": "for all networks with any set of fixed heads, all states, inputs and time steps", "why_tests_cant": "An exact balance over all networks with boundaries; a test compares two numbers on one network within a tolerance.", "anchors": ["pipedream_solver/superlink.py:SuperLink.step", "pipedream_solver/nsuperlink.py:nSuperLink.sparse_matrix_equations", "pipedream_solver/nsuperlink.py:numba_create_A_matrix", "pipedream_solver/superlink.py:SuperLink.solve_superlink_flows"]}
{"id": "C160", "title": "Iterating a step solves its equations with everything taken at the new state", "statement": "With `num_iter > 1`, `step` repeats its pass with the coefficients taken at the last result and the state before the step kept. A state away from its limits is reproduced by such a pass exactly if it solves the fully implicit equations of the step: momentum and continuity of every pipe, end relations, control laws, and a balance of every superjunction in the reported flows. Given enough iterations and a small tolerance the step returns such a state.", "quantifier": "for all networks, states before the step, inputs, numbers of iterations and tolerances", "why_tests_cant": "Which states a nonlinear iteration reproduces is a statement about all states; a test sees one sequence of iterates on one network.", "anchors": ["pipedream_solver/superlink.py:SuperLink.step", "pipedream_solver/superlink.py:SuperLink._setup_step", "pipedream_solver/superlink.py:SuperLink._solve_step", "pipedream_solver/nsuperlink.py:numba_u_Ik", "pipedream_solver/nsuperlink.py:numba_a_ik"]}
{"id": "C161", "title": "Opening a control further passes no less water", "statement": "Two steps from the same state differ only in the setting of one control. The step with the larger opening of an orifice, the lower crest of a weir or the higher speed of a pump moves no less water through it, leaves the source superjunction no higher and the receiving superjunction no lower.", "quantifier": "for all networks, states, inputs, controls and pairs of settings", "why_tests_cant": "The water a control moves in a step depends on the heads the whole network settles at, which themselves depend on the setting; tests compare a few settings on one network.", "anchors": ["pipedream_solver/nsuperlink.py:numba_orifice_flow_coefficients", "pipedream_solver/nsuperlink.py:numba_weir_flow_coefficients", "pipedream_solver/nsuperlink.py:numba_pump_flow_coefficients", "pipedream_solver/superlink.py:SuperLink.step"]}
{"id": "C162", "title": "An orifice passes no less water under a higher head or through a larger opening", "statement": "The reported flow of an orifice does not fall when the source water rises, when the receiving water falls, or when the orifice is opened further at given heads.", "quantifier": "for all heads, orifices, openings, areas and coefficients", "why_tests_cant": "Monotonicity over all pairs of heads across three flow regimes with different driving heads; a test compares chosen pairs, usually within one regime.", "anchors": ["pipedream_solver/nsuperlink.py:numba_solve_orifice_flows", "pipedream_solver/nsuperlink.py:nSuperLink.solve_orifice_flows"]}
{"id": "C163", "title": "Assimilating a measurement draws the estimate towards it", "statement": "After `kalman_filter` the state is, before the depth limits, the one that best compromises between the heads of the step and the measurement, weighed by their covariances. With one measurement the estimate moves towards the measured value and not beyond it, with several the residuals together do not grow in the innovation covariance the filter reports, and a superjunction uncorrelated with the measured ones keeps its head. The depth limits do not undo this for a measurement the superjunction can have.", "quantifier": "for all networks, covariances, observation matrices and measurements for which the update completes", "why_tests_cant": "Optimality is a comparison with every other state, for every covariance; tests compare a filtered run with data by eye or by one error figure.", "anchors": ["pipedream_solver/nutils.py:_kalman_semi_implicit", "pipedream_solver/simulation.py:Simulation.kalman_filter"]}
{"id": "C164", "title": "Short steps follow the flow equations in time", "statement": "As the step size goes to zero, the rates of change over a step tend to those of the flow equations discretised in space only: momentum of every link, continuity of every inner junction, and the balance of every free superjunction together with the pipe ends that belong to it. The error is at most proportional to the step size.", "quantifier": "for all networks, states and inputs, all sufficiently short steps", "why_tests_cant": "A statement about the limit of step sizes with a constant that holds for all of them; a test runs finitely many step sizes.", "anchors": ["pipedream_solver/superlink.py:SuperLink.step", "pipedream_solver/superlink.py:SuperLink._setup_step", "pipedream_solver/superlink.py:SuperLink._solve_step", "pipedream_solver/nsuperlink.py:numba_b_ik", "pipedream_solver/nsuperlink.py:numba_P_ik", "pipedream_solver/nsuperlink.py:numba_u_Ip1k"]}
{"id": "C165", "title": "The head lost at a pipe end is that of the flow through it", "statement": "At a superlink end with loss coefficient C and area A the superjunction head and the end depth differ by C|Q|Q/(2gA^2) for the reported end flow Q. In the code the loss is that of the flow before the step times the flow after it: the law holds exactly if the flow kept its size; where the loss hardly changes the flow alternates between two values, and from a state whose end flow does not fit its loss it leaps in a step of any size.", "quantifier": "for all networks, states, inputs and step sizes", "why_tests_cant": "An identity between successive states and a limit over step sizes; a test that runs into a steady state sees the law hold.", "anchors": ["pipedream_solver/nsuperlink.py:gamma_uk", "pipedream_solver/nsuperlink.py:gamma_dk", "pipedream_solver/nsuperlink.py:nSuperLink.superlink_upstream_head_coefficients", "pipedream_solver/superlink.py:SuperLink.solve_superlink_depths"]}
{"id": "C166", "title": "Control flows vary continuously with the water levels", "statement": "A small change of the heads at a weir, an orifice or a pump changes its reported flow by a small amount. In the code this holds for weirs everywhere; the flow of a two-way orifice jumps exactly where the higher water stands at the crown of the opening and where both waters stand at the same level between sill and crown; the flow of a pump jumps exactly where it switches on below its shut-off head.", "quantifier": "for all heads, openings, coefficients and dimensions", "why_tests_cant": "Continuity is a statement about all neighbourhoods; a test compares finitely many pairs of heads and has to hit the level of the jump.", "anchors": ["pipedream_solver/nsuperlink.py:numba_solve_orifice_flows", "pipedream_solver/nsuperlink.py:numba_solve_weir_flows", "pipedream_solver/nsuperlink.py:numba_solve_pump_flows"]}
{"id": "C167", "title": "A control that is kept shut might as well not be there", "statement": "Adding an orifice with opening 0, a pump with signal 0, or a weir whose gate stays above the water to a network changes nothing else: through every sequence of steps the heads, depths and flows are those of the network without it, and it reports no flow. In the code this holds for pumps, for weirs and for orifices other than circular, elliptical and floodplain ones; a shut round orifice makes every step raise, a shut floodplain orifice keeps discharging.", "quantifier": "for all networks, control tables, sequences of inputs and starting states", "why_tests_cant": "A relation between the runs of two networks of any size; a test compares a few runs, and only to rounding.", "anchors": ["pipedream_solver/nsuperlink.py:nSuperLink.orifice_hydraulic_geometry", "pipedream_solver/nsuperlink.py:numba_orifice_geometry", "pipedream_solver/nsuperlink.py:numba_orifice_flow_coefficients", "pipedream_solver/nsuperlink.py:numba_weir_flow_coefficients", "pipedream_solver/nsuperlink.py:numba_pump_flow_coefficients"]}
{"id": "C168", "title": "Independent measurements may be assimilated together or one after another", "statement": "Giving two sets of independent measurements of the same step to the filter in two calls leaves the same heads and the same covariance as giving them in one call. In the code the update itself has this property, but `kalman_filter` predicts the covariance again in every call, so two calls after one step agree with one joint call only if that second prediction changes nothing.", "quantifier": "for all networks, observation matrices, covariances and measurements", "why_tests_cant": "A relation between two sequences of calls for all matrices; a test covers single numbers and compares to rounding.", "anchors": ["pipedream_solver/simulation.py:Simulation.kalman_filter", "pipedream_solver/nutils.py:_kalman_semi_implicit"]}
{"id": "C169", "title": "Several controls side by side act as one with their total capacity", "statement": "Replacing an orifice, weir or pump by several smaller ones between the same superjunctions (orifices with a share of the discharge coefficient, weirs with a share of length and side slope, pumps with a share of the discharge at every lift; shares adding up to one) changes no head, depth or pipe flow, and the parts carry the flow of the control in proportion to their shares. The code does this except where the volume limit of an orifice binds: every part is limited by itself, so that the parts together draw more than the whole and more than the source holds.", "quantifier": "for all networks, all divisions of their controls, all sequences of inputs and all states", "why_tests_cant": "A relation between two networks of different size over whole runs; a test covers single divisions and compares to rounding.", "anchors": ["pipedream_solver/nsuperlink.py:nSuperLink.solve_orifice_flows", "pipedream_solver/nsuperlink.py:numba_orifice_flow_coefficients", "pipedream_solver/nsuperlink.py:numba_weir_flow_coefficients", "pipedream_solver/nsuperlink.py:numba_pump_flow_coefficients"]}
{"id": "C170", "title": "Errors of concentrations are not amplified", "statement": "Two water-quality runs in the same water whose initial concentrations, inflow concentrations and boundary values differ by at most some amount differ by at most that amount at every superjunction, junction, link and pipe end after any number of steps of any size. A run restarted from a slightly wrong state stays that close to the right one.", "quantifier": "for every network, every pair of runs with balanced water, nonnegative reaction rates and concentrations and the default limits, every sequence of steps", "why_tests_cant": "A bound over all pairs of runs and all lengths of runs; tests sample a few runs and would see slow growth of errors only by chance.", "anchors": ["pipedream_solver/nquality.py:QualityBuilder.step", "pipedream_solver/nquality.py:QualityBuilder.solve_sparse_matrix", "pipedream_solver/nquality.py:QualityBuilder.solve_internals_backwards", "pipedream_solver/nquality.py:QualityBuilder.solve_boundary_states"]}
{"id": "C171", "title": "Water-quality runs converge to the transport equations in time", "statement": "As the steps get shorter, the concentrations of a run tend to those which satisfy the transport equations at every moment: advection and dispersion through every face, reaction, inflows, boundary values, in volumes that fill and empty with the water. The error of a run is at most its initial error plus a constant times the sum of the squares of its step sizes, at every superjunction, junction, link and pipe end, whatever the individual step sizes.", "quantifier": "for every network, every solution of the transport equations in time whose rates of change vary boundedly, every run with balanced water", "why_tests_cant": "A limit with a constant valid for all runs; a test compares finitely many step sizes with one another, not with the solution.", "anchors": ["pipedream_solver/nquality.py:QualityBuilder.step", "pipedream_solver/nquality.py:QualityBuilder.solve_sparse_matrix", "pipedream_solver/nquality.py:QualityBuilder.solve_internals_backwards", "pipedream_solver/nquality.py:QualityBuilder.solve_boundary_states", "pipedream_solver/nquality.py:beta_ik", "pipedream_solver/nquality.py:gamma_ik"]}
{"id": "C172", "title": "Steady pipe flow follows the documented momentum balance and its energy line falls", "statement": "In every link the computed flow satisfies the momentum balance of docs/governing-equations.md, with the advective term u_{I+1} Q_{I+1} - u_I Q_I, and in a steady state without lateral inflow the energy line (water surface plus velocity head) falls along every pipe. The code satisfies another balance: its coefficients leave out (u_{I+1} - u_I) Q_i, so that the documented one holds exactly where that product vanishes. Steady flow therefore has no velocity head: the surface itself falls by the friction and structure losses, it never rises along the flow, and along a narrowing pipe the energy line rises.", "quantifier": "for all networks, steps and steady states", "why_tests_cant": "Compares the balance solved with a differential balance in the documentation for all flows; tests compare runs with stored runs of the same program.", "anchors": ["pipedream_solver/nsuperlink.py:numba_a_ik", "pipedream_solver/nsuperlink.py:numba_b_ik", "pipedream_solver/nsuperlink.py:numba_c_ik", "pipedream_solver/superlink.py:SuperLink.step"]}
{"id": "C173", "title": "C_uk, C_dk and C are discharge coefficients", "statement": "An opening with discharge coefficient C and area A carries Q = C A sqrt(2 g dH) under the head difference dH, in particular every pipe inlet (C_uk), pipe outlet (C_dk) and control structure in a link (C). In the numba class the coefficients are loss coefficients: in a steady state an inlet or outlet obeys the law only if nothing flows or the coefficient is 1, a structure only if nothing flows or 2 C^3 = 1. The coefficient 1/c^2 gives the discharge coefficient c. The pure-Python class follows the documented law.", "quantifier": "for all networks, coefficients and steady states", "why_tests_cant": "A law between a parameter and the flow for all values; the tests use the default only, for which no reference flow is known.", "anchors": ["pipedream_solver/nsuperlink.py:gamma_uk", "pipedream_solver/nsuperlink.py:gamma_dk", "pipedream_solver/nsuperlink.py:numba_b_ik", "pipedream_solver/superlink.py:SuperLink.gamma_uk"]}
{"id": "C174", "title": "A water-quality model forgets its initial concentrations", "statement": "Wherever the water is renewed or the contaminant decays (there is a bounded field of residence times F), two runs with the same hydraulics and the same inputs but different initial concentrations approach each other: after a first step of size dt_0, their largest difference is at most delta F / dt_0, and every further step of size dt shrinks this bound by the factor F / (F + dt). Hence for every accuracy there is a number of steps after which all runs agree, whatever they started from. (Boundary values must be given: a boundary concentration left out keeps its initial value.)", "quantifier": "for all networks, waters with bounded residence times, step sizes, inputs and pairs of initial concentrations", "why_tests_cant": "A statement about the limit of arbitrarily long runs for all pairs of initial states; a test sees a finite number of runs of finite length.", "anchors": ["pipedream_solver/nquality.py:QualityBuilder.step", "pipedream_solver/nquality.py:QualityBuilder.__init__"]}
{"id": "C175", "title": "Constant conditions have one steady distribution of concentrations, and runs tend to it", "statement": "In water with bounded residence times and constant flows, volumes, reaction, inflow and boundary concentrations there is exactly one distribution of concentrations that does not change in time. It is non-negative and does not depend on the step size. Every run from non-negative concentrations, with steps of any sizes bounded below, comes and stays arbitrarily close to it everywhere in the network.", "quantifier": "for all networks, constant conditions with bounded residence times, sequences of step sizes and initial concentrations", "why_tests_cant": "Existence and a limit of infinite runs; a test that runs for a long time sees small changes, not convergence, and cannot tell whether the result depends on start or step size.", "anchors": ["pipedream_solver/nquality.py:QualityBuilder.step", "pipedream_solver/nquality.py:QualityBuilder.solve_sparse_matrix", "pipedream_solver/nquality.py:QualityBuilder.solve_internals_backwards"]}
{"id": "C176", "title": "Steady pipe flow follows the chosen friction formula", "statement": "In a steady state without lateral inflow the velocity of every link without structure is the one that the friction formula of its superlink (Manning, Hazen-Williams or Darcy-Weisbach with the friction factor of Swamee and Jain) gives for the hydraulic radius and the slope of the water surface; in uniform flow that slope is the slope of the bed. Manning's formula is met exactly, and so is Hazen-Williams' with 1.354^(-1/1.85) for its factor 0.849 and 1/1.85 for its exponent 0.54. The Darcy-Weisbach loss is met only if nothing flows or 8*0.01274*g = 1, which no value of g in use satisfies.", "quantifier": "for all networks, roughness values and steady states", "why_tests_cant": "Relates the flows of a steady state to a textbook law for all parameters; tests compare with stored runs of the same program and use Manning only.", "anchors": ["pipedream_solver/nsuperlink.py:friction_slope", "pipedream_solver/nsuperlink.py:numba_b_ik"]}
{"id": "C177", "title": "More flow means more friction loss", "statement": "With section, length and roughness unchanged, a greater flow loses more head by friction. Manning and Hazen-Williams losses grow strictly with the flow, Darcy-Weisbach losses where the flow is turbulent enough. In slow Darcy-Weisbach flow it fails: in every section with hydraulic radius above the roughness there is a flow (Reynolds number near 7) at which the program divides by zero and below which the loss exceeds every bound, so that a smaller flow loses more than a greater one.", "quantifier": "for all flows, sections and roughness values", "why_tests_cant": "Monotonicity over all pairs of flows with a singularity at one value; a test would have to hit it.", "anchors": ["pipedream_solver/nsuperlink.py:friction_slope"]}
{"id": "C178", "title": "A step depends continuously on the state it starts from", "statement": "If states, sections, inflows, prescribed heads, openings and step sizes tend to those of a given step, then the heads, depths and flows after the steps tend to those after the given step. It holds if no head of a pipe end is exactly at the invert of the pipe and every control has water flowing, different heads on its sides and no head at one of its thresholds. It fails at these: the depth at a resting pipe end follows the new head if the old head was at the pipe's invert and is the minimum depth if it was below by any amount, and the coefficient of an orifice exceeds every bound as its flow tends to zero and is zero at zero flow. The same holds for whole runs of an object that computes its own sections, storages and orifice areas, if in every call of the limiting run no level, section, storage or control is at one of its thresholds.", "quantifier": "for all networks, states, sections, inputs, leftover work arrays and ways of approaching them", "why_tests_cant": "A limit over all families of states; a test can compare a few pairs of runs only.", "anchors": ["pipedream_solver/superlink.py:SuperLink.step", "pipedream_solver/nsuperlink.py:gamma_o"]}
{"id": "C179", "title": "Nothing flows for ever by itself", "statement": "A network that is left to itself (no external or lateral inflow, no pump at work, all fixed heads at one level) and that a step leaves as it was is at rest. It holds for superlinks and weirs: none carries water, and the surface in every superlink is level with the heads at both its ends; in general the power that pipes, orifices and weirs take from the heads is exactly that of inflows and pumps. It fails for orifices: one that is partly filled carries water from its upstream to its downstream superjunction also when both have the same level, so that two of them in opposite directions drive water round for ever.", "quantifier": "for all networks, sections, step sizes and states inside the limits of depths and heads", "why_tests_cant": "Excludes every circulating state of every network; tests look at a few runs for a finite time.", "anchors": ["pipedream_solver/superlink.py:SuperLink.step", "pipedream_solver/nsuperlink.py:numba_solve_orifice_flows"]}
{"id": "C180", "title": "Given sections determine the steady flow", "statement": "Two steady states of a network of Manning or Hazen-Williams superlinks without controls and lateral inflow, with the same sections (as in full pipes), the same inflows and fixed heads and all pipe ends under water, have the same flow in every superlink; the heads of all superjunctions joined to a fixed head, and the depths in the superlinks between them, are the same too, and heads joined to no fixed head differ by one amount. So a run that has become steady does not depend on how it was started.", "quantifier": "for all network topologies including loops, all sections, inflows and fixed heads", "why_tests_cant": "Uniqueness over all pairs of steady states of all networks.", "anchors": ["pipedream_solver/superlink.py:SuperLink.step", "pipedream_solver/nsuperlink.py:friction_slope"]}
{"id": "C181", "title": "Steady levels rise with inflows and fixed heads", "statement": "For a network of Manning or Hazen-Williams superlinks without controls and lateral inflow, with given sections (as in full pipes) and all pipe ends under water: with at least as much inflow at every free superjunction and at least as high a fixed head at every fixed one, the steady head of every superjunction joined to a fixed head, and the steady depth at every junction of the superlinks between them, is at least as high.", "quantifier": "for all network topologies including loops, all sections, and all pairs of ordered inflows and fixed heads", "why_tests_cant": "A comparison between all pairs of steady states of all networks.", "anchors": ["pipedream_solver/superlink.py:SuperLink.step", "pipedream_solver/nsuperlink.py:friction_slope"]}
{"id": "C182", "title": "Sections vary continuously with depth", "statement": "Flow area, wetted perimeter, hydraulic radius and top width of every supported section are continuous functions of the depths at the two ends of a link wherever the link holds water; a small change of depth makes a small change of the section.", "quantifier": "for all ten shapes, all valid dimensions and all depths of wet links", "why_tests_cant": "Continuity is a statement about limits at every depth.", "anchors": ["pipedream_solver/ngeometry.py:Circular_B_ik", "pipedream_solver/ngeometry.py:Rect_Closed_B_ik", "pipedream_solver/ngeometry.py:Floodplain_Pe_ik", "pipedream_solver/ngeometry.py:Parabolic_Pe_ik"]}
{"id": "C183", "title": "Deeper water carries more", "statement": "At the same slope a section filled to a greater depth (up to its height) carries more water: neither its hydraulic radius nor Manning's conveyance falls as the water rises, so that at most one depth carries a given flow.", "quantifier": "for all shapes, all valid dimensions and all pairs of depths", "why_tests_cant": "A monotonicity over all depths and dimensions.", "anchors": ["pipedream_solver/ngeometry.py:Trapezoidal_A_ik", "pipedream_solver/ngeometry.py:Trapezoidal_Pe_ik", "pipedream_solver/ngeometry.py:Parabolic_Pe_ik", "pipedream_solver/ngeometry.py:Floodplain_A_ik", "pipedream_solver/ngeometry.py:Floodplain_Pe_ik", "pipedream_solver/nsuperlink.py:friction_slope"]}
{"id": "C184", "title": "The infiltration rate declines towards the conductivity of the soil", "statement": "With water on offer, the reported infiltration rate is at least the smaller of the supply and the saturated conductivity and at most the Green-Ampt capacity Ks(1 + psi theta_d/F) at the beginning of the step; from one step to the next of the same size it does not rise while the supply does not; and n steps into a spell with more on offer than the conductivity it exceeds Ks by at most Ks psi theta_d divided by what has infiltrated, which is at least n Ks dt. All up to the tolerance of the root finder.", "quantifier": "for all soils, all states with non-negative cumulative infiltration, flagged as saturated or not, all supplies, step sizes and lengths of a wet spell", "why_tests_cant": "Order and decay statements over all soils, states and rain histories, with an explicit rate of decay.", "anchors": ["pipedream_solver/ninfiltration.py:nGreenAmpt.step", "pipedream_solver/ninfiltration.py:nGreenAmpt.saturated_case", "pipedream_solver/ninfiltration.py:nGreenAmpt.unsaturated_case_3"]}
{"id": "C185", "title": "Which networks have a steady flow", "statement": "A network of Manning or Hazen-Williams superlinks without controls and lateral inflow, with given sections (as in full pipes), has a steady state with all pipe ends under water - for fixed heads that differ as required and are high enough - if and only if the inflows of every part not joined to a fixed head add up to zero; in particular it always has one if every superjunction is joined to a fixed head. The flows are the same for every such state and do not depend on how high the network is filled.", "quantifier": "for all network topologies including loops, all sections, inflows and fixed heads", "why_tests_cant": "Existence and uniqueness of a solution of a nonlinear system over all networks.", "anchors": ["pipedream_solver/superlink.py:SuperLink.step", "pipedream_solver/nsuperlink.py:friction_slope"]}
{"id": "C186", "title": "Steady levels with weirs, orifices and pumps", "statement": "In a network with weirs, orifices and pumps whose settings and sections are given, without lateral inflow and with pipe ends under water, a steady state with at least as much inflow at every free superjunction and at least as high fixed heads has at least as high a head wherever the water can be followed downstream to a fixed head (through superlinks in either direction, through weirs and orifices in the direction of their flow, through pumps at a lift between their limits); hence with equal inflows and fixed heads the head there is the same in every steady state, and so is the flow of every element between such superjunctions. Orifices must stay on one side of the crown and must not be throttled by the volume of water.", "quantifier": "for all network topologies, all weirs with non-negative discharge coefficients, all valid pumps, all orifice openings, settings, inflows and fixed heads", "why_tests_cant": "Uniqueness and comparison of solutions of a nonlinear system over all networks.", "anchors": ["pipedream_solver/superlink.py:SuperLink.step", "pipedream_solver/nsuperlink.py:numba_solve_weir_flows", "pipedream_solver/nsuperlink.py:numba_solve_orifice_flows", "pipedream_solver/nsuperlink.py:numba_solve_pump_flows"]}
{"id": "C187", "title": "Elevations read from and assigned to a model", "statement": "The attributes z_inv_uk and z_inv_dk are the offsets of a superlink above its superjunctions, as documented, and a model whose z_inv_j, z_inv_uk or z_inv_dk is assigned behaves like one built with these elevations; in particular water under which the superlinks lie still rests level.", "quantifier": "for all models, all assigned elevations and all steady states with pipe ends under water", "why_tests_cant": "The effect of an assignment on all later steps, for all values.", "anchors": ["pipedream_solver/superlink.py:SuperLink.z_inv_uk", "pipedream_solver/superlink.py:SuperLink.z_inv_dk", "pipedream_solver/superlink.py:SuperLink.z_inv_j", "pipedream_solver/nsuperlink.py:nSuperLink.upstream_hydraulic_geometry"]}
{"id": "C188", "title": "Which inflows a pump can carry steadily", "statement": "Whatever the level of its source, a pump passes nothing, or at least its discharge at its starting level and at most that at its least lift, and every discharge in between at some level. A superjunction drained only by a pump is therefore never steady with a positive inflow below the discharge at the starting level or above that at the least lift, and no step then leaves the state as it is.", "quantifier": "for all valid pumps, speeds and levels, all networks containing such a sump", "why_tests_cant": "Non-existence of a steady state over all states of all networks.", "anchors": ["pipedream_solver/nsuperlink.py:numba_solve_pump_flows", "pipedream_solver/nsuperlink.py:numba_pump_flow_coefficients"]}
{"id": "C189", "title": "A basin with an overflow settles at its steady level", "statement": "A superjunction with a constant inflow which drains freely over a weir is filled at the rate of the inflow up to the crest and then settles at the level at which the weir carries the inflow, whatever its surface, its first level and the size of the steps.", "quantifier": "for all networks containing such a basin, all surfaces, inflows, first levels and step sizes, over infinitely many steps", "why_tests_cant": "Convergence is a statement about infinitely many steps, for every step size.", "anchors": ["pipedream_solver/nsuperlink.py:numba_weir_flow_coefficients", "pipedream_solver/nsuperlink.py:numba_solve_weir_flows", "pipedream_solver/nsuperlink.py:gamma_w", "pipedream_solver/superlink.py:SuperLink.step"]}
{"id": "C190", "title": "A tank with a submerged outlet settles at its steady level", "statement": "A superjunction with a constant inflow which drains freely through an orifice, with levels above the crown of the opening, approaches the level at which the orifice carries the inflow from one side, without passing it, geometrically and whatever its surface, its first level and the size of the steps, as long as no step passes more through the orifice than the superjunction holds.", "quantifier": "for all networks containing such a tank, all surfaces, areas, inflows, first levels and step sizes, over infinitely many steps", "why_tests_cant": "Convergence is a statement about infinitely many steps, for every step size.", "anchors": ["pipedream_solver/nsuperlink.py:numba_orifice_flow_coefficients", "pipedream_solver/nsuperlink.py:numba_solve_orifice_flows", "pipedream_solver/nsuperlink.py:gamma_o", "pipedream_solver/superlink.py:SuperLink.step"]}
{"id": "C191", "title": "Opening an orifice further passes no less water", "statement": "At the same two heads an orifice that is opened further has no smaller flow area and passes no less water, in either direction.", "quantifier": "for all section shapes and parameters, orientations, sill and opening heights, pairs of openings and pairs of heads", "why_tests_cant": "The claim compares all pairs of openings at all heads for every shape; a test compares a few.", "anchors": ["pipedream_solver/nsuperlink.py:numba_orifice_geometry", "pipedream_solver/nsuperlink.py:numba_solve_orifice_flows", "pipedream_solver/ngeometry.py:Elliptical_A_ik"]}
{"id": "C192", "title": "A pumped sump is kept near the starting level of its pump, or settles", "statement": "Over a run of any length, a superjunction with a constant inflow that is drained by one pump to a held level behaves as a sump should. If the pump discharges at least the inflow at its starting level, the level never rises further above the starting level than one step's inflow lifts it, unless it began higher; it never falls further below than one step of the greatest discharge draws it down, unless it began lower. If the pump discharges more than the inflow there, it starts and stops for ever. If instead it carries the inflow at a level within its range of lifts and its exponent is at least one, the level approaches that level from one side and converges to it, whatever the time step.", "quantifier": "for all networks in which the sump is drained by that pump only, pump parameters, speeds, surfaces, inflows, step sizes, first levels and numbers of steps", "why_tests_cant": "The claim is about the limit of an unbounded run and about infinitely many switchings; a test simulates a few steps of one sump.", "anchors": ["pipedream_solver/nsuperlink.py:numba_pump_flow_coefficients", "pipedream_solver/nsuperlink.py:numba_solve_pump_flows", "pipedream_solver/superlink.py:_solve_step", "pipedream_solver/nsuperlink.py:solve_banded_matrix"]}
{"id": "C193", "title": "Junctions lie where the lengths of the links put them", "statement": "After construction the reported position of every junction is the length of the upstream end stretch of its superlink plus the lengths of the links between, so that the two ends of every link are its length apart, whatever the order in which the superlinks appear in the tables of links and junctions.", "quantifier": "for all sound tables of links and junctions, numbers of superlinks and links, lengths and end stretches", "why_tests_cant": "The positions are filled by boolean masks from values in row order; whether the orders agree depends on the tables, and the tests use generated or sorted ones.", "anchors": ["pipedream_solver/superlink.py:SuperLink.__init__", "pipedream_solver/superlink.py:SuperLink.x_Ik", "pipedream_solver/superlink.py:SuperLink._configure_internals_variable"]}
{"id": "C194", "title": "Communicating vessels level out", "statement": "Two superjunctions joined only by a drowned orifice, without inflow, level out: whatever the step, the higher level falls and the lower rises in every step, never past each other, the volume of the two together stays the same, the difference shrinks at least geometrically and both levels tend to the level at which the common volume stands. A one-way orifice with the higher water downstream passes nothing.", "quantifier": "for all such pairs in all networks, surfaces, orifices, settings, first levels, steps dt > 0 and numbers of steps, as long as the orifice stays drowned and no step passes more than the higher vessel holds", "why_tests_cant": "The limit and the absence of overshoot concern infinitely many steps and every step size; a test sees one run with one step.", "anchors": ["pipedream_solver/nsuperlink.py:numba_orifice_flow_coefficients", "pipedream_solver/nsuperlink.py:numba_solve_orifice_flows", "pipedream_solver/superlink.py:SuperLink.solve_orifice_flows", "pipedream_solver/superlink.py:SuperLink.step"]}
{"id": "C195", "title": "What the certainty of the filter depends on", "statement": "The covariance after `kalman_filter` is at most (in every direction) the one left by a less certain prior, more process noise or noisier measurements; along whole runs of assimilations too. Further measurements, correlated or not, leave no less certainty. The measured quantities are never less certain afterwards than their measurements, however uncertain they were; one measurement of variance r and an expectation of variance t combine to t r / (t + r). The covariance does not depend on the values measured.", "quantifier": "for all networks, dimensions, prior, process and measurement covariances, observation matrices, data and sequences of assimilations for which the updates complete", "why_tests_cant": "The order of covariance matrices quantifies over all directions and pairs of inputs; a test compares a few numbers.", "anchors": ["pipedream_solver/nutils.py:_kalman_semi_implicit", "pipedream_solver/simulation.py:Simulation.kalman_filter"]}
{"id": "C196", "title": "Water drawn off takes the substance it contains", "statement": "When water is drawn off a superjunction or junction (a negative inflow), the concentration of what remains does not change because of it: a network or tank of one concentration stays at that concentration.", "quantifier": "for all networks, concentrations, hydraulic states that balance water, withdrawals, volumes and step sizes", "why_tests_cant": "The sign of the inflow and the prescribed concentration are free inputs; the error depends on the withdrawn share and on the concentration, and its sign flips when more is drawn than remains.", "anchors": ["pipedream_solver/nquality.py:QualityBuilder.sparse_matrix_equations", "pipedream_solver/nquality.py:QualityBuilder.step", "pipedream_solver/nquality.py:eta_Ik"]}
{"id": "C197", "title": "In still water superjunctions influence each other equally", "statement": "From a state in which no link flows and all pipe ends are below water (orifices and weirs carrying nothing or drowned, pumps in any state), an additional inflow at superjunction i raises the head of superjunction j in the next step by exactly as much as the same inflow at j would raise i. Where water runs downstream a superlink passes on at least as much influence downstream as upstream.", "quantifier": "for all networks, geometries, states as described, step sizes, pairs of superjunctions and sizes of the inflow; for running water, all flows of one direction", "why_tests_cant": "Compares pairs of runs for every pair of superjunctions of every network; symmetric only if the two recurrences agree with each other exactly, for any number of links.", "anchors": ["pipedream_solver/superlink.py:SuperLink.forward_recurrence", "pipedream_solver/superlink.py:SuperLink.backward_recurrence", "pipedream_solver/superlink.py:SuperLink.superlink_flow_coefficients", "pipedream_solver/superlink.py:SuperLink.sparse_matrix_equations"]}
{"id": "C198", "title": "A large basin acts like a fixed head", "statement": "Giving a superjunction a large area and giving it a boundary condition at its present head are the same in the limit: however small a difference is allowed, from some area on the heads reported by a step with the basin and by the same step with that superjunction held at its head differ by no more, at every superjunction; the difference is at most inversely proportional to the area.", "quantifier": "for all networks with superlinks, orifices, weirs and pumps, states, inflows, step sizes and superjunctions without boundary condition; all areas beyond the stated one", "why_tests_cant": "A limit over all areas, comparing two different models of any network; a test sees a few areas.", "anchors": ["pipedream_solver/superlink.py:SuperLink.sparse_matrix_equations", "pipedream_solver/nsuperlink.py:numba_create_A_matrix", "pipedream_solver/superlink.py:SuperLink.solve_sparse_matrix"]}
{"id": "C199", "title": "Matrices given to the Kalman filter are used as given", "statement": "The covariances and operators Rcov, Qcov, C, H of Simulation may be given as a number (multiple of the identity), a vector (diagonal) or a matrix, a matrix is used as it is, and matrices of the documented shapes (also those documented at kalman_filter) can be used.", "quantifier": "for all numbers of superjunctions, observations and noise signals and all entries", "why_tests_cant": "The branch depends on the shape only; tests use square matrices with more than one column, for which the confusion of a column with a vector and the wrong documented shapes do not show.", "anchors": ["pipedream_solver/simulation.py:Simulation.__init__", "pipedream_solver/simulation.py:Simulation.kalman_filter", "pipedream_solver/nutils.py:_kalman_semi_implicit"]}
{"id": "C200", "title": "The step-size filters bring the error to the tolerance", "statement": "With each of the documented sets of coefficients, if the error of a step is proportional to the k-th power of its size and no limit is reached, the steps chosen by filter_step_size have (at once, or in the limit) the error tol times a power of the safety factor, and no other constant step persists.", "quantifier": "for all tolerances, error constants, orders k, safety factors, limits and initial steps", "why_tests_cant": "Convergence is a statement about infinitely many steps and depends on the roots of the filter's characteristic polynomial, that is on every coefficient and sign in the formula.", "anchors": ["pipedream_solver/simulation.py:Simulation.filter_step_size", "pipedream_solver/simulation.py:Simulation.__init__"]}
{"id": "C201", "title": "A steady flow is followed in the longest allowed steps", "statement": "In a steady flow (or standing water) the adaptive loop of the documentation (step with two or more subdivisions, then filter_step_size with a documented mean-type filter) never rejects a step, records the smallest error there is at every step, stays in the steady state, and from some iteration on takes steps of exactly max_dt. The only exception is a steady head of exactly -1 mm, where the error is 0/0 and every attempt is rejected.", "quantifier": "for all networks, steady states, norms, numbers of subdivisions and retries, filter limits, initial step sizes and numbers of iterations", "why_tests_cant": "It is a statement about unbounded runs through the model, the error estimate, the retry logic and the filter together; the exceptional head is a single number.", "anchors": ["pipedream_solver/simulation.py:Simulation.step", "pipedream_solver/simulation.py:Simulation._scaled_error", "pipedream_solver/simulation.py:Simulation._normed_error", "pipedream_solver/simulation.py:Simulation.filter_step_size"]}
{"id": "C202", "title": "The effects of inflows and prescribed heads within a step add up", "statement": "Steps of one size from one state depend affinely on what is fed in: if the superjunction inflows, lateral inflows and prescribed heads of one step are a weighted sum (weights adding to one) of those of three others, its heads are the same weighted sum of theirs. In particular the changes caused by two extra inflows add up, and an inflow scaled by a factor has its effect scaled by that factor. If no step reaches a depth limit the flows and depths in the pipes are weighted sums too.", "quantifier": "for all networks, states, geometries, step sizes, weights, inflows and prescribed heads", "why_tests_cant": "A test compares particular inflows; that no coefficient of the sweeps or of the matrix depends on the forcing is a statement about all of them, and a coefficient that does (a clip, a sign test on an inflow) changes only some cases.", "anchors": ["pipedream_solver/superlink.py:SuperLink.step", "pipedream_solver/nsuperlink.py:numba_node_coeffs", "pipedream_solver/nsuperlink.py:numba_forward_recurrence", "pipedream_solver/nsuperlink.py:numba_backward_recurrence", "pipedream_solver/nsuperlink.py:nSuperLink.solve_banded_matrix"]}
{"id": "C203", "title": "Every variable asked for is recorded as a table", "statement": "After record_state with variables named in its argument, and leaving the with block, each of these variables is available in simulation.states as a table with a row for the time of the record; the plain call records heads, depths, positions and flows of whatever elements the model has.", "quantifier": "for all models, argument lists, times, states recorded before and sequences of operations", "why_tests_cant": "A variable that is silently dropped raises nothing; only the names the tests happen to record are looked at.", "anchors": ["pipedream_solver/simulation.py:Simulation.record_state", "pipedream_solver/simulation.py:Simulation.__exit__", "pipedream_solver/superlink.py:SuperLink.save_state"]}
{"id": "C204", "title": "In still water the effect of an inflow is largest where it enters", "statement": "From a state in which no link flows and all pipe ends are below water (orifices and weirs carrying nothing or drowned, pumps in any state), additional inflow at one superjunction raises the head of no other superjunction in the next step by more than its own. Errors of the inflows (over a step, spread over the water surface they enter) and of prescribed heads cause an error of no head larger than the largest of them, however large the network.", "quantifier": "for all networks, geometries, states as described, step sizes, superjunctions, inflows, prescribed heads and errors", "why_tests_cant": "It is a statement about all pairs of superjunctions of all networks; where water falls over a weir it is false, so a test with a few networks shows nothing.", "anchors": ["pipedream_solver/nsuperlink.py:nSuperLink.sparse_matrix_equations", "pipedream_solver/nsuperlink.py:nSuperLink.solve_banded_matrix", "pipedream_solver/superlink.py:SuperLink.step"]}
{"id": "C205", "title": "A channel divided lengthwise carries the same water", "statement": "If superlinks are replaced by several superlinks side by side (\"lanes\"), each with a share of the width, of the junction areas, of the initial flow and of the lateral inflow, and with the depths and hydraulic radii of the undivided channel, then through every sequence of calls that returns, the heads, depths and control flows are those of the undivided network, every lane carries its share of the flow, and the lanes' flows add up to the flow of the undivided channel. Wide channels and tabulated sections can be divided in this way; an open rectangular channel cannot, because every lane has two walls and a smaller hydraulic radius.", "quantifier": "for all networks, geometries with the stated division, numbers of lanes, shares, initial values, inputs, step sizes and sequences of calls", "why_tests_cant": "It compares pairs of whole simulations of networks of different size; a test compares one pair for a few steps.", "anchors": ["pipedream_solver/nsuperlink.py:nSuperLink.link_coeffs", "pipedream_solver/nsuperlink.py:nSuperLink.node_coeffs", "pipedream_solver/nsuperlink.py:nSuperLink.forward_recurrence", "pipedream_solver/nsuperlink.py:nSuperLink.sparse_matrix_equations", "pipedream_solver/superlink.py:SuperLink.step"]}
{"id": "C206", "title": "Transects are read as documented", "statement": "A transect given in the documented form (lists of coordinates, numbers of sampling points) is accepted and sampled at the given number of levels; the dictionary belongs to the user and is not changed, so that it can be passed to another model of either class; the tables obtained are those of the surveyed sections, one per entry and in order.", "quantifier": "for all dictionaries of transects, all kinds of columns, numbers of points and further keys, and all sequences of models built from the same dictionary", "why_tests_cant": "Which combination of keys and column types is accepted is a statement about all dictionaries; the existing tests contain no transect at all.", "anchors": ["pipedream_solver/nsuperlink.py:nSuperLink.configure_hydraulic_geometry", "pipedream_solver/superlink.py:SuperLink.configure_hydraulic_geometry", "pipedream_solver/superlink.py:SuperLink.__init__", "pipedream_solver/geometry.py:Irregular.__init__", "pipedream_solver/ngeometry.py:Transect_A_ik"]}
{"id": "C207", "title": "Soil elements do not influence each other", "statement": "A GreenAmpt object with many soil elements steps each of them exactly as an object holding that element alone would: the masks, the shortened arrays and the writing back never mix elements. Elements with the same soil parameters and the same rain have the same history, in whatever company and at whatever row; reordering (or repeating) the rows reorders the results. A step of the object raises exactly if it raises for at least one element.", "quantifier": "for all numbers of elements, soil parameters, states, rainfalls, step sizes and runs", "why_tests_cant": "Which elements fall into which case changes from step to step; a test sees a few combinations of a few elements.", "anchors": ["pipedream_solver/infiltration.py:GreenAmpt.step", "pipedream_solver/infiltration.py:GreenAmpt.unsaturated_case_1", "pipedream_solver/infiltration.py:GreenAmpt.unsaturated_case_2", "pipedream_solver/ninfiltration.py:nGreenAmpt.step", "pipedream_solver/ninfiltration.py:nGreenAmpt.unsaturated_case_3", "pipedream_solver/ninfiltration.py:nGreenAmpt.saturated_case", "pipedream_solver/ninfiltration.py:run_green_ampt_newton"]}
{"id": "C208", "title": "Without numba every section is computed by its own formulas", "statement": "If numba is not installed, pipedream_solver.hydraulics exports the pure-Python SuperLink. A network built with it gives every link the geometry of its own section or transect, whatever the order in which Python iterates the set of section names. In the code the constructor raises AttributeError for every network, because the section names are stored as a numpy array and then used as a pandas series. With that one attribute repaired the grouping is right for regular sections; a dictionary of transects additionally raises KeyError unless each of its transects is used by some link, by some first link (if any first link is irregular) and by some last link, and orifice areas are computed only if all orifices have the same shape.", "quantifier": "for all link tables, section names, transects, orders of iteration and depths", "why_tests_cant": "The test suite runs with numba, where the method is overridden; and the order of a set of strings changes between processes.", "anchors": ["pipedream_solver/superlink.py:SuperLink.configure_hydraulic_geometry", "pipedream_solver/superlink.py:SuperLink.link_hydraulic_geometry", "pipedream_solver/superlink.py:SuperLink.upstream_hydraulic_geometry", "pipedream_solver/superlink.py:SuperLink.downstream_hydraulic_geometry"]}
{"id": "C209", "title": "A pipe divided by a superjunction acts like the undivided pipe", "statement": "Two superlinks that meet at a superjunction, at the same elevation and without losses (C_dk = C_uk = 0) and with nothing else attached, compute what one superlink running through would: the depths agree at the joint, and flows and depths of both together solve the momentum and continuity equations of the undivided superlink, whose joint is an interior junction storing what both end cells and the superjunction store. The only difference are two advection terms: they take the flow through the superjunction where the undivided superlink takes the flow of the neighbouring link. The parts solve the undivided equations exactly if these terms agree (no advection across the joint, or nothing stored there); then the undivided superlink between the same end depths has no other solution. In steady flow without inflow at the joint, flow and water level pass through unchanged.", "quantifier": "for all networks, joints, states, inputs and step sizes of unclipped passes; for all coefficients, storages and solutions of the two systems", "why_tests_cant": "A refinement statement about two differently assembled systems of equations; a test compares two runs and cannot tell discretisation differences from errors.", "anchors": ["pipedream_solver/nsuperlink.py:numba_forward_recurrence", "pipedream_solver/nsuperlink.py:numba_backward_recurrence", "pipedream_solver/nsuperlink.py:numba_solve_internals", "pipedream_solver/nsuperlink.py:numba_create_A_matrix", "pipedream_solver/nsuperlink.py:numba_a_ik", "pipedream_solver/nsuperlink.py:numba_c_ik"]}
{"id": "C210", "title": "Rain either infiltrates or runs off", "statement": "Over any run of a GreenAmpt object, the depth infiltrated (the reported rates times the step sizes) times the area plus the reported runoff volume equals the rain volume. In the code the sum exceeds the rain by exactly the water that infiltrated in excess of the rain of its own step: water reported as runoff also stays as a pond and infiltrates later. With equal steps of at least one second a fresh element never infiltrates more than the rain, the rest being dt times the reported ponded depth; and if no pond remains at the end, all the rain has infiltrated and the whole reported runoff is surplus.", "quantifier": "for all soils, numbers of elements, step sizes, rains and lengths of the run", "why_tests_cant": "The account concerns whole runs with an arbitrary alternation of wet and dry steps; a test of one storm without a dry spell balances exactly.", "anchors": ["pipedream_solver/infiltration.py:GreenAmpt.compute_runoff", "pipedream_solver/infiltration.py:GreenAmpt.compute_ponding_depth", "pipedream_solver/infiltration.py:GreenAmpt.available_rainfall"]}
{"id": "C211", "title": "Surveyed sections have the area, width and perimeter of the surveyed bed", "statement": "For a section surveyed at stations in increasing order, the sampled flow area at a level is the integral of the water depth over the broken line through the stations, the width is the total length of stations under water, and the wetted perimeter is the arc length of the bed under water; the tables built from a transect dictionary hold these integrals level by level, and the hydraulic radius is their quotient, zero if nothing is wetted. The area a link reads from the tables agrees with this integral at the sampled levels, is never too small in between, is too large by at most the section width times the level spacing, and tends to the integral as the number of levels grows.", "quantifier": "for all numbers of stations, elevations (several pools included) and water levels", "why_tests_cant": "The formulas distinguish four cases per segment; sampled sections cannot exclude an error in one case of one geometry, and the integral is not computable by a test.", "anchors": ["pipedream_solver/ngeometry.py:Transect_A_ik", "pipedream_solver/ngeometry.py:Transect_B_ik", "pipedream_solver/ngeometry.py:Transect_Pe_ik", "pipedream_solver/nsuperlink.py:nSuperLink.configure_hydraulic_geometry"]}
{"id": "C212", "title": "Regular sections have the area and the wetted perimeter of their shapes", "statement": "Describe each shape by its width at every height above the invert. The flow area of a link is the integral of that width up to the water level (mean of the two depths, kept between invert and crown), and the wetted perimeter is the bottom width plus the arc length of both sides up to the water level; a force main has the area of the whole circle. The code meets this for circular, rectangular, triangular, trapezoidal and compound sections (area also for elliptical, wide and force-main sections). It does not for parabolic sections: the area is too large by the factor sqrt(height/depth), and the perimeter is that of a parabola as wide as the full section; both are right only when the section is full.", "quantifier": "for all shapes, valid parameters and depths at the two ends", "why_tests_cant": "The formulas use inverse trigonometric functions, logarithms and case distinctions on depth; a test compares a few depths, and a full or an empty parabolic section gives the right values.", "anchors": ["pipedream_solver/ngeometry.py:Circular_A_ik", "pipedream_solver/ngeometry.py:Circular_Pe_ik", "pipedream_solver/ngeometry.py:Elliptical_A_ik", "pipedream_solver/ngeometry.py:Floodplain_A_ik", "pipedream_solver/ngeometry.py:Floodplain_Pe_ik", "pipedream_solver/ngeometry.py:Parabolic_A_ik", "pipedream_solver/ngeometry.py:Parabolic_Pe_ik"]}
{"id": "C213", "title": "The water in a pipe, read off its cross sections, follows its flows", "statement": "The water in a superlink is the sum over its links of length times flow area, plus what stands on the junctions' own surface. Over any number of steps without clipping (default end method) it should change by what flows in at the ends and sides, less what the end stretches take up. The code meets this for rectangular and wide sections that do not run full. For other sections each step uses the width at the old level, and the difference is, per link, its length times the integral of (width at z - width at the old level) from the old to the new level: widening sections (triangular, trapezoidal, compound, lower half of a circle) create water whether the level rises or falls, at most the change of the width times the change of the level; the upper half of a circle destroys water. While a link runs full its section takes up nothing and the difference is the slot (or top) width times the change of level. Parabolic sections differ in first order: a rising level creates water below four ninths of the height and destroys it above.", "quantifier": "for all networks, superlinks, runs of any length, inputs, step sizes, regular sections and depths below the crown", "why_tests_cant": "The difference is second order in the change of level, invisible for rectangular test channels and within tolerance for short runs; it is systematic in sign and accumulates, also when all levels return to where they were.", "anchors": ["pipedream_solver/nsuperlink.py:numba_node_coeffs", "pipedream_solver/nsuperlink.py:node_coeffs", "pipedream_solver/superlink.py:solve_internals_backwards", "pipedream_solver/ngeometry.py:Circular_B_ik", "pipedream_solver/ngeometry.py:Circular_A_ik", "pipedream_solver/ngeometry.py:Triangular_B_ik"]}
{"id": "C214", "title": "The regime of a superlink is decided as a whole", "statement": "With inertial_damping every pass classifies each superlink by the plain mean of the Froude numbers of its links (link lengths do not matter), all junctions of a superlink carry the same flag, and the flag does not depend on the flow direction. All links at least as fast as waves: flagged; all slower: not flagged; one link of Froude number at least the number of links flags the superlink alone. In the base class solve_internals_forwards(supercritical_only=True) followed by solve_internals_backwards(subcritical_only=True) therefore share the superlinks between them. Without inertial_damping the flags never exist and both calls raise, however many steps were made.", "quantifier": "for all tables, numbers of links, flows, areas, widths, states and numbers of passes", "why_tests_cant": "The flag is a threshold on a mean; a test with a uniform pipe cannot tell a mean over links from one over lengths or a maximum, nor show that no junction of a mixed superlink is left out or solved twice.", "anchors": ["pipedream_solver/superlink.py:compute_flow_regime", "pipedream_solver/superlink.py:solve_internals_forwards", "pipedream_solver/superlink.py:solve_internals_backwards", "pipedream_solver/superlink.py:_setup_step"]}
{"id": "C215", "title": "A rejected step forgets its tolerance, and the counter counts attempts", "statement": "Two calls of Simulation.step from the same state with the same step size, subdivisions and retries, which both reject their first attempt, end in the same state, histories and counter (or the same exception), whatever tolerances and norms they were given. The private counter _iter_count grows by one more than the number of halvings, so after a run it equals the number of completed calls exactly if every positive requested step was taken in full, that is, if the clock advanced by their sum.", "quantifier": "for all hydraulics, states, step sizes, subdivisions, retries, tolerances, norms and sequences of calls", "why_tests_cant": "A test sees one tolerance and one sequence of rejections at a time; that the outcome does not depend on the tolerance at all after the first rejection is a statement about pairs of calls.", "anchors": ["pipedream_solver/simulation.py:step", "pipedream_solver/simulation.py:load_state"]}
